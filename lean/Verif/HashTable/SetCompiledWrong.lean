import Verif.HashTable.SetCompiledProps
import Verif.Common

/-!
# Compiled set methods that are not set algebra (C89)
-/

namespace Verif.HashTable
open Spec

variable {K : Type}

/-- `s.intersection_update(s)` empties every set: the set is cleared before it is visited. -/
theorem intersection_update_with_itself {ko : KeyOps K} (lk : LawfulElt ko) {h : Heap K} (hi : ∀ i, Inv ko (h i)) (i : Nat) :
    ∃ h', stepSC ko (typedHash ko) h (.interUpdate i [.set i]) = .ok (h', .ok .unit) ∧ ∀ x, ¬store ko h' i x := by
  obtain ⟨ci, ce⟩ := clearC_ok (hi i)
  have en : elems (clearC (h i)) = [] := by unfold elems; rw [ce]; rfl
  have cm : ∀ x, ¬Mem ko (clearC (h i)) x := by
    rintro x ⟨y, hy, _⟩
    rw [en] at hy; cases hy
  have e : interUpdateC ko (typedHash ko) h i (h i) (.set i) = .ok (clearC (h i), true) := by
    unfold interUpdateC forArg
    simp only [if_true]
    rw [overSet_eq]
    · show (eachK _ _ (elems (clearC (h i)))).map _ = _
      rw [en]; rfl
    · intro s x s' _ hx _
      have hx : x ∈ elems (clearC (h i)) := hx
      rw [en] at hx; cases hx
  refine ⟨_, by simp only [stepSC, forArgs, e, Except.bind, if_true]; rfl, fun x => ?_⟩
  show ¬Mem ko (if i = i then clearC (h i) else h i) x
  rw [if_pos rfl]; exact cm x

/-- `s.difference_update(s)` raises `RuntimeError` for every set that is not empty, and leaves it with all but its first
element. -/
theorem difference_update_with_itself {ko : KeyOps K} (lk : LawfulElt ko) {h : Heap K} (hi : ∀ i, Inv ko (h i)) (i : Nat)
    (hc : (h i).count ≤ 2 ^ 28) {k : K} {ks : List K} (he : elems (h i) = k :: ks) :
    ∃ h', stepSC ko (typedHash ko) h (.diffUpdate i [.set i]) = .ok (h', .error .runtimeError) ∧ elems (h' i) = ks := by
  obtain ⟨t, e, it, _, f, _⟩ := discardC_ok lk (hi i) k hc
  have fk : elems t = ks := by
    rw [f, he]
    have d := diff_elems (hi i)
    rw [he] at d
    obtain ⟨d1, _⟩ := List.pairwise_cons.1 d
    rw [List.filter_cons_of_neg (by simp [lk.refl k])]
    exact List.filter_eq_self.2 fun y hy => by simp [d1 y hy]
  have ct : t.count ≠ (h i).count := by
    rw [count_eq it, count_eq (hi i), fk, he]; simp
  have lp : diffUpdateC ko (typedHash ko) h i (h i) (.set i) = .ok (t, false) := by
    unfold diffUpdateC forArg
    simp only [if_true]
    unfold overSet
    have ln : ∃ n, (h i).items.length = n + 1 := by
      cases hl : (h i).items with
      | nil => unfold elems iterate at he; rw [hl] at he; cases he
      | cons a l => exact ⟨l.length, rfl⟩
    obtain ⟨n, ln⟩ := ln
    show forSet id (h i).count _ ((h i).items.length + 1) 0 (h i) = _
    rw [ln, forSet, if_neg (by simp)]
    have sc := scan_spec (h i).items 0
    have fe : (h i).items.filterMap id = (k, ()) :: ((h i).items.filterMap id).tail := by
      unfold elems iterate at he
      cases hf : (h i).items.filterMap id with
      | nil => rw [hf] at he; cases he
      | cons a l => rw [hf] at he; injection he with he; simp [← he]
    rcases sc with ⟨_, b⟩ | ⟨m, x, a, _, b⟩
    · rw [b] at fe; cases fe
    · have xk : x = k := by
        rw [b] at fe; injection fe with fe; injection fe
      subst xk
      simp only [id, List.drop_zero, a, e, Except.bind]
      rw [forSet]
      exact if_pos ct
  refine ⟨_, by simp only [stepSC, forArgs, lp, Except.bind]; rfl, ?_⟩
  show elems (if i = i then t else h i) = ks
  rw [if_pos rfl]; exact fk

/-- `s.union(l)`, `s.intersection(l)` and `s.difference(l)` with a list raise `TypeError`, for every set and every list. -/
theorem union_with_a_list_raises (ko : KeyOps K) (nh : NHash K) (h : Heap K) (d i : Nat) (l : List K) (as : List (Arg K)) :
    stepSC ko nh h (.union d i (.iter l :: as)) = .ok (h, .error .typeError) ∧
    stepSC ko nh h (.inter d i (.iter l :: as)) = .ok (h, .error .typeError) ∧
    stepSC ko nh h (.diff d i (.iter l :: as)) = .ok (h, .error .typeError) := ⟨rfl, rfl, rfl⟩

/-- `s.union()`, `s.intersection()` and `s.difference()` return the object `s`, not a new one: whatever is done to the
result is done to `s`. -/
theorem union_of_nothing_is_the_set_itself (op : SetT K → SetT K → Except Err (SetT K)) (h : Heap K) (i : Nat) :
    multipleC op h (.inl i) [] = .ok (.ok (.inl i)) := rfl

/-- With an argument the result is new. -/
theorem union_of_something_is_new (op : SetT K → SetT K → Except Err (SetT K)) (h : Heap K) (r : Sum Nat (SetT K))
    (a : Arg K) (as : List (Arg K)) (v : Sum Nat (SetT K)) (e : multipleC op h r (a :: as) = .ok (.ok v)) :
    ∃ t, v = .inr t := by
  have gen : ∀ (as : List (Arg K)) (t : SetT K), multipleC op h (.inr t) as = .ok (.ok v) → ∃ t, v = .inr t := by
    intro as
    induction as with
    | nil => intro t e; injection e with e; injection e with e; exact ⟨t, e.symm⟩
    | cons a as ih =>
      intro t e
      cases a with
      | iter l => simp [multipleC] at e
      | set j =>
        simp only [multipleC] at e
        cases ho : op ((Sum.inr t : Sum Nat (SetT K)).elim h id) (h j) with
        | error e' => rw [ho] at e; cases e
        | ok t' => rw [ho] at e; exact ih t' e
  cases a with
  | iter l => simp [multipleC] at e
  | set j =>
    simp only [multipleC] at e
    cases ho : op (r.elim h id) (h j) with
    | error e' => rw [ho] at e; cases e
    | ok t' => rw [ho] at e; exact gen as t' e

/-- `Set(int)(range(20)).symmetric_difference(ListOf(int)([3, 3]))` still contains 3: it is taken out and put back.  With
a list more than twice as long as the set, it raises. -/
theorem symmetric_difference_with_a_list :
    (runSM intKey (typedHash intKey) (fun _ => {})
      [(true, .make 0 first20), (true, .symDiff 1 0 (.iter [3, 3])), (true, .contains 1 3)]).map (·.2) =
        .ok [.ok .unit, .ok .unit, .ok (.bool true)] ∧
    (runSM intKey (typedHash intKey) (fun _ => {})
      [(true, .make 0 [5]), (true, .symDiff 1 0 (.iter [1, 2, 3]))]).map (·.2) = .ok [.ok .unit, .error .typeError] := by
  constructor <;> decide +kernel

/-- The first of these answers is not that of set algebra. -/
theorem symmetric_difference_not_algebra (r1 r2 : Except Err (SRes Int)) :
    ¬Prog intKey (fun _ _ => False) [.make 0 first20, .symDiff 1 0 (.iter [3, 3]), .contains 1 3]
      [r1, r2, .ok (.bool true)] := by
  intro p
  cases p with
  | cons _ S1 _ _ _ _ p1 p =>
  cases p with
  | cons _ S2 _ _ _ _ p2 p =>
  cases p with
  | cons _ S3 _ _ _ _ p3 p =>
  obtain ⟨_, b, h1, h2⟩ := p3
  injection h1 with h1; injection h1 with h1
  subst h1
  have m := (p2.2 1 3).1 (h2.1 rfl)
  rw [if_pos rfl] at m
  have i3 : inArg intKey S1 (3 : Int) (.iter [3, 3]) := ⟨3, by simp, intKey_elt.refl 3⟩
  rcases m with ⟨_, m⟩ | ⟨m, _⟩
  · exact m i3
  · refine m ((p1.2 0 3).2 ?_)
    rw [if_pos rfl]
    exact ⟨3, by decide, intKey_elt.refl 3⟩

/-- Elements that are arbitrary Python objects: what the interpreter adds is not found by compiled code if its hash is
negative. -/
theorem object_elements_disagree :
    let ko : KeyOps Int := ⟨fun _ => -1, fun a b => decide (a = b)⟩
    LawfulElt ko ∧
    (runSM ko (objectHash ko) (fun _ => {}) [(false, .add 0 5), (false, .contains 0 5), (true, .contains 0 5)]).map (·.2) =
      .ok [.ok .unit, .ok (.bool true), .ok (.bool false)] := by
  refine ⟨⟨⟨?_, ?_, ?_, ?_⟩, ?_⟩, by decide +kernel⟩
  · intro a b h; simp at h ⊢; exact h.symm
  · intro a b c h h'; simp at h h' ⊢; rw [h, h']
  · intro a b _; rfl
  · intro a; show (-2 ^ 31 : Int) ≤ -1 ∧ (-1 : Int) < 2 ^ 31; decide
  · intro k; simp

/-! ### The hypotheses are met -/

/-- Compiled and interpreted calls, every branch of the operators, arguments that are the set itself. -/
def mixedSets : List (Bool × SOp Int) :=
  [(true, .make 0 [1, 2, 3, 2]), (false, .make 1 [3, 4]), (true, .union 2 0 [.set 1, .set 0]), (true, .inter 3 2 [.set 0]),
   (true, .diff 4 2 [.set 1]), (true, .symDiff 5 0 (.set 1)), (true, .symDiff 6 0 (.iter [3, 3, 9])),
   (true, .symDiffUpdate 0 (.set 0)), (true, .update 2 [.set 2, .iter [7, 7]]), (true, .interUpdate 2 [.set 1, .iter [4]]),
   (true, .diffUpdate 3 [.set 1]), (true, .symDiffUpdate 3 (.iter [1, 8, 8])), (true, .items 3), (true, .pop 3),
   (true, .cmp .lt 0 1), (true, .isdisjoint 0 (.set 0)), (true, .issubset 2 (.iter [4, 4, 5])), (false, .items 6)]

def fineMB (ko : KeyOps Int) (h : Heap Int) : List (Bool × SOp Int) → Bool
  | [] => true
  | (c, op) :: ops => (if c then soundCB ko h op else Sound h op) && decide (cost h op ≤ 2 ^ 27) &&
    match (if c then stepSC ko (typedHash ko) h op else stepS ko h op) with
    | .ok (h', _) => fineMB ko h' ops
    | .error _ => true
where
  soundCB (ko : KeyOps Int) (h : Heap Int) : SOp Int → Bool
    | .union _ _ args | .inter _ _ args | .diff _ _ args => !args.isEmpty && args.all fun a => match a with | .set _ => true | _ => false
    | .interUpdate i args | .diffUpdate i args => args.all fun a => !a.is i
    | .symDiff _ i (.iter l) => decide (l.length ≤ 2 * (elems (h i)).length) &&
        decide ((elems (h i)).length > 2 * l.length → l.Pairwise fun a b => ko.eq a b = false)
    | _ => true

theorem soundCB_ok {ko : KeyOps Int} {h : Heap Int} : ∀ {op : SOp Int}, fineMB.soundCB ko h op = true → SoundC ko h op := by
  have sets : ∀ {args : List (Arg Int)}, (!args.isEmpty && args.all fun a => match a with | .set _ => true | _ => false) = true →
      args ≠ [] ∧ ∀ a ∈ args, ∃ j, a = .set j := by
    intro args e
    rw [Bool.and_eq_true, List.all_eq_true] at e
    refine ⟨by rintro rfl; simp at e, fun a ha => ?_⟩
    have := e.2 a ha
    cases a with
    | set j => exact ⟨j, rfl⟩
    | iter l => cases this
  intro op e
  cases op with
  | union d i args => exact sets e
  | inter d i args => exact sets e
  | diff d i args => exact sets e
  | interUpdate i args => intro a ha; simpa using List.all_eq_true.1 e a ha
  | diffUpdate i args => intro a ha; simpa using List.all_eq_true.1 e a ha
  | symDiff d i a =>
    cases a with
    | set j => exact trivial
    | iter l =>
      have e : (decide _ && decide _) = true := e
      rw [Bool.and_eq_true, decide_eq_true_eq, decide_eq_true_eq] at e
      exact e
  | _ => exact trivial

theorem fineMB_ok {ko : KeyOps Int} : ∀ {ops : List (Bool × SOp Int)} {h : Heap Int}, fineMB ko h ops = true → FineM ko h ops
  | [], _, _ => trivial
  | (c, op) :: ops, h, e => by
    simp only [fineMB, Bool.and_eq_true, decide_eq_true_eq] at e
    refine ⟨?_, e.1.2, ?_⟩
    · cases c with
      | true => exact soundCB_ok e.1.1
      | false => exact e.1.1
    · have e2 := e.2
      revert e2
      cases (if c then stepSC ko (typedHash ko) h op else stepS ko h op) with
      | error _ => intro _; trivial
      | ok r => intro e2; exact fineMB_ok e2

example : FineM intKey (fun _ => {}) mixedSets := fineMB_ok (by decide +kernel)

example : (runSM intKey (typedHash intKey) (fun _ => {}) mixedSets).map (fun r => r.2.drop 12) =
    .ok [.ok (.keys [2, 8]), .ok (.key 2), .ok (.bool true), .ok (.bool true), .ok (.bool true), .ok (.keys [1, 2, 9])] := by
  decide +kernel

end Verif.HashTable
