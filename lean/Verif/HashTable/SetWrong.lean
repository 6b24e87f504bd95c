import Verif.HashTable.SetProps

/-!
# Set methods that are not set algebra (C07)
-/

namespace Verif.HashTable
open Spec

variable {K : Type}

theorem badHash_elt : LawfulElt badHash := { badHash_lawful with refl := by simp [badHash] }

/-- The integers with their own value as hash. -/
def intKey : KeyOps Int := ⟨fun a => if 0 ≤ a ∧ a < 2 ^ 31 then a else 0, fun a b => decide (a = b)⟩

theorem intKey_elt : LawfulElt intKey where
  symm a b h := by simp [intKey] at h ⊢; exact h.symm
  trans a b c h h' := by simp [intKey] at h h' ⊢; rw [h, h']
  hash a b h := by simp [intKey] at h; rw [h]
  int32 a := by unfold intKey; simp only []; split <;> omega
  refl a := by simp [intKey]

def first20 : List Int := (List.range 20).map (fun n => (n : Int))

/-- `Set(int)(range(20)).intersection_update(Set(int)())` leaves elements, although the intersection with the empty set
is empty: discarding compacts the storage that is being visited, and the visit ends early. -/
theorem intersection_update_wrong :
    (runS intKey (fun _ => {}) [.make 0 first20, .interUpdate 0 [.set 1], .items 0]).map (·.2) =
      .ok [.ok .unit, .ok .unit, .ok (.keys [18, 19])] := by
  decide +kernel

/-- The answers of `intersection_update_wrong` are not those of set algebra. -/
theorem intersection_update_not_algebra (rs : List (Except Err (SRes Int)))
    (h : (runS intKey (fun _ => {}) [.make 0 first20, .interUpdate 0 [.set 1], .items 0]).map (·.2) = .ok rs) :
    ¬Prog intKey (fun _ _ => False) [.make 0 first20, .interUpdate 0 [.set 1], .items 0] rs := by
  rw [intersection_update_wrong] at h
  injection h with h
  subst h
  intro p
  cases p with
  | cons _ S1 _ _ _ _ p1 p =>
  cases p with
  | cons _ S2 _ _ _ _ p2 p =>
  cases p with
  | cons _ S3 _ _ _ _ p3 p =>
  obtain ⟨_, l, ⟨_, h2⟩, h3⟩ := p3
  injection h3 with h3; injection h3 with h3
  subst h3
  have m := (h2 18).2 ⟨18, by simp, intKey_elt.refl 18⟩
  have m := (p2.2 0 18).1 m
  rw [if_pos rfl] at m
  have m : S1 1 18 := m.2 (.set 1) (by simp)
  have m := (p1.2 1 18).1 m
  rw [if_neg (by decide)] at m
  exact m

/-- An empty set is disjoint from itself, but `s.isdisjoint(s)` is false. -/
theorem isdisjoint_wrong :
    (runS intKey (fun _ => {}) [.isdisjoint 0 (.set 0)]).map (·.2) = .ok [.ok (.bool false)] ∧
    ∀ rs, (runS intKey (fun _ => {}) [.isdisjoint 0 (.set 0)]).map (·.2) = .ok rs →
      ¬Prog intKey (fun _ _ => False) [.isdisjoint 0 (.set 0)] rs := by
  have e : (runS intKey (fun _ => {}) [.isdisjoint 0 (.set 0)]).map (·.2) = .ok [.ok (.bool false)] := rfl
  refine ⟨e, ?_⟩
  intro rs h p
  rw [e] at h
  injection h with h
  subst h
  cases p with
  | cons _ S1 _ _ _ _ p1 p =>
  obtain ⟨_, b, h1, h2⟩ := p1
  injection h1 with h1; injection h1 with h1
  subst h1
  have := h2.2 (fun x hx => hx.1.elim)
  cases this

/-! ### What `intersection_update` does guarantee -/

theorem retainLoop_ok {ko : KeyOps K} (lk : LawfulElt ko) {o : SetT K} (io : Inv ko o) (B : Nat) :
    ∀ (f k : Nat) (t : SetT K), Inv ko t → t.count ≤ 2 ^ 28 → t.items.length ≤ B → 4 * t.count + 8 ≤ B → k ≤ B →
      B < f + k →
      ∃ t', retainLoop ko o f k t = .ok t' ∧ Inv ko t' ∧
        (∀ x, Mem ko t' x → Mem ko t x) ∧ (∀ x, Mem ko t x → Mem ko o x → Mem ko t' x) := by
  intro f
  induction f with
  | zero => intro k t _ _ _ _ h1 h2; omega
  | succ f ih =>
    intro k t i hc hl hb hk hf
    unfold retainLoop
    by_cases c : k < t.items.length
    · rw [if_pos c]
      cases e : t.items[k]? with
      | none => exact ih (k + 1) t i hc hl hb (by omega) (by omega)
      | some a =>
        cases a with
        | none => exact ih (k + 1) t i hc hl hb (by omega) (by omega)
        | some p =>
          obtain ⟨x, u⟩ := p
          simp only []
          obtain ⟨b, hb1, hb2⟩ := has_ok lk io x
          rw [hb1]
          cases b with
          | true => exact ih (k + 1) t i hc hl hb (by omega) (by omega)
          | false =>
            obtain ⟨t1, z, d1, d2, d3, d4, d5, d6⟩ := deleteKey_ok lk.toLawfulKey i x hc
            obtain ⟨t1', z', d1', d2', d3', _, _, d6'⟩ := discard_ok lk i x hc
            have same : t1' = t1 := by
              unfold discard at d1'
              rw [d1] at d1'
              injection d1' with d1'; injection d1' with d1' _; exact d1'.symm
            subst same
            obtain ⟨t2, e1, e2, e3, e4⟩ := ih (k + 1) t1' d2 (by omega) (by omega) (by omega) (by omega) (by omega)
            refine ⟨t2, ?_, e2, fun y hy => ((d6' y).1 (e3 y hy)).1, fun y hy ho => e4 y ((d6' y).2 ⟨hy, fun q => ?_⟩) ho⟩
            · simp only [Except.bind, Bool.false_eq_true, if_false, d1']
              exact e1
            · have := hb2.2 (ho.congr lk (lk.symm _ _ q))
              cases this
    · rw [if_neg c]
      exact ⟨t, rfl, i, fun _ h => h, fun _ h _ => h⟩

/-- **C07, what is left of the claim for `intersection_update` with another `Set(T)`.**  It terminates, keeps every
element of the intersection and adds nothing.  Missing: it may keep elements that are not in the other set
(`intersection_update_wrong`). -/
theorem intersection_update_partial {ko : KeyOps K} (lk : LawfulElt ko) {t o : SetT K} (i : Inv ko t) (io : Inv ko o)
    (hc : t.count ≤ 2 ^ 28) :
    ∃ t', intersectionUpdateFast ko t o = .ok t' ∧ Inv ko t' ∧
      (∀ x, Mem ko t' x → Mem ko t x) ∧ (∀ x, Mem ko t x → Mem ko o x → Mem ko t' x) :=
  retainLoop_ok lk io (t.items.length + 4 * t.count + 8) _ 0 t i hc (by omega) (by omega) (by omega) (by omega)

/-! ### Comparison with Python sets -/

/-- `Set(int)([1, 2]) == {1, 3}` is true, and so is `Set(int)([1, 2]) <= {1, 3}`. -/
theorem python_comparison_wrong :
    (copyElements intKey {} [1, 2]).map (fun t => (cmpPy intKey .eq t [1, 3], cmpPy intKey .le t [1, 3])) =
      .ok (true, true) ∧
    ¬rel (fun x => ∃ y ∈ [1, 2], intKey.eq x y = true) (fun x => ∃ y ∈ [1, 3], intKey.eq x y = true) .le := by
  refine ⟨by decide +kernel, ?_⟩
  intro h
  have := h 2 ⟨2, by simp, by decide⟩
  revert this
  decide

theorem subsetPyLoop_ok (ko : KeyOps K) (right : List K) : ∀ (ks : List K) (b : Bool),
    subsetPyLoop ko right b ks = true ↔ (ks = [] ∧ b = true) ∨ ∃ k ∈ ks, ∃ y ∈ right, ko.eq k y = true
  | [], b => by simp [subsetPyLoop]
  | k :: ks, b => by
    unfold subsetPyLoop
    by_cases c : right.any (ko.eq k) = true
    · rw [if_pos c]
      simp only [List.any_eq_true] at c
      simp [c]
    · rw [if_neg c, subsetPyLoop_ok ko right ks false]
      simp only [List.any_eq_true] at c
      simp [c]

/-- The test used for `==` and `<=` with a Python set says whether the set is empty or has some common element. -/
theorem python_subset_is_overlap (ko : KeyOps K) (t : SetT K) (right : List K) :
    subsetPy ko t right = true ↔ elems t = [] ∨ ∃ k ∈ elems t, ∃ y ∈ right, ko.eq k y = true := by
  unfold subsetPy
  rw [subsetPyLoop_ok]
  simp

theorem supersetPyLoop_ok (ko : KeyOps K) (right : List K) : ∀ (ks : List K) (n : Nat),
    supersetPyLoop ko right n ks ≥ right.length ↔
      n + (ks.filter fun k => right.any (ko.eq k)).length ≥ right.length
  | [], n => by simp [supersetPyLoop]
  | k :: ks, n => by
    unfold supersetPyLoop
    by_cases c : right.any (ko.eq k) = true
    · rw [if_pos c, List.filter_cons_of_pos (p := fun k => right.any (ko.eq k)) c, List.length_cons]
      by_cases c2 : n + 1 ≥ right.length
      · rw [if_pos c2]; omega
      · rw [if_neg c2, supersetPyLoop_ok ko right ks (n + 1)]; omega
    · rw [if_neg c, List.filter_cons_of_neg (p := fun k => right.any (ko.eq k)) c]
      exact supersetPyLoop_ok ko right ks n

/-- The comparisons `>=` and `>` with a Python set are right. -/
theorem python_superset_ok {ko : KeyOps K} (lk : LawfulElt ko) {t : SetT K} (i : Inv ko t) (right : List K)
    (d : Diff ko.eq right) :
    (cmpPy ko .ge t right = true ↔ rel (Mem ko t) (fun x => ∃ y ∈ right, ko.eq x y = true) .ge) ∧
    (cmpPy ko .gt t right = true ↔ rel (Mem ko t) (fun x => ∃ y ∈ right, ko.eq x y = true) .gt) := by
  -- the common elements
  let c := (elems t).filter fun k => right.any (ko.eq k)
  have dc : Diff ko.eq c := List.Pairwise.sublist List.filter_sublist (diff_elems i)
  have mc : ∀ k ∈ c, k ∈ elems t ∧ ∃ y ∈ right, ko.eq k y = true := by
    intro k hk
    simpa [c, List.mem_filter, List.any_eq_true] using hk
  have cr := incl_length lk.symm lk.trans c right dc d (fun k hk => (mc k hk).2)
  have ct : c.length ≤ t.count := by rw [count_eq i]; exact List.length_filter_le _ _
  have sup : supersetPy ko t right = true ↔ right.length ≤ c.length := by
    unfold supersetPy
    by_cases z : right.length = 0
    · rw [if_pos z]; simp; omega
    · rw [if_neg z, decide_eq_true_eq, supersetPyLoop_ok]
      show 0 + c.length ≥ _ ↔ _
      omega
  have sem : right.length ≤ c.length ↔ ∀ x, (∃ y ∈ right, ko.eq x y = true) → Mem ko t x := by
    constructor
    · rintro h x ⟨y, hy, q⟩
      obtain ⟨k, hk, q'⟩ := cr.2 (by omega) y hy
      exact ⟨k, (mc k hk).1, lk.trans _ _ _ q q'⟩
    · intro h
      refine (incl_length lk.symm lk.trans right c d dc ?_).1
      intro y hy
      obtain ⟨k, hk, q⟩ := h y ⟨y, hy, lk.refl y⟩
      refine ⟨k, ?_, q⟩
      simp only [c, List.mem_filter, List.any_eq_true]
      exact ⟨hk, y, hy, lk.symm _ _ q⟩
  have el : elems t = elems t := rfl
  have low : (∀ x, Mem ko t x → ∃ y ∈ right, ko.eq x y = true) → t.count ≤ right.length := by
    intro h
    have := (incl_length lk.symm lk.trans (elems t) right (diff_elems i) d (fun k hk => h k (mem_of_elem lk hk))).1
    rw [count_eq i]; exact this
  have high : t.count ≤ right.length → (∀ x, (∃ y ∈ right, ko.eq x y = true) → Mem ko t x) →
      ∀ x, Mem ko t x → ∃ y ∈ right, ko.eq x y = true := by
    intro h q
    have := incl_length lk.symm lk.trans right (elems t) d (diff_elems i) (fun y hy => q y ⟨y, hy, lk.refl y⟩)
    rw [← count_eq i] at this
    rintro x ⟨k, hk, e⟩
    obtain ⟨y, hy, e'⟩ := this.2 (by omega) k hk
    exact ⟨y, hy, lk.trans _ _ _ e e'⟩
  constructor
  · unfold cmpPy rel
    simp only []
    by_cases z : t.count < right.length
    · rw [if_pos z]
      simp only [Bool.false_eq_true, false_iff]
      intro h
      have := sem.2 h
      omega
    · rw [if_neg z, sup, sem]
  · unfold cmpPy rel
    simp only []
    by_cases z : t.count ≤ right.length
    · rw [if_pos z]
      simp only [Bool.false_eq_true, false_iff]
      rintro ⟨h, h'⟩
      exact h' (high z h)
    · rw [if_neg z, sup, sem]
      exact ⟨fun h => ⟨h, fun q => z (low q)⟩, fun h => h.1⟩

/-! ### A program that meets the hypotheses of `set_algebra_partial` -/

def setSample : List (SOp Int) :=
  [.make 0 [1, 2, 3, 2], .make 1 [3, 4], .union 2 0 [.set 1, .iter [9]], .inter 3 0 [.set 1], .diff 4 0 [.set 1],
   .symDiff 5 0 (.iter [1, 7]), .update 1 [.set 1, .iter [8]], .diffUpdate 1 [.set 0], .interUpdate 0 [.iter [1, 2, 5]],
   .symDiffUpdate 0 (.set 2), .issubset 3 (.set 2), .remove 1 99, .pop 1, .isdisjoint 0 (.set 4), .cmp .lt 4 2, .len 2]

example : Fine badHash (fun _ => {}) setSample = true := by decide +kernel

example : (runS badHash (fun _ => {}) setSample).map (fun r => (r.2.drop 10, elems (r.1 2))) =
    .ok ([.ok (.bool true), .error .keyError, .ok (.key 4), .ok (.bool true), .ok (.bool true), .ok (.int 5)],
      [1, 2, 3, 4, 9]) := by decide +kernel

end Verif.HashTable
