import Verif.Native.Function
/-
Two places where the compiler destroys the value of a stack slot itself: the variable of an `except`
clause, and the operands of a chained comparison.
-/
namespace Verif.Native

/-! ### `except T as x`

Of one variable: act 0 puts a value into its slot, act 1 destroys the value in the slot, acts 2 and 3
store true and false in its `isInitialized` flag, test 0 reads the flag. -/

/-- What the compiler knows of the variable (function_stack_state.py:34-41). -/
inductive Init where
  | no | yes | maybe
  deriving DecidableEq, Repr

def put : E := .act 0 false
def drop : E := .act 1 true
def flagOn : E := .act 2 false
def flagOff : E := .act 3 false

/-- `assignToLocalVariable` for a type that is not POD (function_conversion_context.py:936-947);
`convert_assign` destroys the old value (refcounted_wrapper.py:61-70). -/
def assign : Init → E
  | .yes => .seq drop put
  | .no => .seq put flagOn
  | .maybe => .branch 0 (.seq drop put) (.seq put flagOn)

/-- A handler `except T as x: body` (function_conversion_context.py:1744-1771): the cleanup destroys
whatever is in the slot. -/
def handler (st : Init) (body : E) : E :=
  .seq (assign st) (.finally body (.always (.seq drop flagOff) .nil) none)

/-- A function `try: body / except T as x: handler`, whose variable is destroyed in the end if it is
initialized (`generateDestructors`, function_conversion_context.py:857-874). -/
def tryFunction (body h : E) : E :=
  .finally (.seq (.tryCatch body (handler .no h)) (.ret none))
    (.always (.branch 0 drop .skip) .nil) none

/-- Does the slot hold a value? `none` after a value was overwritten without being destroyed, or
destroyed when there was none. -/
def heldStep : Option Bool → Ev → Option Bool
  | some h, .act 0 => if h then none else some true
  | some h, .act 1 => if h then some false else none
  | s, _ => s

def held (tr : List Ev) : Option Bool := tr.foldl heldStep (some false)

/-- What the flag says. -/
def flagStep : Bool → Ev → Bool
  | _, .act 2 => true
  | _, .act 3 => false
  | f, _ => f

def flag (tr : List Ev) : Bool := tr.foldl flagStep false

/-- The test reads the flag, and nothing done to the variable throws. -/
def Tracks (w : World) : Prop := (∀ tr, w.test tr 0 = flag tr) ∧ ∀ tr a, a < 4 → w.throws tr a = false

mutual
/-- Leaves the variable alone. -/
def E.Avoids : E → Prop
  | .skip | .activates _ | .throw | .ret _ => True
  | .act a _ => 4 ≤ a
  | .seq a b => a.Avoids ∧ b.Avoids
  | .branch _ a b => a.Avoids ∧ b.Avoids
  | .loop p _ b o => p.Avoids ∧ b.Avoids ∧ o.Avoids
  | .tryCatch e h => e.Avoids ∧ h.Avoids
  | .propagate e h => e.Avoids ∧ h.Avoids
  | .finally e tds _ => e.Avoids ∧ tds.Avoids
/-- The same for teardowns. -/
def Tds.Avoids : Tds → Prop
  | .nil => True
  | .always e rest => e.Avoids ∧ rest.Avoids
  | .byTag _ e rest => e.Avoids ∧ rest.Avoids
end

/-- The slot and the flag are in this state. -/
def Is (h : Option Bool) (f : Bool) (_ : Active) (tr : List Ev) : Prop := held tr = h ∧ flag tr = f

theorem held_snoc (tr : List Ev) (e : Ev) : held (tr ++ [e]) = heldStep (held tr) e := by
  simp [held, List.foldl_append]

theorem flag_snoc (tr : List Ev) (e : Ev) : flag (tr ++ [e]) = flagStep (flag tr) e := by
  simp [flag, List.foldl_append]

theorem Is.other {h f A A' tr} (hs : Is h f A tr) {e : Ev} (he : ∀ a, e = .act a → 4 ≤ a) :
    Is h f A' (tr ++ [e]) := by
  obtain ⟨h1, h2⟩ := hs
  rw [Is, held_snoc, flag_snoc, h1, h2]
  match e, he with
  | .made _, _ => exact ⟨by cases h <;> rfl, rfl⟩
  | .torn _, _ => exact ⟨by cases h <;> rfl, rfl⟩
  | .act 0, he => exact absurd (he 0 rfl) (by omega)
  | .act 1, he => exact absurd (he 1 rfl) (by omega)
  | .act 2, he => exact absurd (he 2 rfl) (by omega)
  | .act 3, he => exact absurd (he 3 rfl) (by omega)
  | .act (n + 4), _ => exact ⟨by cases h <;> rfl, rfl⟩

mutual
theorem eval_avoids {w : World} {fuel : Nat} {h : Option Bool} {f : Bool} :
    ∀ (e : E) (A : Active) (tr : List Ev), e.Avoids → Is h f A tr → Always (Is h f) (eval w fuel e A tr)
  | .skip, A, tr, _, hs => by rw [eval]; exact .some hs
  | .act a ct, A, tr, ha, hs => by
      rw [eval]; exact .some (hs.other fun b hb => by cases hb; exact ha)
  | .activates u, A, tr, _, hs => by rw [eval]; exact .some (hs.other fun b hb => by cases hb)
  | .seq a b, A, tr, ha, hs => by
      rw [eval]
      exact (eval_avoids a A tr ha.1 hs).bind (fun _ _ h => h) fun A1 tr1 h1 => eval_avoids b A1 tr1 ha.2 h1
  | .branch c a b, A, tr, ha, hs => by
      rw [eval]
      split
      · exact eval_avoids a A tr ha.1 hs
      · exact eval_avoids b A tr ha.2 hs
  | .loop p c b o, A, tr, ha, hs => by
      rw [eval]
      exact Always.rounds (fun A tr h => eval_avoids p A tr ha.1 h) (fun A tr h => eval_avoids b A tr ha.2.1 h)
        (fun A tr h => eval_avoids o A tr ha.2.2 h) fuel A tr hs
  | .throw, A, tr, _, hs => by rw [eval]; exact .some hs
  | .ret nm, A, tr, _, hs => by rw [eval]; exact .some hs
  | .tryCatch e hd, A, tr, ha, hs => by
      rw [eval]
      exact (eval_avoids e A tr ha.1 hs).handle (fun _ _ h => h) fun A1 tr1 h1 => eval_avoids hd A1 tr1 ha.2 h1
  | .propagate e hd, A, tr, ha, hs => by
      rw [eval]
      exact (eval_avoids e A tr ha.1 hs).handle (fun _ _ h => h) fun A1 tr1 h1 => eval_avoids hd A1 tr1 ha.2 h1
  | .finally e tds nm, A, tr, ha, hs => by
      have h1 := eval_avoids (w := w) (fuel := fuel) (h := h) (f := f) e (A.clear tds.tags) tr ha.1 hs
      rw [eval]
      intro o A' tr' heq
      simp only [finish] at heq
      split at heq
      · cases heq
      · rename_i o1 A1 tr1 he1
        have h2 := evalTds_avoids (w := w) (fuel := fuel) tds A1 tr1 ha.2 (h1 _ _ _ he1)
        split at heq
        · cases heq
        · rename_i o2 A2 tr2 he2
          simp only [Option.some.injEq, Prod.mk.injEq] at heq
          rw [← heq.2.1, ← heq.2.2]
          have h3 := h2 _ _ _ he2
          exact ⟨h3.1, h3.2⟩
theorem evalTds_avoids {w : World} {fuel : Nat} {h : Option Bool} {f : Bool} :
    ∀ (tds : Tds) (A : Active) (tr : List Ev), tds.Avoids → Is h f A tr →
      Always (Is h f) (evalTds w fuel tds A tr)
  | .nil, A, tr, _, hs => by rw [evalTds]; exact .some hs
  | .always e rest, A, tr, ha, hs => by
      rw [evalTds]
      exact (eval_avoids e A tr ha.1 hs).bind (fun _ _ h => h) fun A1 tr1 h1 => evalTds_avoids rest A1 tr1 ha.2 h1
  | .byTag u e rest, A, tr, ha, hs => by
      rw [evalTds]
      split
      · exact (eval_avoids e _ _ ha.1 (hs.other fun b hb => by cases hb)).bind (fun _ _ h => h)
          fun A1 tr1 h1 => evalTds_avoids rest A1 tr1 ha.2 h1
      · exact evalTds_avoids rest A tr ha.2 hs
end

/-- The compiler's knowledge is right. -/
def Init.Right (st : Init) (tr : List Ev) : Prop :=
  match st with
  | .no => held tr = some false
  | .yes => held tr = some true ∧ flag tr = true
  | .maybe => held tr = some (flag tr)

theorem eval_assign {w : World} (hw : Tracks w) (fuel : Nat) (st : Init) (A : Active) (tr : List Ev)
    (hr : st.Right tr) : ∃ tr', eval w fuel (assign st) A tr = some (.norm, A, tr') ∧ Is (some true) true A tr' := by
  have hd : ∀ tr', (true && w.throws tr' 1) = false := fun tr' => by rw [hw.2 tr' 1 (by omega)]; rfl
  have hyes : held tr = some true → flag tr = true → ∃ tr', eval w fuel (.seq drop put) A tr =
      some (.norm, A, tr') ∧ Is (some true) true A tr' := fun h1 h2 => by
    refine ⟨tr ++ [.act 1] ++ [.act 0], ?_, ?_, ?_⟩
    · simp [eval, drop, put, andThen, hd]
    · rw [held_snoc, held_snoc, h1]; rfl
    · rw [flag_snoc, flag_snoc, h2]; rfl
  have hno : held tr = some false → ∃ tr', eval w fuel (.seq put flagOn) A tr =
      some (.norm, A, tr') ∧ Is (some true) true A tr' := fun h1 => by
    refine ⟨tr ++ [.act 0] ++ [.act 2], ?_, ?_, ?_⟩
    · simp [eval, flagOn, put, andThen]
    · rw [held_snoc, held_snoc, h1]; rfl
    · rw [flag_snoc]; rfl
  match st, hr with
  | .no, hr => exact hno hr
  | .yes, hr => exact hyes hr.1 hr.2
  | .maybe, hr =>
    have hr : held tr = some (flag tr) := hr
    rw [assign, eval, hw.1]
    cases hf : flag tr with
    | true => simp only [if_true]; exact hyes (by rw [hr, hf]) hf
    | false => simp only [Bool.false_eq_true, if_false]; exact hno (by rw [hr, hf])

/-- The cleanup of a handler, after whatever its body did. -/
theorem eval_cleanup {w : World} (hw : Tracks w) {fuel : Nat} {body : E} {A : Active} {tr : List Ev} {o A' tr'}
    (he : eval w fuel (.finally body (.always (.seq drop flagOff) .nil) none) A tr = some (o, A', tr')) :
    ∃ A1 tr1, eval w fuel body A tr = some (o, A1, tr1) ∧ A' = A1 ∧ tr' = tr1 ++ [.act 1] ++ [.act 3] := by
  have hd : ∀ tr', (true && w.throws tr' 1) = false := fun tr' => by rw [hw.2 tr' 1 (by omega)]; rfl
  have hcl : ∀ B : Active, B.clear [] = B := fun B => by funext t; simp [Active.clear]
  rw [eval] at he
  simp only [Tds.tags, hcl] at he
  cases hb : eval w fuel body A tr with
  | none => rw [hb] at he; simp [finish] at he
  | some q =>
    obtain ⟨o1, A1, tr1⟩ := q
    rw [hb] at he
    simp [finish, evalTds, eval, drop, flagOff, andThen, hd, settle, hcl] at he
    refine ⟨A1, tr1, ?_, he.2.1.symm, by simp [← he.2.2]⟩
    rw [← he.1]

theorem eval_handler {w : World} (hw : Tracks w) {fuel : Nat} {st : Init} {body : E} {A : Active}
    {tr : List Ev} (hr : st.Right tr) {o A' tr'} (he : eval w fuel (handler st body) A tr = some (o, A', tr')) :
    ∃ tr0 A1 tr1, Is (some true) true A tr0 ∧ eval w fuel body A tr0 = some (o, A1, tr1) ∧ A' = A1 ∧
      tr' = tr1 ++ [.act 1] ++ [.act 3] := by
  obtain ⟨tr0, h0, hs0⟩ := eval_assign hw fuel st A tr hr
  rw [handler, eval, h0] at he
  obtain ⟨A1, tr1, h⟩ := eval_cleanup hw he
  exact ⟨tr0, A1, tr1, hs0, h⟩

/-! ### Chained comparisons -/

/-- `x0 < x1 < x2 ...` for operands that are not POD: the comparisons `k`, ..., `k + m - 1`
(expression_conversion_context.py:1824-1846), where `xk` is the left operand of comparison `k`. Each is
converted inside the `ifelse` on the result so far, where its right operand is evaluated into a
temporary (act `4 * k`) and copied to a slot (act `4 * k + 1`), before it is compared with the slot of
the comparison before it (act `4 * k + 2`). Act `4 * k + 3` destroys either. -/
def chain : Nat → Nat → Steps
  | _, 0 => .ret none .done
  | k, m + 1 =>
      .ifelse 0
        (.temp (4 * k) true (4 * k + 3) (.slot (4 * k + 3) (.effect (4 * k + 1) false
          (.mark 0 (.effect (4 * k + 2) true .done)))))
        .done (chain (k + 1) m)

/-- What happens in the comparison `k` if nothing throws. -/
def link (k : Nat) : List Ev :=
  [.act (4 * k), .made (2 * k), .act (4 * k + 1), .made (2 * k + 1), .act (4 * k + 2), .torn (2 * k),
    .act (4 * k + 3), .torn (2 * k + 1), .act (4 * k + 3)]

/-- The same for several. -/
def links : Nat → Nat → List Ev
  | _, 0 => []
  | k, m + 1 => link k ++ links (k + 1) m

theorem chain_marked : ∀ (m k : Nat), (chain k m).Marked 0 ∧ (chain k m).Jumps [] ∧ (chain k m).falls = false
  | 0, k => by refine ⟨trivial, ⟨by simp, trivial⟩, rfl⟩
  | m + 1, k => by
      obtain ⟨h1, h2, h3⟩ := chain_marked m (k + 1)
      refine ⟨⟨⟨by decide, by simp [Steps.marks], trivial⟩, trivial, h1, fun i _ h => absurd h (by omega)⟩,
        ⟨trivial, trivial, h2⟩, ?_⟩
      simp [chain, Steps.falls, h3]

theorem chain_tds : ∀ (m k n : Nat), (build [] n (chain k m)).tds = .nil
  | 0, k, n => rfl
  | m + 1, k, n => by simp only [chain, build]; exact chain_tds m _ _

theorem chain_eval {w : World} (ht : ∀ tr a, w.throws tr a = false) (hy : ∀ tr, w.test tr 0 = true)
    (fuel : Nat) : ∀ (m k : Nat) (A : Active) (tr : List Ev), ∃ A',
      eval w fuel (build [] (2 * k) (chain k m)).e A tr = some (.ret none, A', tr ++ links k m)
  | 0, k, A, tr => by
      refine ⟨A, ?_⟩
      simp [chain, build, eval, andThen, links]
  | m + 1, k, A, tr => by
      have h := fun A tr => chain_eval ht hy fuel m (k + 1) A tr
      have hk : 2 * (k + 1) = 2 * k + 1 + 1 := by omega
      rw [hk] at h
      simp only [chain, build, Built.close, List.nil_append, List.getElem?_cons_zero]
      simp only [eval, evalTds, ht, hy, if_true, andThen, finish, Bool.and_false, Bool.false_eq_true, if_false,
        Tds.tags, destroy, settle, Active.set, Active.clear]
      have e1 : (2 * k : Nat) ≠ 2 * k + 1 := by omega
      have e2 : (2 * k + 1 : Nat) ≠ 2 * k := by omega
      simp [e1, e2, links, link] at h ⊢
      obtain ⟨A', h'⟩ := h _ (tr ++ link k)
      exact ⟨A', by simpa [link, List.append_assoc] using h'⟩

end Verif.Native
