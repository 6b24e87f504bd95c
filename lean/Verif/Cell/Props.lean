import Verif.Cell.Model
/-
Specification and proofs for C127.
-/
namespace Verif.Cell

/-! ### Specification -/

/-- A cell has a value or none.  A value that cannot be converted changes nothing. -/
def specStep (s : Option Val) : Op → Option Val × Res
  | .set (some v) => (some v, .done)
  | .set none => (s, .conversion)
  | .clear => (none, .done)
  | .get => (s, match s with | some v => .value v | none => .empty)
  | .isSet => (s, .bool s.isSome)

def specRun : Option Val → List Op → List Res
  | _, [] => []
  | s, op :: ops => (specStep s op).2 :: specRun (specStep s op).1 ops

/-! ### Proofs -/

/-- The cell has what it should have. -/
def Fits (s : Option Val) (c : Cell) : Prop :=
  match s with
  | some v => c = ⟨true, .alive v⟩
  | none => c.initialized = false

/-- What goes wrong: a value that cannot be converted, and clearing in compiled code. -/
def Fine : Bool × Op → Prop
  | (_, .set none) => False
  | (true, .clear) => False
  | _ => True

theorem step_right {pod : Bool} {s : Option Val} {c : Cell} (h : Fits s c) {op : Bool × Op} (hop : Fine op) :
    (step pod c op).2 = (specStep s op.2).2 ∧ Fits (specStep s op.2).1 (step pod c op).1 := by
  obtain ⟨b, o⟩ := op
  cases s with
  | some v =>
    have h : c = ⟨true, .alive v⟩ := h
    subst h
    cases o with
    | set w =>
      cases w with
      | none => cases b <;> exact hop.elim
      | some w =>
        cases b <;> cases pod <;> exact ⟨rfl, rfl⟩
    | clear =>
      cases b with
      | true => exact hop.elim
      | false => cases pod <;> exact ⟨rfl, rfl⟩
    | get => cases b <;> exact ⟨rfl, rfl⟩
    | isSet => cases b <;> exact ⟨rfl, rfl⟩
  | none =>
    obtain ⟨i, d⟩ := c
    have h : i = false := h
    subst h
    cases o with
    | set w =>
      cases w with
      | none => cases b <;> exact hop.elim
      | some w => cases b <;> exact ⟨rfl, rfl⟩
    | clear =>
      cases b with
      | true => exact hop.elim
      | false => exact ⟨rfl, rfl⟩
    | get => cases b <;> exact ⟨rfl, rfl⟩
    | isSet => cases b <;> exact ⟨rfl, rfl⟩

/-- C127: in every history, in the interpreter and in compiled code mixed, in which all values can be converted and cells are cleared only in the
interpreter, a cell has the value that was set last, or none after it was cleared. -/
theorem cell_right_partial (pod : Bool) (ops : List (Bool × Op)) (hops : ∀ op ∈ ops, Fine op) : run pod new ops = specRun none (ops.map (·.2)) := by
  suffices h : ∀ (ops : List (Bool × Op)) (s : Option Val) (c : Cell), Fits s c → (∀ op ∈ ops, Fine op) → run pod c ops = specRun s (ops.map (·.2)) from
    h ops none new rfl hops
  intro ops
  induction ops with
  | nil => intros; rfl
  | cons op ops ih =>
    intro s c hf hops
    obtain ⟨h1, h2⟩ := step_right hf (hops op (.head _)) (pod := pod)
    simp only [run, List.map_cons, specRun, h1]
    rw [ih _ _ h2 fun o ho => hops o (.tail _ ho)]

/-- C127: `==` says whether two cells are the same. -/
theorem eq_right (same suppress : Bool) : cmp same .eq suppress = some same := rfl

/-! ### Where it is not -/

/-- C127: a cell with a value that is cleared in compiled code stays set. Afterwards reading it reads what was destroyed, and setting or clearing it
again destroys it again, whichever way this is done. -/
theorem compiled_clear_dangles (v : Val) (w : Option Val) (b : Bool) :
    let c := (step false ⟨true, .alive v⟩ (true, .clear)).1
    (step false c (b, .isSet)).2 = .bool true ∧ (step false c (b, .get)).2 = .readsDead ∧ (step false c (b, .set w)).2 = .destroysDead ∧
      (step false c (b, .clear)).2 = .destroysDead := by
  cases b <;> exact ⟨rfl, rfl, rfl, rfl⟩

/-- C127: for plain values, clearing in compiled code does nothing. -/
theorem compiled_clear_nothing (c : Cell) : (step true c (true, .clear)).1 = c := by
  simp only [step, clearCompiled, destroyUnsafe, destroy, if_true]
  split <;> rfl

/-- C127: setting a value that cannot be converted loses the one that was there: in the interpreter the cell is empty afterwards, and in compiled
code it has a value that was destroyed. -/
theorem failing_set (v : Val) :
    step false ⟨true, .alive v⟩ (false, .set none) = (⟨false, .dead⟩, .conversion) ∧ step false ⟨true, .alive v⟩ (true, .set none) = (⟨true, .dead⟩, .conversion) :=
  ⟨rfl, rfl⟩

/-- C127: `!=` on cells is an exception, while all the order comparisons say whether the cells are the same. -/
theorem ne_raises (same : Bool) : cmp same .ne false = none ∧ ∀ op suppress, op ≠ .ne → cmp same op suppress = some same := by
  refine ⟨rfl, fun op suppress h => ?_⟩
  cases op <;> first | rfl | exact absurd rfl h

/-- A history with both ways mixed, that meets the hypotheses of `cell_right_partial`. -/
example : run false new [(true, .isSet), (false, .get), (true, .set (some 5)), (false, .get), (false, .set (some 6)), (true, .get), (false, .clear), (true, .get),
    (true, .set (some 7)), (false, .isSet)] =
    [.bool false, .empty, .done, .value 5, .done, .value 6, .done, .empty, .done, .bool true] := by decide +kernel

end Verif.Cell
