import Verif.ModuleOf.Props
/-
Where modules do not do what is said about them.
-/
namespace Verif.ModuleOf.Wrong

open TypeFn (Ty)

variable {contains : Contains}

/-- C121: reading a member that a frozen module does not have makes one, although nothing can be defined there any more: it stays a forward. -/
theorem grows_frozen (s : State) (x : String) (ops : List Op) (hf : s.frozen = true) (hn : named x = true) (hl : s.items.lookup x = none) :
    ∃ s', get s x = some (s', .fwd s.forwards) ∧ (run contains s' ops).items.lookup x = some (.fwd s.forwards) := by
  refine ⟨_, by simp only [get, hn, hl, Bool.not_true, Bool.false_eq_true, if_false]; rfl, ?_⟩
  exact (frozen_stays (contains := contains) ops _ (by exact hf)).2.2 x _ (by simp [lookup_store])

/-- C121: a module one of whose members was assigned a forward cannot be frozen, even after the forward is defined, unless the member is assigned
again. -/
theorem alias_never_freezes (s : State) (x : String) (i : Nat) (ops : List Op) (hx : s.items.lookup x = some (.fwd i)) (ho : ∀ op ∈ ops, ¬ Assigns x op) :
    freeze (run contains s ops) = none := by
  have h := run_other (contains := contains) ops s hx ho
  simp only [freeze, ite_eq_left_iff, Bool.not_eq_true]
  intro hn
  have := List.any_eq_false.mp hn _ (mem_of_lookup h)
  simp [isForward] at this

/-- C121: `m.A = m.B; m.B = int; m.freeze()` raises the exception that M.A is not defined yet, although it is. -/
theorem alias_of_int : let s := run never .initial [.get "B", .set "A" (.fwd 0), .set "B" (.con "int" [])]
    s.defined 0 = some (.con "int" []) ∧ s.items.lookup "A" = some (.fwd 0) ∧ (freeze s).isNone = true := by decide +kernel

/-- C121: `m.A = m.B; m.A = int; m.B = str` makes A `int` and B `str`, with one forward for both. -/
theorem one_forward_two_types : let s := run never .initial [.get "B", .set "A" (.fwd 0), .set "A" (.con "int" []), .set "B" (.con "str" [])]
    s.items.lookup "A" = some (.con "int" []) ∧ s.items.lookup "B" = some (.con "str" []) ∧ s.defined 0 = some (.con "str" []) ∧ s.forwards = 1 ∧
      (freeze s).isSome = true := by decide +kernel

/-- C121: a module is frozen with a forward in it that is not defined, if the forward is not one of its own. -/
theorem foreign_forward : let s := run never .initial [.forward, .set "A" (.con "TupleOf" [.fwd 0]), .freeze]
    s.frozen = true ∧ s.items.lookup "A" = some (.con "TupleOf" [.fwd 0]) ∧ (s.defined 0).isNone = true := by decide +kernel

/-- C121: defining the forward of a member directly does not define the member. -/
theorem defined_directly : let s := run never .initial [.get "B", .resolve 0 (.con "int" [])]
    s.defined 0 = some (.con "int" []) ∧ s.items.lookup "B" = some (.fwd 0) ∧ (freeze s).isNone = true := by decide +kernel

end Verif.ModuleOf.Wrong
