import Verif.TypeGroup.Model
/-
The specification of groups of types: what one object sees of others.
-/
namespace Verif.TypeGroup

variable {O H : Type}

/-- `a` sees `b`: walks over objects lead from `a` to `b`. -/
inductive Sees (W : World O H) (a : O) : O → Prop where
  | refl : Sees W a a
  | step {b c : O} : Sees W a b → c ∈ W.succs b → Sees W a c

/-- Two objects see each other. -/
def Together (W : World O H) (a b : O) : Prop := Sees W a b ∧ Sees W b a

/-- Is `o` one of the simple constants, which have no group? -/
def IsConst (W : World O H) (o : O) : Prop := (W.const o).isSome

end Verif.TypeGroup
