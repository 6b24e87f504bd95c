import Mathlib.Order.Defs.LinearOrder
import Mathlib.Data.List.Lex
/-
The order of sequences.
-/
namespace Verif.TupleOf.Spec

variable {α : Type} [LinearOrder α]

/-- Python's comparison operators. -/
inductive Op | eq | ne | lt | gt | le | ge
  deriving DecidableEq, Repr

/-- `a` comes before `b`: it is a proper prefix, or smaller at the first position where they differ. -/
def Before (a b : List α) : Prop :=
  (∃ x t, b = a ++ x :: t) ∨ (∃ p x y s t, a = p ++ x :: s ∧ b = p ++ y :: t ∧ x < y)

/-- What a comparison of two sequences means. -/
def holds : Op → List α → List α → Prop
  | .eq, a, b => a = b
  | .ne, a, b => a ≠ b
  | .lt, a, b => Before a b
  | .gt, a, b => Before b a
  | .le, a, b => Before a b ∨ a = b
  | .ge, a, b => Before b a ∨ a = b

end Verif.TupleOf.Spec
