import Mathlib.Data.List.Perm.Basic
/-
What sorting and searching mean.
-/
namespace Verif.Sorting.Spec
variable {α : Type}

/-- A strict weak order: the usual contract of `<` (asymmetric, and "not smaller" is transitive). -/
structure StrictWeak (lt : α → α → Bool) : Prop where
  asymm : ∀ a b, lt a b = true → lt b a = false
  ntrans : ∀ a b c, lt a b = false → lt b c = false → lt a c = false

/-- Equal values are interchangeable for the order. -/
def EqRespects (eqv lt : α → α → Bool) : Prop := ∀ a b, eqv a b = true → lt a b = false ∧ lt b a = false

/-- Values that are neither smaller nor larger are equal. -/
def Total (eqv lt : α → α → Bool) : Prop := ∀ a b, lt a b = false → lt b a = false → eqv a b = true

/-- Nondecreasing: no element is followed (at any distance) by a smaller one. -/
def Sorted (lt : α → α → Bool) (l : List α) : Prop := l.Pairwise fun a b => lt b a = false

/-- Putting `x` at position `i`. -/
def insertAt (l : List α) (i : Nat) (x : α) : List α := l.take i ++ x :: l.drop i

end Verif.Sorting.Spec
