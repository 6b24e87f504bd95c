/-
Specification for C125: Python's iterators.
-/
namespace Verif.Iters

/-- An iterator of Python: the number of items that it gave, or nothing once it has come to the end. -/
abbrev PyIter := Option Nat

/-- `next`: the item, or `none` for the end, after which the iterator stays at the end. -/
def pyNext {α : Type} (it : PyIter) (xs : List α) : PyIter × Option α :=
  match it with
  | none => (none, none)
  | some i => match xs[i]? with
    | some a => (some (i + 1), some a)
    | none => (none, none)

/-- Calls of `next`, with what the list contains at each of them. -/
def pyCalls {α : Type} : PyIter → List (List α) → List (Option α)
  | _, [] => []
  | it, xs :: rest => (pyNext it xs).2 :: pyCalls (pyNext it xs).1 rest

/-- A loop that is left after `k` rounds: the items that were not given yet. -/
def pyLoop {α : Type} (given : Nat) (xs : List α) (k : Nat) : List α := (xs.drop given).take k

end Verif.Iters
