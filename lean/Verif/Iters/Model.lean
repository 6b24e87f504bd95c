/-
C125: iterators over lists, tuples, strings and bytes as objects of compiled code.
-/
namespace Verif.Iters

/-- What a step ends with: a value or none at the end (a null pointer), an exception, or reading through a null pointer. -/
inductive Res (α : Type) where
  | item (a : α)
  | ended
  | stopIteration
  | nullRead
  /-- The calls did not come back. -/
  | endless
  deriving DecidableEq, Repr

/-- An iterator with its position, which is -1 at first: tuple_of_wrapper.py:580-586, string_wrapper.py:730-736, bytes_wrapper.py:1328-1334.  What it
iterates over is an argument of its methods, because a list can change. -/
structure Iter where
  pos : Int
  deriving DecidableEq, Repr

def new : Iter := ⟨-1⟩

/-- tuple_of_wrapper.py:798-807 `__fastnext__`, string_wrapper.py:1108-1115 and bytes_wrapper.py:1828-1835: the position grows also at the end.
Positions do not overflow here. -/
def fastnext {α : Type} (it : Iter) (xs : List α) : Iter × Res α :=
  let it : Iter := ⟨it.pos + 1⟩
  if it.pos < xs.length then match xs[it.pos.toNat]? with
    | some a => (it, .item a)
    | none => (it, .nullRead)
  else (it, .ended)

/-- Calls of `__fastnext__`, with what the list contains at each of them. -/
def calls {α : Type} : Iter → List (List α) → List (Res α)
  | _, [] => []
  | it, xs :: rest => (fastnext it xs).2 :: calls (fastnext it xs).1 rest

/-- A loop over an iterator of a list or a tuple that is left after `k` rounds, function_conversion_context.py:2217-2234 and
for_loop_codegen.py:218-244 `rewriteIntiterForLoop`: the class has `__typed_python_int_iter_size__` (tuple_of_wrapper.py:792-796), so the loop counts
from zero.  The list does not change in the loop. -/
def loopList {α : Type} (it : Iter) (xs : List α) (k : Nat) : Iter × List α := (it, xs.take k)

/-- bytes_wrapper.py:1822-1826 `__iter__`, which a loop over the iterator calls (function_conversion_context.py:2239). -/
def iterBytes {α : Type} (it : Iter) (xs : List α) : Iter × Res α :=
  match fastnext it xs with
  | (it, .ended) => (it, .nullRead)
  | (it, _) => (it, .stopIteration)

/-- string_wrapper.py:1102-1106 `__next__`, with a bound on the depth of calls. -/
def nextString {α : Type} : Nat → Iter → List α → Res α
  | 0, _, _ => .endless
  | fuel + 1, it, xs => match nextString fuel it xs with
    | .ended => .stopIteration
    | r => r

end Verif.Iters
