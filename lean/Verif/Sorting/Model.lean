import Verif.Common
/-
Model of typed_python/lib/sorting.py: in-place quicksort and binary search.

A mutable sequence is a `List` threaded through the functions; `values[i]` and `values[i] = x` follow Python's
indexing rules (negative indices count from the end, anything else raises IndexError). `while` loops and the
recursion carry a fuel counter whose exhaustion is the error `fuel`, so that termination is something to prove.
`less`, `==` and `<` are pure functions that do not raise (a simplification: user-defined comparisons may raise).
-/
namespace Verif.Sorting

/-- Ways a call can fail. `fuel` is not an exception of the code: it means the loop was not finished. -/
inductive Err | indexError | nonTotal | fuel
  deriving DecidableEq, Repr

section
variable {α : Type}

/-- Index normalisation of `values[i]` on a sequence of length `n`
(typed_python/PyTupleOrListOfInstance.cpp 548-571: negative indices count from the end). -/
def normIx (n : Nat) (i : Int) : Except Err Nat :=
  if 0 ≤ i ∧ i < n then .ok i.toNat
  else if -(n : Int) ≤ i ∧ i < 0 then .ok (i + n).toNat
  else .error .indexError

/-- `values[i]`. -/
def getAt (vs : List α) (i : Int) : Except Err α :=
  (normIx vs.length i).bind fun k => match vs[k]? with
    | some x => .ok x
    | none => .error .indexError

/-- `values[i] = x`. -/
def setAt (vs : List α) (i : Int) (x : α) : Except Err (List α) :=
  (normIx vs.length i).bind fun k => .ok (vs.set k x)

/-- `a = values[p]; values[p] = values[q]; values[q] = a` (sorting.py 21-23, 31-33, 37-39). -/
def swap (vs : List α) (p q : Int) : Except Err (List α) :=
  (getAt vs p).bind fun a => (getAt vs q).bind fun b => (setAt vs p b).bind fun vs => setAt vs q a

/-- The `while j <= end` loop of `_sortAroundPivot` (sorting.py 29-35). -/
def partLoop (less : α → α → Bool) (pivot : α) (stop : Int) : Nat → List α → Int → Int → Except Err (List α × Int)
  | 0, _, _, _ => .error .fuel
  | f + 1, vs, i, j =>
    if j ≤ stop then
      (getAt vs j).bind fun x =>
        if !less pivot x then (swap vs j i).bind fun vs => partLoop less pivot stop f vs (i + 1) (j + 1)
        else partLoop less pivot stop f vs i (j + 1)
    else .ok (vs, i)

/-- `_sortAroundPivot` (sorting.py 20-40). -/
def sortAroundPivot (less : α → α → Bool) (f : Nat) (vs : List α) (start stop ixPivot : Int) :
    Except Err (List α × Int) :=
  (swap vs start ixPivot).bind fun vs =>
  (getAt vs start).bind fun pivot =>
  (partLoop less pivot stop f vs (start + 1) (start + 1)).bind fun r =>
  (swap r.1 start (r.2 - 1)).bind fun vs => .ok (vs, r.2 - 1)

/-- `while i > start and values[i - 1] == values[i]: i -= 1` (sorting.py 56-57). -/
def scanDown (eqv : α → α → Bool) (vs : List α) (start : Int) : Nat → Int → Except Err Int
  | 0, _ => .error .fuel
  | f + 1, i =>
    if i > start then
      (getAt vs (i - 1)).bind fun a => (getAt vs i).bind fun b =>
        if eqv a b then scanDown eqv vs start f (i - 1) else .ok i
    else .ok i

/-- `while i_top < end and values[i_top] == values[i_top + 1]: i_top += 1` (sorting.py 59-60). -/
def scanUp (eqv : α → α → Bool) (vs : List α) (stop : Int) : Nat → Int → Except Err Int
  | 0, _ => .error .fuel
  | f + 1, i =>
    if i < stop then
      (getAt vs i).bind fun a => (getAt vs (i + 1)).bind fun b =>
        if eqv a b then scanUp eqv vs stop f (i + 1) else .ok i
    else .ok i

/-- `_quicksortBetween` (sorting.py 43-63). `wrap` is what integer arithmetic does to the seed: the identity when
interpreted, reduction to 64 bits when compiled; `%` is Python's, nonnegative for a positive modulus. -/
def quicksort (wrap : Int → Int) (eqv less : α → α → Bool) : Nat → List α → Int → Int → Int → Except Err (List α)
  | 0, _, _, _, _ => .error .fuel
  | f + 1, vs, start, stop, seed =>
    if stop - start < 1 then .ok vs
    else
      let newSeed := wrap (1013904223 + wrap (1664525 * seed))
      let ixPivot := start + newSeed % (stop - start + 1)
      (sortAroundPivot less (f + 1) vs start stop ixPivot).bind fun r =>
      (scanDown eqv r.1 start (f + 1) r.2).bind fun i =>
      (scanUp eqv r.1 stop (f + 1) r.2).bind fun iTop =>
      (quicksort wrap eqv less f r.1 start (i - 1) newSeed).bind fun vs =>
      quicksort wrap eqv less f vs (iTop + 1) stop (wrap (newSeed + 1))

/-- `sort(values)` / `sort(values, key)` (sorting.py 66-75), with `less` the comparison the two branches build. -/
def sortWith (wrap : Int → Int) (eqv less : α → α → Bool) (f : Nat) (vs : List α) : Except Err (List α) :=
  if vs.length ≤ 1 then .ok vs
  else quicksort wrap eqv less f vs 0 ((vs.length : Int) - 1) 1

/-- `sort(values, key=None)` (sorting.py 67-73). -/
def sort (wrap : Int → Int) (eqv lt : α → α → Bool) (f : Nat) (vs : List α) : Except Err (List α) :=
  sortWith wrap eqv lt f vs

/-- `sort(values, key)` (sorting.py 74-75). -/
def sortKey {κ : Type} (wrap : Int → Int) (eqv : α → α → Bool) (lt : κ → κ → Bool) (key : α → κ) (f : Nat)
    (vs : List α) : Except Err (List α) :=
  sortWith wrap eqv (fun x y => lt (key x) (key y)) f vs

/-- `compare_values` (sorting.py 85-94). -/
def compareValues (lt eqv : α → α → Bool) (x y : α) : Except Err Int :=
  if lt x y then .ok (-1)
  else if lt y x then .ok 1
  else if !eqv x y then .error .nonTotal
  else .ok 0

/-- The loop of `searchSorted` (sorting.py 106-116). -/
def searchLoop (lt eqv : α → α → Bool) (item : α) (vs : List α) : Nat → Int → Int → Except Err Int
  | 0, _, _ => .error .fuel
  | f + 1, low, high =>
    if low < high then
      let mid := (low + high).fdiv 2
      (getAt vs mid).bind fun x => (compareValues lt eqv x item).bind fun c =>
        if c < 0 then searchLoop lt eqv item vs f (mid + 1) high
        else if c > 0 then searchLoop lt eqv item vs f low mid
        else .ok mid
    else .ok low

/-- `searchSorted` (sorting.py 97-116). -/
def searchSorted (lt eqv : α → α → Bool) (f : Nat) (item : α) (vs : List α) : Except Err Int :=
  searchLoop lt eqv item vs f 0 vs.length

end
end Verif.Sorting
