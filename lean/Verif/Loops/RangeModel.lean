import Verif.Arith.Model
/-
`range` in compiled code (typed_python/compiler/type_wrappers/range_wrapper.py).
-/
namespace Verif.Loops.Range
open Verif.Arith

/-- `RangeCls` (range_wrapper.py:39): a named tuple of three 64-bit integers.  `range(stop)` and
`range(start, stop)` are `range(0, stop, 1)` and `range(start, stop, 1)` (range_wrapper.py:26-33). -/
structure Rng where
  start : Int
  stop : Int
  step : Int
deriving DecidableEq, Repr

/-- `RangeCls.__typed_python_int_iter_size__` (range_wrapper.py:52-59).  `//` is
`nativepython_runtime_floordiv_int64_int64`; the other operations wrap around. -/
def size (r : Rng) : Except Err Int :=
  if r.step = 1 then .ok (w64 (r.stop - r.start))
  else if r.step > 0 then do
    let q ← rtFloorDivI (w64 (w64 (r.stop - r.start) - 1)) r.step
    .ok (w64 (q + 1))
  else do
    let q ← rtFloorDivI (w64 (w64 (r.start - r.stop) - 1)) (w64 (-r.step))
    .ok (w64 (q + 1))

/-- `RangeCls.__typed_python_int_iter_value__` (range_wrapper.py:61-62). -/
def value (r : Rng) (x : Int) : Int := w64 (r.start + w64 (r.step * x))

/-- The items that `for x in range(...)` visits (for_loop_codegen.py:224-244), if the loop is not
left. -/
def visited (r : Rng) : Except Err (List Int) := do
  let n ← size r
  .ok ((List.range n.toNat).map (fun i : Nat => value r i))

/-- `RangeCls.__iter__` (range_wrapper.py:49-50): the field `start` of the iterator. -/
def iterStart (r : Rng) : Int := w64 (r.start - r.step)

/-- `RangeIterator.__fastnext__` (range_wrapper.py:72-86): the new value of the field `start`, which
is also the item, and whether there is one. -/
def fastnext (r : Rng) (cur : Int) : Int × Bool :=
  let cur' := w64 (cur + r.step)
  (cur', if r.step > 0 then decide (cur' < r.stop) else decide (cur' > r.stop))

/-- The field `start` after `n` calls. -/
def cursor (r : Rng) : Nat → Int
  | 0 => iterStart r
  | n + 1 => (fastnext r (cursor r n)).1

/-- What call `n` (counted from zero) of `next` on `iter(range(...))` produces; `none`: it raises
`StopIteration`. -/
def next (r : Rng) (n : Nat) : Option Int :=
  match fastnext r (cursor r n) with
  | (x, true) => some x
  | (_, false) => none

/-- `len` (tuple_wrapper.py:291-292): the number of fields. -/
def len (_ : Rng) : Int := 3

/-- `bool` (tuple_wrapper.py:594-597). -/
def truth (_ : Rng) : Bool := true

/-- Indexing (tuple_wrapper.py:311-354): a field, or `none` for `IndexError`. -/
def getitem (r : Rng) (i : Int) : Option Int :=
  if i = 0 ∨ i = -3 then some r.start
  else if i = 1 ∨ i = -2 then some r.stop
  else if i = 2 ∨ i = -1 then some r.step
  else none

/-- `in` (tuple_wrapper.py:305-307, 601-623): compare with the fields. -/
def contains (r : Rng) (x : Int) : Bool := r.start == x || r.stop == x || r.step == x

/-- `==` (tuple_wrapper.py:93-125, 294-301): compare the fields. -/
def eq (r r' : Rng) : Bool := r.start == r'.start && r.stop == r'.stop && r.step == r'.step

end Verif.Loops.Range
