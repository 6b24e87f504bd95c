import Verif.ListOf.Spec
/-
Model of ListOf: /repo/typed_python/TupleOrListOfType.{hpp,cpp} and PyTupleOrListOfInstance.cpp.

The element storage is a list of cells, one per reserved element; a cell is `none` while no element has been constructed in it.
Constructing outside the storage or over a live element, destroying or reading a cell that holds no element, and overwriting a
live element in a memmove are faults.

Simplifications: elements are values, copying one cannot fail; element sizes are not modelled; allocating 2^31 elements or more is
a fault (`reserved` is an int32_t).  `copyConstructFromPythonInstance` is the `Option` in the operations.  Reference counts of the
list object itself are not modelled.
-/
namespace Verif.ListOf
open Spec

variable {α : Type}

inductive Fault
  | outOfBounds
  | overwritesLive
  | notLive
  | tooBig
  | useAfterFree
  | nullPointer
  deriving DecidableEq, Repr

abbrev Mem (α : Type) := List (Option α)

/-- TupleOrListOfType.hpp:24-31 `layout`; `reserved` is the number of cells. -/
structure L (α : Type) where
  count : Nat
  reserved : Nat
  cells : Mem α

/-! ### memory -/

/-- A copy constructor at `eltPtr(self, i)`. -/
def construct (m : Mem α) (i : Nat) (v : α) : Except Fault (Mem α) :=
  match m[i]? with
  | none => .error .outOfBounds
  | some (some _) => .error .overwritesLive
  | some none => .ok (m.set i (some v))

/-- A destructor at `eltPtr(self, i)`. -/
def destroy (m : Mem α) (i : Nat) : Except Fault (Mem α) :=
  match m[i]? with
  | none => .error .outOfBounds
  | some none => .error .notLive
  | some (some _) => .ok (m.set i none)

/-- Read the element at `eltPtr(self, i)`. -/
def read (m : Mem α) (i : Nat) : Except Fault α :=
  match m[i]? with
  | none => .error .outOfBounds
  | some none => .error .notLive
  | some (some v) => .ok v

/-- An assignment to the element at `eltPtr(self, i)`. -/
def assign (m : Mem α) (i : Nat) (v : α) : Except Fault (Mem α) :=
  match m[i]? with
  | none => .error .outOfBounds
  | some none => .error .notLive
  | some (some _) => .ok (m.set i (some v))

/-- tp_realloc of the storage to `n` cells: the first cells keep their contents. -/
def realloc (m : Mem α) (n : Nat) : Except Fault (Mem α) :=
  if n < 2 ^ 31 then .ok (m.take n ++ List.replicate (n - m.length) none) else .error .tooBig

/-- tp_malloc of `n` cells. -/
def malloc (n : Nat) : Except Fault (Mem α) := if n < 2 ^ 31 then .ok (List.replicate n none) else .error .tooBig

/-- `memmove` of `n` cells from `i+1` to `i`; the last of them is then dead. -/
def memmoveDown (m : Mem α) (i n : Nat) : Except Fault (Mem α) :=
  if i + 1 + n ≤ m.length then
    match m[i]? with
    | some none => .ok (m.take i ++ (m.drop (i + 1)).take n ++ none :: m.drop (i + 1 + n))
    | _ => .error .overwritesLive
  else .error .outOfBounds

/-- Construct elements `base+k, base+k+1, ...`, `n` of them, from `src`, which gives `none` if it raises. Returns the storage, the
next `k` and whether an exception was raised. -/
def fillLoop (src : Mem α → Nat → Except Fault (Option α)) (base : Nat) : Nat → Nat → Mem α → Except Fault (Mem α × Nat × Bool)
  | 0, k, m => .ok (m, k, false)
  | n + 1, k, m =>
    match src m k with
    | .error f => .error f
    | .ok none => .ok (m, k, true)
    | .ok (some v) =>
      match construct m (base + k) v with
      | .error f => .error f
      | .ok m' => fillLoop src base n (k + 1) m'

/-- Destroy the elements `i, i+1, ...`, `n` of them. -/
def destroyLoop : Nat → Nat → Mem α → Except Fault (Mem α)
  | 0, _, m => .ok m
  | n + 1, i, m =>
    match destroy m i with
    | .error f => .error f
    | .ok m' => destroyLoop n (i + 1) m'

/-! ### the type's functions -/

/-- TupleOrListOfType.hpp:203-234 `constructor(selfPtr, count, allocator)` for a list; `none` if the allocator raised, after the
elements built so far were destroyed. -/
def constructor (count : Nat) (src : Mem α → Nat → Except Fault (Option α)) : Except Fault (Option (L α)) :=
  match malloc (max 1 count) with
  | .error f => .error f
  | .ok m =>
    match fillLoop src 0 count 0 m with
    | .error f => .error f
    | .ok (m', k, true) =>
      match destroyLoop k 0 m' with
      | .error f => .error f
      | .ok _ => .ok none
    | .ok (m', _, false) => .ok (some ⟨count, max 1 count, m'⟩)

/-- TupleOrListOfType.cpp:262-275 `reserve`. -/
def reserve (s : L α) (target : Nat) : Except Fault (L α) :=
  let t := if target < s.count then s.count else target
  match realloc s.cells t with
  | .error f => .error f
  | .ok m => .ok ⟨s.count, t, m⟩

/-- TupleOrListOfType.cpp:322-330: room for one more; `reserved * 1.25 + 1`, rounded down. -/
def growForAppend (s : L α) : Except Fault (L α) :=
  if s.count = s.reserved then
    match realloc s.cells ((5 * s.reserved + 4) / 4) with
    | .error f => .error f
    | .ok m => .ok ⟨s.count, (5 * s.reserved + 4) / 4, m⟩
  else .ok s

/-- TupleOrListOfType.cpp:308-335 `append` (a ListOf always has a layout). -/
def append (s : L α) (v : α) : Except Fault (L α) :=
  match growForAppend s with
  | .error f => .error f
  | .ok s' =>
    match construct s'.cells s'.count v with
    | .error f => .error f
    | .ok m => .ok ⟨s'.count + 1, s'.reserved, m⟩

/-- TupleOrListOfType.cpp:337-341 `ensureSpaceFor`. -/
def ensureSpaceFor (s : L α) (n : Nat) : Except Fault (L α) :=
  if s.reserved < s.count + n then reserve s (s.count + n) else .ok s

/-- TupleOrListOfType.hpp:631-652 `extend`. -/
def extend (s : L α) (n : Nat) (src : Mem α → Nat → Except Fault (Option α)) : Except Fault (L α × Bool) :=
  match ensureSpaceFor s n with
  | .error f => .error f
  | .ok s' =>
    match fillLoop src s'.count n 0 s'.cells with
    | .error f => .error f
    | .ok (m, i, raised) => .ok (⟨s'.count + i, s'.reserved, m⟩, raised)

/-- TupleOrListOfType.cpp:348-354 `remove`. -/
def remove (s : L α) (index : Nat) : Except Fault (L α) :=
  match destroy s.cells index with
  | .error f => .error f
  | .ok m =>
    match memmoveDown m index (s.count - index - 1) with
    | .error f => .error f
    | .ok m' => .ok ⟨s.count - 1, s.reserved, m'⟩

/-- TupleOrListOfType.cpp:356-371 and 373-392 `resize`: the new elements are copies of `v` (which may be the default value). -/
def resize (s : L α) (count : Nat) (v : α) : Except Fault (L α) :=
  match (if count > s.reserved then reserve s count else .ok s) with
  | .error f => .error f
  | .ok s' =>
    if count < s'.count then
      match destroyLoop (s'.count - count) count s'.cells with
      | .error f => .error f
      | .ok m => .ok ⟨count, s'.reserved, m⟩
    else if count > s'.count then
      match fillLoop (fun _ _ => .ok (some v)) s'.count (count - s'.count) 0 s'.cells with
      | .error f => .error f
      | .ok (m, _, _) => .ok ⟨count, s'.reserved, m⟩
    else .ok s'

/-- TupleOrListOfType.cpp:277-293 `reverse`, the loop: swap the cells `k` and `count-1-k` while `k < count/2`. -/
def reverseLoop (count : Nat) : Nat → Nat → Mem α → Except Fault (Mem α)
  | 0, _, m => .ok m
  | n + 1, k, m =>
    match m[k]?, m[count - 1 - k]? with
    | some a, some b => reverseLoop count n (k + 1) ((m.set k b).set (count - 1 - k) a)
    | _, _ => .error .outOfBounds

/-- TupleOrListOfType.cpp:277-293 `reverse`. -/
def reverse (s : L α) : Except Fault (L α) :=
  if s.count ≤ 1 then .ok s
  else
    match reverseLoop s.count (s.count / 2) 0 s.cells with
    | .error f => .error f
    | .ok m => .ok ⟨s.count, s.reserved, m⟩

/-- TupleOrListOfType.hpp:249-264: the loop of `constructorUnbounded`; returns whether an exception was raised. -/
def unboundedLoop : List (Option α) → L α → Except Fault (L α × Bool)
  | [], s => .ok (s, false)
  | none :: _, s => .ok (s, true)
  | some v :: t, s =>
    match construct s.cells s.count v with
    | .error f => .error f
    | .ok m =>
      if s.count + 1 ≥ s.reserved then
        match reserve ⟨s.count + 1, s.reserved, m⟩ ((5 * s.reserved + 4) / 4) with
        | .error f => .error f
        | .ok s' => unboundedLoop t s'
      else unboundedLoop t ⟨s.count + 1, s.reserved, m⟩

/-- TupleOrListOfType.hpp:237-276 `constructorUnbounded` for a list. -/
def constructorUnbounded (vs : List (Option α)) : Except Fault (Option (L α)) :=
  match malloc 1 with
  | .error f => .error f
  | .ok m =>
    match unboundedLoop vs ⟨0, 1, m⟩ with
    | .error f => .error f
    | .ok (s, true) =>
      match destroyLoop s.count 0 s.cells with
      | .error f => .error f
      | .ok _ => .ok none
    | .ok (s, false) => .ok (some s)

/-! ### the methods -/

/-- A copied element as the result of a step of a filling loop (copying does not raise). -/
def elt (r : Except Fault α) : Except Fault (Option α) :=
  match r with
  | .error f => .error f
  | .ok v => .ok (some v)

/-- A new list as the result of a call; constructing it may have raised. -/
def newList (r : Except Fault (Option (L α))) : Except Fault (Except PyErr (Ret α (L α))) :=
  match r with
  | .error f => .error f
  | .ok none => .ok (.error .typeError)
  | .ok (some l) => .ok (.ok (.new l))

/-- Conversion of a Python int to `size_t` by way of a C integer. -/
def toSize (n : Int) : Nat := (n % 2 ^ 64).toNat

/-- `PyLong_AsLongLong`: -1 with an exception set if the int does not fit. -/
def asLongLong (n : Int) : Int × Bool := if -(2 ^ 63) ≤ n ∧ n < 2 ^ 63 then (n, false) else (-1, true)

/-- A call that returns although an exception is set. -/
def finish {R : Type} (pending : Bool) (r : R) : Except PyErr R := if pending then .error .systemError else .ok r

/-- PyTupleOrListOfInstance.cpp:548-567 `sq_item_concrete`. -/
def getItem (s : L α) (i : Int) : Except Fault (Except PyErr (Ret α (L α))) :=
  let (ix, pending) := asLongLong i
  let ix := if ix < 0 then ix + s.count else ix
  if ix ≥ s.count ∨ ix < 0 then .ok (.error .indexError)
  else
    match read s.cells ix.toNat with
    | .error f => .error f
    | .ok v => .ok (finish pending (.val v))

/-- PyTupleOrListOfInstance.cpp:1069-1131 `mp_ass_subscript_concrete`. -/
def setItem (s : L α) (i : Int) (v : Option α) : Except Fault (L α × Except PyErr (Ret α (L α))) :=
  let (ix, pending) := asLongLong i
  let ix := if ix < 0 then ix + s.count else ix
  if ix ≥ s.count ∨ ix < 0 then .ok (s, .error .indexError)
  else
    match v with
    | none => .ok (s, .error .typeError)
    | some v =>
      match assign s.cells ix.toNat v with
      | .error f => .error f
      | .ok m => .ok (⟨s.count, s.reserved, m⟩, finish pending .unit)

/-- PyTupleOrListOfInstance.cpp:945-990 `listPop`. -/
def listPop (s : L α) (i : Int) : Except Fault (L α × Except PyErr (Ret α (L α))) :=
  let (which, pending) := asLongLong i
  if s.count = 0 then .ok (s, .error .indexError)
  else
    let which := if which < 0 then which + s.count else which
    if which < 0 ∨ which ≥ s.count then .ok (s, .error .indexError)
    else
      match read s.cells which.toNat with
      | .error f => .error f
      | .ok v =>
        match remove s which.toNat with
        | .error f => .error f
        | .ok s' => .ok (s', finish pending (.val v))

/-- PyTupleOrListOfInstance.cpp:803-807: append each item until one cannot be converted. -/
def appendAll : List (Option α) → L α → Except Fault (L α × Except PyErr (Ret α (L α)))
  | [], s => .ok (s, .ok .unit)
  | none :: _, s => .ok (s, .error .typeError)
  | some v :: t, s =>
    match append s v with
    | .error f => .error f
    | .ok s' => appendAll t s'

/-- PyTupleOrListOfInstance.cpp:884-935 `listResize`; `v` is the second argument, or the default value `d`, which also stands for
the elements that shrinking never constructs. -/
def listResize (d : α) (s : L α) (n : Int) (v : Option α) : Except Fault (L α × Except PyErr (Ret α (L α))) :=
  let (size, pending) := asLongLong n
  if (s.count : Int) > size then
    match resize s (toSize size) d with
    | .error f => .error f
    | .ok s' => .ok (s', finish pending .unit)
  else
    match v with
    | none => .ok (s, .error .typeError)
    | some v =>
      match resize s (toSize size) v with
      | .error f => .error f
      | .ok s' => .ok (s', finish pending .unit)

/-- CPython `PySlice_Unpack`: missing and clipped indices. -/
def sliceUnpack (start stop step : Option Int) : Except PyErr (Int × Int × Int) :=
  let clip (x : Int) : Int := max (-(2 ^ 63)) (min (2 ^ 63 - 1) x)
  let st := match step with
    | none => 1
    | some x => max (-(2 ^ 63 - 1)) (clip x)
  if st = 0 then .error .valueError
  else
    let a := match start with
      | none => if st < 0 then 2 ^ 63 - 1 else 0
      | some x => clip x
    let b := match stop with
      | none => if st < 0 then -(2 ^ 63) else 2 ^ 63 - 1
      | some x => clip x
    .ok (a, b, st)

/-- CPython `PySlice_AdjustIndices`: one of the indices. -/
def sliceAdjust (length : Int) (x step : Int) : Int :=
  if x < 0 then
    if x + length < 0 then (if step < 0 then -1 else 0) else x + length
  else if x ≥ length then (if step < 0 then length - 1 else length)
  else x

/-- CPython `PySlice_AdjustIndices`: the length. -/
def sliceLength (start stop step : Int) : Int :=
  if step < 0 then
    if stop < start then (start - stop - 1) / (-step) + 1 else 0
  else
    if start < stop then (stop - start - 1) / step + 1 else 0

/-- PyTupleOrListOfInstance.cpp:573-594 slicing. -/
def getSlice (s : L α) (start stop step : Option Int) : Except Fault (Except PyErr (Ret α (L α))) :=
  match sliceUnpack start stop step with
  | .error e => .ok (.error e)
  | .ok (a, b, st) =>
    let a := sliceAdjust s.count a st
    let b := sliceAdjust s.count b st
    newList (constructor (sliceLength a b st).toNat (fun _ k =>
        if a + k * st < 0 then .error .outOfBounds
        else
          elt (read s.cells (a + k * st).toNat)))

/-- A freshly constructed list of values: the argument of a call. -/
def ofList (vs : List α) : L α := ⟨vs.length, max 1 vs.length, vs.map some ++ List.replicate (max 1 vs.length - vs.length) none⟩

/-- PyTupleOrListOfInstance.cpp:88-117: `+` for two lists of the same type. -/
def concat (s r : L α) : Except Fault (Except PyErr (Ret α (L α))) :=
  newList (constructor (s.count + r.count) (fun _ k =>
      elt (if k < s.count then read s.cells k else read r.cells (k - s.count))))

/-- PyTupleOrListOfInstance.cpp:135-141: `PySequence_GetItem` and the conversion to the element type. -/
def item (vs : List (Option α)) (k : Nat) : Except Fault (Option α) :=
  match vs[k]? with
  | none => .error .outOfBounds
  | some v => .ok v

/-- PyTupleOrListOfInstance.cpp:119-149: `+` with any other sequence, on either side. -/
def concatSeq (s : L α) (vs : List (Option α)) (reversed : Bool) : Except Fault (Except PyErr (Ret α (L α))) :=
  newList (constructor (s.count + vs.length) (fun _ k =>
      if (reversed = false ∧ k < s.count) ∨ (reversed = true ∧ k ≥ vs.length) then
        elt (read s.cells (if reversed then k - vs.length else k))
      else
        item vs (if reversed then k else k - s.count)))

/-- TupleOrListOfType.cpp:296-300 `copyListObject`. -/
def copyListObject (s : L α) : Except Fault (Except PyErr (Ret α (L α))) :=
  newList (constructor s.count (fun _ k =>
      elt (read s.cells k)))

/-- A call that leaves the list as it is. -/
def keep (s : L α) (r : Except Fault (Except PyErr (Ret α (L α)))) : Except Fault (L α × Except PyErr (Ret α (L α))) :=
  match r with
  | .error f => .error f
  | .ok r => .ok (s, r)

/-- A call that returns None. -/
def done (r : Except Fault (L α)) : Except Fault (L α × Except PyErr (Ret α (L α))) :=
  match r with
  | .error f => .error f
  | .ok s => .ok (s, .ok .unit)

/-- One call. `d` is the default value of the element type.
PyTupleOrListOfInstance.cpp: append 729-761, extend 768-811, clear 864-875, reserve 839-859 (the argument becomes an `int`, then a
`size_t`). -/
def apply (d : α) (s : L α) : Op α → Except Fault (L α × Except PyErr (Ret α (L α)))
  | .append none => .ok (s, .error .typeError)
  | .append (some v) => done (append s v)
  | .extend vs =>
    match extend s (ofList vs).count (fun _ i =>
        elt (read (ofList vs).cells i)) with
    | .error f => .error f
    | .ok (s', _) => .ok (s', .ok .unit)
  | .extendSelf =>
    match extend s s.count (fun m i =>
        elt (read m i)) with
    | .error f => .error f
    | .ok (s', _) => .ok (s', .ok .unit)
  | .extendIter vs => appendAll vs s
  | .clear => done (resize s 0 d)
  | .reserve n => done (reserve s (toSize (Int.bmod n (2 ^ 32))))
  | .resize n => listResize d s n (some d)
  | .resizeWith n v => listResize d s n v
  | .pop i => listPop s i
  | .get i => keep s (getItem s i)
  | .set i v => setItem s i v
  | .slice a b c => keep s (getSlice s a b c)
  | .concat vs => keep s (concat s (ofList vs))
  | .concatSeq vs reversed => keep s (concatSeq s vs reversed)
  | .copy => keep s (copyListObject s)

/-- TupleOrListOfType.cpp:213-216: the empty list. -/
def empty : L α := ⟨0, 1, [none]⟩

/-- Any sequence of calls on an empty list, until a fault. -/
def run (d : α) : List (Op α) → L α → Except Fault (L α)
  | [], s => .ok s
  | op :: ops, s =>
    match apply d s op with
    | .error f => .error f
    | .ok (s', _) => run d ops s'

/-- PyTupleOrListOfInstance.cpp:680-692 `tp_iternext_concrete`: an iterator is an offset; `none` is exhaustion. -/
def iterNext (s : L α) (offset : Nat) : Except Fault (Nat × Option α) :=
  if offset ≥ s.count then .ok (offset, none)
  else
    match read s.cells offset with
    | .error f => .error f
    | .ok v => .ok (offset + 1, some v)

end Verif.ListOf
