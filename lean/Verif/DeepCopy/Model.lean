import Verif.Common
import Verif.Slab.Model
/-
Model of `deepcopyContiguous` and `deepBytecount` on typed_python objects
(/repo/typed_python/_types.cpp 1675-1716 and the `deepcopyConcrete` / `deepBytecountConcrete` methods of the types).

Simplifications:
* A value is the list of machine slots it embeds, in the order the copier visits them: `Tuple`, `NamedTuple`,
  `HeldClass` and `OneOf` store their parts inline and only forward to them (CompositeType.hpp 87-109,
  HeldClassType.hpp 565-590, OneOfType.hpp 80-97), so they contribute slots, not objects.
* Interpreter-owned objects (PythonObjectOfTypeType.cpp) and the user-supplied type map are not modelled.
* The counting pass may visit the slots of an object in another order than the copying pass (`Dict` counts all keys
  before all values, DictType.hpp 165-179; `Tuple` copies its last field first, CompositeType.hpp 92); the order is a
  parameter `ord` of the counting functions.
-/
namespace Verif.DeepCopy
open Verif.Slab (Slab allocate bytesRequired)

/-- One machine slot of a value: plain data, a null layout pointer (empty `str`, `bytes`, `TupleOf`, `ConstDict`), a
pointer to a heap object, or a class member that was never initialised, holding whatever word was in memory. -/
inductive Slot
  | pod (bits : Int)
  | null
  | ref (addr : Nat)
  | uninit (word : Nat)
  deriving DecidableEq, Repr

/-- What an object is, with the quantities its size depends on.
`str`: StringType.hpp 24-30; `bytes`: BytesType.hpp 24-30; `tupleOf`/`listOf`: TupleOrListOfType.hpp 24-31;
`table` (Dict and Set): hash_table_layout.hpp; `constDict`: ConstDictType.hpp 31-39 (no sub-trees: `subpointers` is
always 0 in practice); `alternative`: AlternativeType.hpp 81-87; `cls`: ClassType.hpp 39-44;
`cell`: TypedCellType.hpp 25-30. -/
inductive Kind
  | str (pointcount width : Nat)
  | bytes (bytecount : Nat)
  | tupleOf (count eltSize : Nat)
  | listOf (count eltSize : Nat)
  | table (reserved itemBytes hashSize : Nat)
  | constDict (count pairBytes : Nat)
  | alternative (bodyBytes : Nat)
  | cls (heldBytes : Nat)
  | cell (heldBytes : Nat)
  deriving DecidableEq, Repr

/-- A heap object: its kind, its reference count, the slots it embeds, and everything else it stores (characters,
hash cache, `which`, occupancy and hash arrays) as opaque data that both copiers transfer verbatim. -/
structure Obj where
  kind : Kind
  refcount : Nat
  slots : List Slot
  payload : List Nat
  deriving DecidableEq, Repr

/-- Memory, as far as typed_python objects go. -/
abbrev Heap := Nat → Option Obj

/-- `sizeof` of the layout structs, and of `std::max_align_t` (`align`). -/
structure Sizes where
  align : Nat
  str : Nat
  bytes : Nat
  seq : Nat
  table : Nat
  constDict : Nat
  alternative : Nat
  cls : Nat
  cell : Nat

/-- The values on x86-64 Linux with GCC. -/
def gcc64 : Sizes := ⟨32, 24, 16, 32, 88, 24, 16, 16, 16⟩

/-- Failures: a slab failure, `"Bytes wrong: …"` (_types.cpp 1703-1705), following a wild pointer (undefined behaviour
in C++), and running out of the model's recursion fuel. -/
inductive Err
  | slab (e : Verif.Slab.Err)
  | bytesWrong
  | wild
  | fuel
  deriving DecidableEq, Repr

/-- `reserveCount` of the copy of a list or tuple: TupleOrListOfType.hpp 97-101 and 152-157 (a list always has room for
one element). -/
def reserveCount : Kind → Nat
  | .tupleOf n _ => n
  | .listOf n _ => if n = 0 then 1 else n
  | _ => 0

/-- Sizes of the allocations made before the contained slots are copied, in order; the first is the object itself.
StringType.hpp 153/167, BytesType.hpp 67/77, TupleOrListOfType.hpp 93 and 106-107, hash_table_layout.hpp 386 and
394-397, ConstDictType.hpp 147-154, AlternativeType.hpp 234-237, ClassType.hpp 222-225, TypedCellType.hpp 110. -/
def allocsBefore (z : Sizes) : Kind → List Nat
  | .str n w => [z.str + n * w]
  | .bytes n => [z.bytes + n]
  | .tupleOf n e => if reserveCount (.tupleOf n e) = 0 then [z.seq] else [z.seq, e * reserveCount (.tupleOf n e)]
  | .listOf n e => if reserveCount (.listOf n e) = 0 then [z.seq] else [z.seq, e * reserveCount (.listOf n e)]
  | .table r b _ => [z.table, b * r]
  | .constDict n b => [z.constDict + n * b]
  | .alternative b => [z.alternative + b]
  | .cls b => [z.cls + b]
  | .cell b => [z.cell + b]

/-- Sizes of the allocations made after the contained slots are copied: hash_table_layout.hpp 424-427
(`items_populated`), 442 (`hash_table_slots`), 449-452 (`hash_table_hashes`). -/
def allocsAfter : Kind → List Nat
  | .table r _ hs => [r, 4 * hs, 4 * hs]
  | _ => []

/-- What `deepBytecountConcrete` adds for the object itself, given what it added up for the contained slots:
StringType.hpp 205, BytesType.hpp 112, TupleOrListOfType.hpp 152-171, DictType.hpp 157-163 / SetType.hpp 129-135,
ConstDictType.hpp 225-229, AlternativeType.hpp 211-213, ClassType.hpp 264-265, and TypedCellType.hpp 148-150, which
rounds the sum for the contents together with the header and leaves the held value itself out. -/
def counted (z : Sizes) (k : Kind) (inner : Nat) : Nat :=
  match k with
  | .str n w => bytesRequired z.align (n * w + z.str)
  | .bytes n => bytesRequired z.align (n + z.bytes)
  | .tupleOf n e => bytesRequired z.align z.seq +
      (if reserveCount (.tupleOf n e) = 0 then 0 else bytesRequired z.align (reserveCount (.tupleOf n e) * e)) + inner
  | .listOf n e => bytesRequired z.align z.seq +
      (if reserveCount (.listOf n e) = 0 then 0 else bytesRequired z.align (reserveCount (.listOf n e) * e)) + inner
  | .table r b hs => bytesRequired z.align z.table + bytesRequired z.align r + bytesRequired z.align (r * b) +
      bytesRequired z.align (4 * hs) * 2 + inner
  | .constDict n b => bytesRequired z.align (z.constDict + n * b) + inner
  | .alternative b => bytesRequired z.align (b + z.alternative) + inner
  | .cls b => inner + bytesRequired z.align (z.cls + b)
  | .cell _ => bytesRequired z.align (inner + z.cell)

/-- Whether the copier consults `context.alreadyAllocated` for this object: always, except for strings, bytes and
ConstDicts with a single holder (StringType.hpp 150, BytesType.hpp 66, ConstDictType.hpp 190). -/
def memoised (o : Obj) : Bool :=
  match o.kind with
  | .str _ _ => o.refcount != 1
  | .bytes _ => o.refcount != 1
  | .constDict _ _ => o.refcount != 1
  | _ => true

/-- Whether the counter inserts the object in `alreadyVisited`: not for single-holder strings and bytes
(StringType.hpp 192-198, BytesType.hpp 98-104); ConstDict always does (ConstDictType.hpp 218). -/
def marked (o : Obj) : Bool :=
  match o.kind with
  | .str _ _ => o.refcount != 1
  | .bytes _ => o.refcount != 1
  | _ => true

/-! ### `deepBytecount` -/

/-- Fold a counting function over slots (the `res += …` loops). -/
def countList (f : List Nat → Slot → Except Err (Nat × List Nat)) : List Nat → List Slot → Except Err (Nat × List Nat)
  | vis, [] => .ok (0, vis)
  | vis, s :: ss =>
    match f vis s with
    | .error e => .error e
    | .ok (n, vis1) =>
      match countList f vis1 ss with
      | .error e => .error e
      | .ok (m, vis2) => .ok (n + m, vis2)

/-- /repo/typed_python/Type.hpp 401-407 with the `deepBytecountConcrete` of each type (`outSlabs = nullptr`).  An
uninitialised class member is followed like any other (HeldClassType.hpp 582-590 does not look at the flag). -/
def countSlot (z : Sizes) (ord : Obj → List Slot) (h : Heap) : Nat → List Nat → Slot → Except Err (Nat × List Nat)
  | _, vis, .pod _ => .ok (0, vis)
  | _, vis, .null => .ok (0, vis)
  | 0, _, .ref _ => .error .fuel
  | 0, _, .uninit _ => .error .fuel
  | f + 1, vis, .ref a =>
    match h a with
    | none => .error .wild
    | some o =>
      if memoised o && vis.contains a then .ok (0, vis)
      else
        match countList (countSlot z ord h f) (if marked o then a :: vis else vis) (ord o) with
        | .error e => .error e
        | .ok (n, vis1) => .ok (counted z o.kind n, vis1)
  | f + 1, vis, .uninit a =>
    match h a with
    | none => .error .wild
    | some o =>
      if memoised o && vis.contains a then .ok (0, vis)
      else
        match countList (countSlot z ord h f) (if marked o then a :: vis else vis) (ord o) with
        | .error e => .error e
        | .ok (n, vis1) => .ok (counted z o.kind n, vis1)

/-- /repo/typed_python/_types.cpp 1686-1687 / 1798-1826: the size prediction for a value. -/
def deepBytecount (z : Sizes) (ord : Obj → List Slot) (h : Heap) (fuel : Nat) (v : List Slot) : Except Err Nat :=
  match countList (countSlot z ord h fuel) [] v with
  | .error e => .error e
  | .ok (n, _) => .ok n

/-! ### `deepcopy` -/

/-- A finished copy: where it is, which object it is a copy of (not stored by the C++ code, kept for the proofs), and
its contents. -/
structure Entry where
  dst : Nat
  src : Nat
  kind : Kind
  slots : List Slot
  payload : List Nat
  deriving DecidableEq, Repr

/-- The state of a copy: the slab, `context.alreadyAllocated`, the reference-count words of the new objects, and the
objects finished so far. -/
structure St where
  slab : Slab
  memo : List (Nat × Nat)
  rc : Nat → Nat
  dest : List Entry

/-- Set a reference-count word. -/
def setRc (st : St) (d n : Nat) : St := { st with rc := fun x => if x = d then n else st.rc x }

/-- `refcount++`. -/
def incRc (st : St) (d : Nat) : St := setRc st d (st.rc d + 1)

/-- Allocate a list of blocks in order. -/
def allocs (A : Nat) : Slab → List Nat → Except Err (List (Option Nat) × Slab)
  | s, [] => .ok ([], s)
  | s, n :: ns =>
    match allocate A s n with
    | .error e => .error (.slab e)
    | .ok (p, s1) =>
      match allocs A s1 ns with
      | .error e => .error e
      | .ok (ps, s2) => .ok (p :: ps, s2)

/-- Fold a copying function over slots (the `deepcopy` loops). -/
def copyList (f : St → Slot → Except Err (Slot × St)) : St → List Slot → Except Err (List Slot × St)
  | st, [] => .ok ([], st)
  | st, s :: ss =>
    match f st s with
    | .error e => .error e
    | .ok (s1, st1) =>
      match copyList f st1 ss with
      | .error e => .error e
      | .ok (ss1, st2) => .ok (s1 :: ss1, st2)

/-- Allocate and fill the copy of one object; the new object's count starts at 0.  The pointer is the first allocation
(never null: every layout struct has a positive size; a null one would be a wild write). -/
def copyBody (z : Sizes) (f : St → Slot → Except Err (Slot × St)) (st : St) (a : Nat) (o : Obj) :
    Except Err (Nat × St) :=
  match allocs z.align st.slab (allocsBefore z o.kind) with
  | .error e => .error e
  | .ok (ps, s1) =>
    match ps with
    | some d :: _ =>
      match copyList f (setRc { st with slab := s1 } d 0) o.slots with
      | .error e => .error e
      | .ok (slots1, st1) =>
        match allocs z.align st1.slab (allocsAfter o.kind) with
        | .error e => .error e
        | .ok (_, s2) => .ok (d, { st1 with slab := s2, dest := st1.dest ++ [⟨d, a, o.kind, slots1, o.payload⟩] })
    | _ => .error .wild

/-- /repo/typed_python/Type.cpp 195-197 with the `deepcopyConcrete` of each type: TupleOrListOfType.hpp 78-132,
DictType.hpp 118-141, SetType.hpp 90-113, ConstDictType.hpp 133-203, AlternativeType.hpp 216-253, ClassType.hpp
206-246, TypedCellType.hpp 95-128, StringType.hpp 137-181, BytesType.hpp 53-89.  Note that an object enters
`alreadyAllocated` only after everything it contains has been copied.  Dict and Set start at count 1 and skip the
final increment on the first visit (hash_table_layout.hpp 390); single-holder strings likewise.  Uninitialised class
members are skipped (HeldClassType.hpp 571). -/
def copySlot (z : Sizes) (h : Heap) : Nat → St → Slot → Except Err (Slot × St)
  | _, st, .pod b => .ok (.pod b, st)
  | _, st, .null => .ok (.null, st)
  | _, st, .uninit w => .ok (.uninit w, st)
  | 0, _, .ref _ => .error .fuel
  | f + 1, st, .ref a =>
    match h a with
    | none => .error .wild
    | some o =>
      if memoised o then
        match st.memo.lookup a with
        | some d => .ok (.ref d, incRc st d)
        | none =>
          match copyBody z (copySlot z h f) st a o with
          | .error e => .error e
          | .ok (d, st1) => .ok (.ref d, incRc { st1 with memo := (a, d) :: st1.memo } d)
      else
        match copyBody z (copySlot z h f) st a o with
        | .error e => .error e
        | .ok (d, st1) => .ok (.ref d, incRc st1 d)

/-- /repo/typed_python/_types.cpp 1675-1716, `deepcopyContiguous` of a typed value: predict, make a slab of that size,
copy into it, compare the sizes. -/
def deepcopyContiguous (z : Sizes) (ord : Obj → List Slot) (pageSize : Nat) (h : Heap) (fuel : Nat) (v : List Slot) :
    Except Err (List Slot × St) :=
  match deepBytecount z ord h fuel v with
  | .error e => .error e
  | .ok n =>
    match copyList (copySlot z h fuel) ⟨Verif.Slab.new pageSize n, [], fun _ => 0, []⟩ v with
    | .error e => .error e
    | .ok (v1, st) => if n ≠ Verif.Slab.getAllocated st.slab then .error .bytesWrong else .ok (v1, st)

/-- The heap made of the finished copies, with their reference counts. -/
def destHeap (st : St) : Heap := fun d =>
  match st.dest.find? (fun e => e.dst = d) with
  | some e => some ⟨e.kind, st.rc d, e.slots, e.payload⟩
  | none => none

end Verif.DeepCopy
