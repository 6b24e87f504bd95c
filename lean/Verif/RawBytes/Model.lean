/-
C126: the raw bytes of lists and tuples: `toBytes` and `fromBytes`, in the interpreter and in compiled code.
-/
namespace Verif.RawBytes

abbrev Byte := Nat

/-- What the layout of a list or tuple has: the number of its elements, and their memory. -/
structure Layout where
  count : Int
  data : List Byte
  deriving DecidableEq, Repr

/-- A tuple or a list; an empty tuple has no layout (TupleOrListOfType.hpp:207-210). -/
abbrev Value := Option Layout

inductive Res (α : Type) where
  | ok (a : α)
  | typeError
  | valueError
  /-- Reading through a null pointer, or dividing by zero. -/
  | crash
  /-- The memory of something that is not a bytes object is read as if it were one. -/
  | undefined
  deriving DecidableEq, Repr

/-- A number in 32 bits with a sign, which is how the layout keeps its count (TupleOrListOfType.hpp:28). -/
def wrap32 (n : Nat) : Int := if n % 4294967296 < 2147483648 then (n % 4294967296 : Nat) else (n % 4294967296 : Nat) - 4294967296

/-- The constructor of an empty list or tuple, `reserve`, `memcpy` and `setSizeUnsafe` as PyTupleOrListOfInstance.cpp:445-450 and _runtime.cpp:2737-2744
call them.  An empty tuple is null (TupleOrListOfType.hpp:207-210), and `reserve` reads its layout (TupleOrListOfType.cpp:262-275). -/
def fill (isTuple : Bool) (eltCount : Nat) (b : List Byte) : Res Value :=
  if isTuple then .crash else .ok (some ⟨wrap32 eltCount, b⟩)

/-- PyTupleOrListOfInstance.cpp:400-453 `fromBytes`, of a type with elements of `size` bytes; `none` is an argument that is not a bytes object, for which
there is no `return` (409-415). -/
def fromBytes (isTuple pod : Bool) (size : Nat) (arg : Option (List Byte)) : Res Value :=
  if !pod then .typeError
  else match arg with
    | none => .undefined
    | some b =>
      if size = 0 ∧ b.length ≠ 0 then .valueError
      else if size = 0 then .crash
      else if b.length % size ≠ 0 then .valueError
      else fill isTuple (b.length / size) b

/-- _runtime.cpp:2719-2746 `tp_list_or_tuple_of_from_bytes`, which compiled code calls (tuple_of_wrapper.py:411-425).  The argument is converted to bytes
before; `none` is a null pointer, which is the usual form of no bytes (BytesType.cpp:413-417). -/
def fromBytesCompiled (isTuple pod : Bool) (size : Nat) (arg : Option (List Byte)) : Res Value :=
  if !pod then .typeError
  else match arg with
    | none => .crash
    | some b =>
      if size = 0 ∧ b.length ≠ 0 then .valueError
      else if size = 0 then .crash
      else if b.length % size ≠ 0 then .valueError
      else fill isTuple (b.length / size) b

/-- PyTupleOrListOfInstance.cpp:380-398 `toBytes`. -/
def toBytes (pod : Bool) (size : Nat) (v : Value) : Res (List Byte) :=
  if !pod then .typeError
  else match v with
    | none => .ok []
    | some l => .ok (l.data.take (l.count * size).toNat)

/-- _runtime.cpp:2704-2717 `tp_list_or_tuple_of_to_bytes`, tuple_of_wrapper.py:540-551. -/
def toBytesCompiled (pod : Bool) (size : Nat) (v : Value) : Res (List Byte) :=
  if !pod then .typeError
  else match v with
    | none => .crash
    | some l => .ok (l.data.take (l.count * size).toNat)

end Verif.RawBytes
