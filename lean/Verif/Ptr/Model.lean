/-
PointerTo: PointerToType.hpp and PyPointerToInstance.cpp (the interpreter), compiler/type_wrappers/pointer_to_wrapper.py (the compiler).

An address is 64 bits.  Memory gives a byte for every address.  Elements are plain data: assigning one copies its bytes.  `s` is the number of
bytes of an element (Type.hpp:341-343 `bytecount`); the layout types of the compiler have as many bytes (compiler/type_wrappers/tuple_wrapper.py:204-207
is a packed structure, compiler/type_wrappers/one_of_wrapper.py:40-46 and compiler/type_wrappers/held_class_wrapper.py:58-61 are made of bytes).
-/
namespace Verif.Ptr

abbrev Addr := BitVec 64

abbrev Byte := BitVec 8

abbrev Memory := Addr → Byte

/-- What a Python operand can be: an integer (booleans are), a float (with the integer that C makes of it), a pointer of the same type, another
object. -/
inductive Operand where
  | int (n : Int)
  | float (cut : Int)
  | ptr (a : Addr)
  | other
deriving DecidableEq, Repr

/-- A value, an exception, or the end of the process. -/
inductive Res (α : Type) where
  | ok (v : α)
  | error
  | crash
deriving DecidableEq, Repr

inductive Cmp where
  | lt | le | eq | ne | gt | ge
deriving DecidableEq, Repr

/-! ### The interpreter -/

/-- PointerToType.hpp:182-184 `offsetBy`; the product and the sum are unsigned. -/
def offsetBy (s : Nat) (a : Addr) (ix : BitVec 64) : Addr := a + ix * BitVec.ofNat 64 s

/-- The integers that PyLong_AsLongLong takes. -/
def fits (n : Int) : Bool := -2 ^ 63 ≤ n && n < 2 ^ 63

/-- PyPointerToInstance.cpp:225-241: `p + n`.  An integer that is too large leaves an exception behind (235). -/
def addI (s : Nat) (a : Addr) : Operand → Res Addr
  | .int n => if fits n then .ok (offsetBy s a (BitVec.ofInt 64 n)) else .error
  | _ => .error

/-- PyPointerToInstance.cpp:243-257: `p - q`.  The difference is divided by a `size_t`, and so as an unsigned number; the quotient is read as
signed. -/
def subI (s : Nat) (a : Addr) : Operand → Res Int
  | .ptr b => if s = 0 then .crash else .ok ((a - b) / BitVec.ofNat 64 s).toInt
  | _ => .error

/-- PyPointerToInstance.cpp:132 and 151: the index of `p[n]`, converted to an Int64 at the level Implicit, where floats are cut
(PyRegisterTypeInstance.hpp:562-573) and the upper bits of large integers dropped (587-592). -/
def indexI : Operand → Option (BitVec 64)
  | .int n => some (BitVec.ofInt 64 n)
  | .float n => some (BitVec.ofInt 64 n)
  | _ => none

/-- The bytes of an element. -/
def read (m : Memory) (a : Addr) (s : Nat) : List Byte := (List.range s).map fun k => m (a + BitVec.ofNat 64 k)

/-- Copying bytes to memory. -/
def write (m : Memory) (a : Addr) : List Byte → Memory
  | [] => m
  | b :: bs => fun x => if x = a then b else write m (a + 1) bs x

/-- PyPointerToInstance.cpp:128-145 `mp_subscript_concrete`: `p[n]`. -/
def getI (s : Nat) (m : Memory) (a : Addr) (k : Operand) : Res (List Byte) := match indexI k with
  | some ix => .ok (read m (offsetBy s a ix) s)
  | none => .error

/-- PyPointerToInstance.cpp:147-168 `mp_ass_subscript_concrete`: `p[n] = v`. -/
def setI (s : Nat) (m : Memory) (a : Addr) (k : Operand) (v : List Byte) : Res Memory := match indexI k with
  | some ix => .ok (write m (offsetBy s a ix) v)
  | none => .error

/-- PointerToType.hpp:148-157 `cmp`: addresses are compared as unsigned numbers; Type.hpp `cmpResultToBoolForPyOrdering`. -/
def cmpI (op : Cmp) (a b : Addr) : Bool :=
  let r : Int := if a < b then -1 else if b < a then 1 else 0
  match op with
  | .lt => r < 0
  | .le => r ≤ 0
  | .eq => r = 0
  | .ne => r ≠ 0
  | .gt => r > 0
  | .ge => r ≥ 0

/-- PyPointerToInstance.cpp:282-285 `pyInquiryConcrete`. -/
def boolI (a : Addr) : Bool := a ≠ 0

/-- PyPointerToInstance.cpp:323-329 `pyUnaryOperatorConcrete`: `int(p)`. -/
def intI (a : Addr) : Int := a.toNat

/-- CompositeType.cpp:43-48: where the members of a tuple begin. -/
def offsets : Nat → List Nat → List Nat
  | _, [] => []
  | at_, s :: ss => at_ :: offsets (at_ + s) ss

/-- PyPointerToInstance.cpp:303-317: `p.x`, a pointer to the member with the number `i`. -/
def memberI (sizes : List Nat) (a : Addr) (i : Nat) : Option Addr := ((offsets 0 sizes)[i]?).map fun o => a + BitVec.ofNat 64 o

/-! ### The compiler -/

/-- pointer_to_wrapper.py:85-90 and compiler/native_compiler/native_ast_to_llvm_function_converter.py:1191-1210: `p + n`, LLVM's getelementptr.
arithmetic_wrapper.py:96-100: a float is no index. -/
def addC (s : Nat) (a : Addr) : Operand → Res Addr
  | .int n => .ok (a + BitVec.ofInt 64 n * BitVec.ofNat 64 s)
  | _ => .error

/-- pointer_to_wrapper.py:92-104: `p - q`, a signed division. -/
def subC (s : Nat) (a : Addr) : Operand → Res Int
  | .ptr b => if s = 0 then .crash else .ok ((a - b).sdiv (BitVec.ofNat 64 s)).toInt
  | _ => .error

/-- pointer_to_wrapper.py:142-148 `convert_getitem`. -/
def getC (s : Nat) (m : Memory) (a : Addr) (k : Operand) : Res (List Byte) := match addC s a k with
  | .ok p => .ok (read m p s)
  | .error => .error
  | .crash => .crash

/-- pointer_to_wrapper.py:150-156 `convert_setitem`. -/
def setC (s : Nat) (m : Memory) (a : Addr) (k : Operand) (v : List Byte) : Res Memory := match addC s a k with
  | .ok p => .ok (write m p v)
  | .error => .error
  | .crash => .crash

/-- pointer_to_wrapper.py:106-122: addresses are compared as signed numbers. -/
def cmpC (op : Cmp) (a b : Addr) : Bool := match op with
  | .lt => a.slt b
  | .gt => b.slt a
  | .le => a.sle b
  | .ge => b.sle a
  | .eq => a == b
  | .ne => a != b

/-- pointer_to_wrapper.py:216-218. -/
def boolC (a : Addr) : Bool := a != 0

/-- pointer_to_wrapper.py:220-222: `int(p)`. -/
def intC (a : Addr) : Int := a.toInt

/-- pointer_to_wrapper.py:224-228: `str(p)` is the decimal number after 0x. -/
def strC (a : Addr) : String := "0x" ++ toString a.toInt

/-- compiler/type_wrappers/tuple_wrapper.py:275-289 `refAs` of a packed structure, 729-735 `convert_attribute_pointerTo`. -/
def memberC (sizes : List Nat) (a : Addr) (i : Nat) : Option Addr :=
  if i < sizes.length then some (a + BitVec.ofNat 64 (sizes.take i).sum) else none

end Verif.Ptr
