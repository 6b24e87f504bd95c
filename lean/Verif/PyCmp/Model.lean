import Verif.PyCmp.Types
import Verif.Conv.Model
/-
Comparing a typed value with a plain Python object in the interpreter: /repo/typed_python/PyInstance.cpp `compare_to_python` and
`tp_richcompare` with the methods they dispatch to.

Simplifications: `none` stands for any exception.  An object of a typed_python type on the other side is not modelled here (two values
of the same type: C98).  Text is stored with the smallest width that holds its code points, as Python keeps it.  Python's comparison
of two items looks at identity first; the code here never does.  Dictionaries, sets, classes and alternatives are not modelled.
-/
namespace Verif.PyCmp

open Verif.Conv (Reg Num Const Ty Data cast promotesTo inInt64)

/-- util.hpp:215-226 `cmpResultToBoolForPyOrdering`.  Its argument is a `char`, so only the low eight bits of what is passed count. -/
def holds (op : Op) (result : Int) : Bool :=
  let r := Conv.wrap 8 true result
  match op with
  | .eq => r = 0
  | .ne => r ≠ 0
  | .lt => r < 0
  | .gt => r > 0
  | .le => r ≤ 0
  | .ge => r ≥ 0

/-- The operators of C++ on two numbers of the same type. -/
def numOp (m : Machine) (op : Op) : Num → Num → Bool
  | .int a, .int b => match op with
    | .eq => a = b
    | .ne => a ≠ b
    | .lt => a < b
    | .gt => a > b
    | .le => a ≤ b
    | .ge => a ≥ b
  | .flt a, .flt b => match op with
    | .eq => m.env.feq a b
    | .ne => !m.env.feq a b
    | .lt => m.less a b
    | .gt => m.less b a
    | .le => m.less a b || m.env.feq a b
    | .ge => m.less b a || m.env.feq a b
  | _, _ => false

/-- PyRegisterTypeInstance.hpp:872-883 `pyCompare`. -/
def pyCompare (m : Machine) (op : Op) (ra : Reg) (a : Num) (rb : Reg) (b : Num) : Bool :=
  numOp m op (cast m.env (promotesTo ra rb) a) (cast m.env (promotesTo ra rb) b)

/-- PyInstance.cpp:1425-1436: what cannot be compared is unequal. -/
def incomparable (op : Op) : Option Bool :=
  match op with
  | .ne => some true
  | .eq => some false
  | _ => none

/-- PyRegisterTypeInstance.hpp:918-955: booleans, then integers, those that do not fit in 64 bits without their upper bits, then
floats. -/
def compareReg (m : Machine) (op : Op) (r : Reg) (n : Num) : Obj → Option Bool
  | .bool b => some (pyCompare m op r n .bool (.int (if b then 1 else 0)))
  | .int k => some (if inInt64 k then pyCompare m op r n .i64 (.int k) else pyCompare m op r n .u64 (.int (k % 2 ^ 64)))
  | .float x => some (pyCompare m op r n .f64 (.flt x))
  | _ => incomparable op

/-- Python's `PyUnicode_KIND`, and StringType.cpp:1604-1610 `bytes_per_codepoint`: how many bytes a code point takes. -/
def width (s : List Nat) : Nat :=
  if s.all (· < 2 ^ 8) then 1 else if s.all (· < 2 ^ 16) then 2 else 4

/-- One number in the memory of a little endian machine. -/
def littleEndian : Nat → Nat → List Nat
  | 0, _ => []
  | w + 1, n => n % 256 :: littleEndian w (n / 256)

/-- The memory that holds a text. -/
def raw (w : Nat) (s : List Nat) : List Nat := s.flatMap (littleEndian w)

/-- StringType.cpp:1338-1351 `typedArrayCompare` and 1502-1514, the lengths when one is a prefix of the other. -/
def cmpPoints : List Nat → List Nat → Int
  | [], [] => 0
  | [], _ :: _ => -1
  | _ :: _, [] => 1
  | a :: as, b :: bs => if a < b then -1 else if a > b then 1 else cmpPoints as bs

/-- PyStringInstance.hpp:82-121 `compare_to_python_concrete`; 92-101 for different widths with StringType.cpp:1463-1515 `cmpStatic`
(an empty text has no memory: 1467-1469); otherwise 103-109 the lengths and 111-120 the memory. -/
def compareStr (m : Machine) (op : Op) (s : List Nat) : Obj → Option Bool
  | .str o =>
    some (holds op (
      if width o ≠ width s then (if s = [] then -1 else cmpPoints s o)
      else if o.length < s.length then -1
      else if o.length > s.length then 1
      else m.memcmp (raw (width s) o) (raw (width s) s)))
  | _ => some (holds op (-1))

/-- PyBytesInstance.hpp:93-114 `compare_to_python_concrete`. -/
def compareBytes (m : Machine) (op : Op) (b : List Nat) : Obj → Option Bool
  | .bytes o =>
    some (holds op (
      if o.length < b.length then -1
      else if o.length > b.length then 1
      else m.memcmp o b))
  | _ => some (holds op (-1))

/-- PyNoneInstance.hpp:41-46 `compare_to_python_concrete`. -/
def compareNone (op : Op) : Obj → Option Bool
  | .none => some (holds op 0)
  | _ => some (holds op 1)

/-- PyInstance.cpp:1398-1402: a constant is compared as the value it is. -/
def compareConst (m : Machine) (op : Op) (c : Const) (o : Obj) : Option Bool :=
  match c with
  | .num r n => compareReg m op r n o
  | .str s => compareStr m op s o
  | .bytes b => compareBytes m op b o

/-- The body of the loops, PyTupleOrListOfInstance.cpp:1281-1297, PyCompositeTypeInstance.cpp:206-222: `none` when the loop goes on. -/
def element (f : Op → Option Bool) (op : Op) : Option (Option Int) := do
  if ← f .eq then some none
  else if op = .eq ∨ op = .ne then some (some 1)
  else if ← f .lt then some (some (-1))
  else some (some 1)

/-- PyTupleOrListOfInstance.cpp:1207-1246 and 1269-1308: the items of the other object, one after the other, against the elements. -/
def compareElts (f : Op → Data → Obj → Option Bool) (op : Op) : List Data → List Obj → Option Int
  | [], [] => some 0
  | [], _ :: _ => some (-1)
  | _ :: _, [] => some 1
  | d :: ds, o :: os => do
    match ← element (fun op' => f op' d o) op with
    | some r => some r
    | none => compareElts f op ds os

mutual
/-- PyInstance.cpp:1393-1423 `compare_to_python` without `exact`: PyListOfInstance 1201-1261 and PyTupleOfInstance 1263-1323 of
PyTupleOrListOfInstance.cpp, PyCompositeTypeInstance.cpp:188-248, PyOneOfInstance.hpp:71-74. -/
def compare (m : Machine) : Ty → Op → Data → Obj → Option Bool
  | .none, op, _, o => compareNone op o
  | .reg r, op, .num n, o => compareReg m op r n o
  | .str, op, .str s, o => compareStr m op s o
  | .bytes, op, .bytes b, o => compareBytes m op b o
  | .value c, op, _, o => compareConst m op c o
  | .listOf t, op, .seq ds, .list os => (compareElts (compare m t) op ds os).map (holds op)
  | .tupleOf t, op, .seq ds, .tuple os => (compareElts (compare m t) op ds os).map (holds op)
  | .tuple ts, op, .seq ds, .tuple os => (compareFields m ts op ds os).map (holds op)
  | .named _ ts, op, .seq ds, .tuple os => (compareFields m ts op ds os).map (holds op)
  | .oneOf ts, op, .tag k d, o => compareAt m ts k op d o
  | _, op, _, _ => incomparable op
termination_by structural t => t
/-- PyCompositeTypeInstance.cpp:194-233: the same as for the elements of a list, each with its own type. -/
def compareFields (m : Machine) : List Ty → Op → List Data → List Obj → Option Int
  | t :: ts, op, d :: ds, o :: os => do
    match ← element (fun op' => compare m t op' d o) op with
    | some r => some r
    | none => compareFields m ts op ds os
  | [], _, _, [] => some 0
  | [], _, _, _ :: _ => some (-1)
  | _ :: _, _, _, [] => some 1
  | _, _, _, _ => none
termination_by structural ts => ts
/-- PyOneOfInstance.hpp:72-73: the alternative that is stored. -/
def compareAt (m : Machine) : List Ty → Nat → Op → Data → Obj → Option Bool
  | [], _, op, _, _ => incomparable op
  | t :: _, 0, op, d, o => compare m t op d o
  | _ :: ts, k + 1, op, d, o => compareAt m ts k op d o
termination_by structural ts => ts
end

/-- PyInstance.cpp:1451-1466 `reversePyOpOrdering`. -/
def reverse : Op → Op
  | .lt => .gt
  | .le => .ge
  | .gt => .lt
  | .ge => .le
  | op => op

/-- PyInstance.cpp:1469-1504 `tp_richcompare`, the typed value on the left. -/
def onLeft (m : Machine) (t : Ty) (d : Data) (op : Op) (o : Obj) : Option Bool := compare m t op d o

/-- PyInstance.cpp:1483-1486 and 1499, the typed value on the right. -/
def onRight (m : Machine) (t : Ty) (d : Data) (op : Op) (o : Obj) : Option Bool := compare m t (reverse op) d o

end Verif.PyCmp
