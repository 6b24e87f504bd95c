import Verif.PyCmp.Types
import Verif.Conv.Spec
/-
What Python answers when two plain objects are compared, and which plain object has the contents of a typed value.  Nothing here refers
to how typed_python compares.
-/
namespace Verif.PyCmp

open Verif.Conv (Reg Num Const Ty Data Env Has)

/-- Python's comparisons with floats: two floats, an integer with a float, a float with an integer.  Python compares the numbers, so
that 2 ** 53 + 1 is not equal to 2.0 ** 53. -/
structure Floats where
  eq : Nat → Nat → Bool
  less : Nat → Nat → Bool
  intEq : Int → Nat → Bool
  intLess : Int → Nat → Bool
  lessInt : Nat → Int → Bool

/-- An operator, of what is equal and what is less. -/
def Op.of (op : Op) (eq less greater : Bool) : Bool :=
  match op with
  | .eq => eq
  | .ne => !eq
  | .lt => less
  | .gt => greater
  | .le => less || eq
  | .ge => greater || eq

/-- Two numbers in Python. -/
def numbers (P : Floats) (op : Op) : Num → Num → Bool
  | .int a, .int b => op.of (a = b) (a < b) (b < a)
  | .int a, .flt x => op.of (P.intEq a x) (P.intLess a x) (P.lessInt x a)
  | .flt x, .int a => op.of (P.intEq a x) (P.lessInt x a) (P.intLess a x)
  | .flt x, .flt y => op.of (P.eq x y) (P.less x y) (P.less y x)

/-- The number an object is, if it is one. -/
def number : Obj → Option Num
  | .bool b => some (.int (if b then 1 else 0))
  | .int n => some (.int n)
  | .float x => some (.flt x)
  | _ => none

/-- Lexicographic order, of texts and of bytes objects. -/
def before : List Nat → List Nat → Bool
  | _, [] => false
  | [], _ :: _ => true
  | a :: as, b :: bs => a < b || (a = b && before as bs)

/-- Objects of kinds that Python does not order are unequal, and ordering them is an error. -/
def unordered (op : Op) : Option Bool :=
  match op with
  | .eq => some false
  | .ne => some true
  | _ => none

mutual
/-- Python's comparison of two plain objects; `none` is a TypeError.  Objects of other kinds are equal to themselves only. -/
def python (P : Floats) (op : Op) : Obj → Obj → Option Bool
  | .none, .none => match op with
    | .eq => some true
    | .ne => some false
    | _ => none
  | .str s, .str o => some (op.of (s = o) (before s o) (before o s))
  | .bytes s, .bytes o => some (op.of (s = o) (before s o) (before o s))
  | .tuple s, .tuple o => pythons P op s o
  | .list s, .list o => pythons P op s o
  | .other a, .other b => if a = b then (match op with | .eq => some true | .ne => some false | _ => none) else unordered op
  | .bool b, o => match number o with
    | some y => some (numbers P op (.int (if b then 1 else 0)) y)
    | none => unordered op
  | .int n, o => match number o with
    | some y => some (numbers P op (.int n) y)
    | none => unordered op
  | .float x, o => match number o with
    | some y => some (numbers P op (.flt x) y)
    | none => unordered op
  | _, _ => unordered op
termination_by structural a => a
/-- Tuples and lists: by the first items that are not equal, and otherwise by their lengths. -/
def pythons (P : Floats) (op : Op) : List Obj → List Obj → Option Bool
  | [], [] => some (op.of true false false)
  | [], _ :: _ => some (op.of false true false)
  | _ :: _, [] => some (op.of false false true)
  | a :: as, b :: bs => match python P .eq a b with
    | none => none
    | some true => pythons P op as bs
    | some false => match op with
      | .eq => some false
      | .ne => some true
      | op => python P op a b
termination_by structural as => as
end

/-- A number as a Python object. -/
def plainNum : Reg → Num → Obj
  | .bool, .int n => .bool (n ≠ 0)
  | _, .int n => .int n
  | _, .flt x => .float x

/-- A constant as a Python object. -/
def plainConst : Const → Obj
  | .num r n => plainNum r n
  | .str s => .str s
  | .bytes b => .bytes b

mutual
/-- The plain Python object with the contents of a typed value: a list for a ListOf, a tuple for a TupleOf, a Tuple or a NamedTuple, an
`int` for an integer of any width, a `float` for a float of any width. -/
def contents : Ty → Data → Obj
  | .reg r, .num n => plainNum r n
  | .str, .str s => .str s
  | .bytes, .bytes b => .bytes b
  | .value c, _ => plainConst c
  | .listOf t, .seq ds => .list (ds.map (contents t))
  | .tupleOf t, .seq ds => .tuple (ds.map (contents t))
  | .tuple ts, .seq ds => .tuple (contentsAll ts ds)
  | .named _ ts, .seq ds => .tuple (contentsAll ts ds)
  | .oneOf ts, .tag k d => contentsAt ts k d
  | _, _ => .none
termination_by structural t => t
/-- The contents of fields. -/
def contentsAll : List Ty → List Data → List Obj
  | t :: ts, d :: ds => contents t d :: contentsAll ts ds
  | _, _ => []
termination_by structural ts => ts
/-- The contents of the alternative that is stored. -/
def contentsAt : List Ty → Nat → Data → Obj
  | [], _, _ => .none
  | t :: _, 0, d => contents t d
  | _ :: ts, k + 1, d => contentsAt ts k d
termination_by structural ts => ts
end

/-- The processor and the C library do what Python relies on: floats are compared alike, the integers up to 2 ** 53 are exact as
doubles, 0 and 1 are exact as singles, and `memcmp` of memory that differs returns something whose low eight bits are not all zero
(the difference of two bytes, say; the C standard does not promise this). -/
structure Sound (m : Machine) (P : Floats) : Prop where
  eq : ∀ x y, P.eq x y = m.env.feq x y
  less : ∀ x y, P.less x y = m.less x y
  intEq : ∀ n x, -2 ^ 53 ≤ n → n ≤ 2 ^ 53 → P.intEq n x = m.env.feq (m.env.double n) x
  intLess : ∀ n x, -2 ^ 53 ≤ n → n ≤ 2 ^ 53 → P.intLess n x = m.less (m.env.double n) x
  lessInt : ∀ n x, -2 ^ 53 ≤ n → n ≤ 2 ^ 53 → P.lessInt x n = m.less x (m.env.double n)
  symm : ∀ x y, m.env.feq x y = m.env.feq y x
  zero : m.env.single 0 = m.env.double 0
  one : m.env.single 1 = m.env.double 1
  same : ∀ a, m.memcmp a a = 0
  differ : ∀ a b, a.length = b.length → (∀ n ∈ a, n < 256) → (∀ n ∈ b, n < 256) → a ≠ b → m.memcmp a b % 256 ≠ 0

mutual
/-- Every number in an object is one on which machine arithmetic and Python's agree: an integer is one of 64 bits, and floats do not
appear together with integers beyond 2 ** 53 (`floats` says whether floats may appear).  Text is made of code points, bytes objects of bytes. -/
def Tame (floats : Bool) : Obj → Prop
  | .int n => -2 ^ 63 ≤ n ∧ n < 2 ^ 63 ∧ (floats = true → -2 ^ 53 ≤ n ∧ n ≤ 2 ^ 53)
  | .float _ => floats = true
  | .str s => ∀ p ∈ s, p < 0x110000
  | .bytes b => ∀ n ∈ b, n < 256
  | .tuple xs => Tames floats xs
  | .list xs => Tames floats xs
  | _ => True
termination_by structural o => o
/-- The same of every object in a list. -/
def Tames (floats : Bool) : List Obj → Prop
  | [] => True
  | x :: xs => Tame floats x ∧ Tames floats xs
termination_by structural xs => xs
end

mutual
/-- An object made of numbers, tuples and lists only, none of its floats a NaN: `x < y`, `x == y` or `y < x` for any two of them. -/
def Numeric (ok : Nat → Prop) : Obj → Prop
  | .bool _ | .int _ => True
  | .float x => ok x
  | .tuple xs => Numerics ok xs
  | .list xs => Numerics ok xs
  | _ => False
termination_by structural o => o
/-- The same of every object in a list. -/
def Numerics (ok : Nat → Prop) : List Obj → Prop
  | [] => True
  | x :: xs => Numeric ok x ∧ Numerics ok xs
termination_by structural xs => xs
end

end Verif.PyCmp
