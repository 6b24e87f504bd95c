import Verif.Common
/-
The types, the stored data and the Python values that conversions are about.

Floating point numbers are the bit patterns of doubles; the operations on them are those of an environment, so that every theorem
holds for whatever these operations do unless it says what it needs of them.
-/
namespace Verif.Conv

/-- Type.hpp, the categories of machine numbers. -/
inductive Reg
  | bool | i8 | i16 | i32 | i64 | u8 | u16 | u32 | u64 | f32 | f64
  deriving DecidableEq, Repr

/-- A machine number: an integer (a boolean is 0 or 1) or the bit pattern of a double (a single is kept as the double it equals). -/
inductive Num
  | int (n : Int)
  | flt (bits : Nat)
  deriving DecidableEq, Repr

/-- ValueType.hpp: the constants that can be types.  PyInstance.cpp:1649-1700 `unwrapPyObjectToInstance` makes them from booleans,
integers, floats, bytes and text.  Constants of other types, such as tuples, are not modelled. -/
inductive Const
  | num (r : Reg) (n : Num)
  | str (points : List Nat)
  | bytes (b : List Nat)
  deriving DecidableEq, Repr

/-- The types whose conversions are modelled.  `named` is a NamedTuple: the names and types of its fields. -/
inductive Ty
  | none
  | reg (r : Reg)
  | str
  | bytes
  | value (c : Const)
  | tupleOf (elt : Ty)
  | listOf (elt : Ty)
  | tuple (fields : List Ty)
  | named (names : List String) (fields : List Ty)
  | oneOf (alternatives : List Ty)
  deriving Repr

mutual
/-- Equality of types is decidable. -/
def Ty.decEq : (a b : Ty) → Decidable (a = b)
  | .none, .none => isTrue rfl
  | .reg r, .reg r' => if h : r = r' then isTrue (by rw [h]) else isFalse (by simp [h])
  | .str, .str => isTrue rfl
  | .bytes, .bytes => isTrue rfl
  | .value c, .value c' => if h : c = c' then isTrue (by rw [h]) else isFalse (by simp [h])
  | .tupleOf t, .tupleOf t' => match Ty.decEq t t' with
    | isTrue h => isTrue (by rw [h])
    | isFalse h => isFalse (by simp [h])
  | .listOf t, .listOf t' => match Ty.decEq t t' with
    | isTrue h => isTrue (by rw [h])
    | isFalse h => isFalse (by simp [h])
  | .tuple ts, .tuple ts' => match Ty.decEqAll ts ts' with
    | isTrue h => isTrue (by rw [h])
    | isFalse h => isFalse (by simp [h])
  | .named ns ts, .named ns' ts' => if hn : ns = ns' then match Ty.decEqAll ts ts' with
      | isTrue h => isTrue (by rw [h, hn])
      | isFalse h => isFalse (by simp [h])
    else isFalse (by simp [hn])
  | .oneOf ts, .oneOf ts' => match Ty.decEqAll ts ts' with
    | isTrue h => isTrue (by rw [h])
    | isFalse h => isFalse (by simp [h])
  | .none, .reg _ | .none, .str | .none, .bytes | .none, .value _ | .none, .tupleOf _ | .none, .listOf _ | .none, .tuple _
  | .none, .named _ _ | .none, .oneOf _ => isFalse nofun
  | .reg _, .none | .reg _, .str | .reg _, .bytes | .reg _, .value _ | .reg _, .tupleOf _ | .reg _, .listOf _ | .reg _, .tuple _
  | .reg _, .named _ _ | .reg _, .oneOf _ => isFalse nofun
  | .str, .none | .str, .reg _ | .str, .bytes | .str, .value _ | .str, .tupleOf _ | .str, .listOf _ | .str, .tuple _
  | .str, .named _ _ | .str, .oneOf _ => isFalse nofun
  | .bytes, .none | .bytes, .reg _ | .bytes, .str | .bytes, .value _ | .bytes, .tupleOf _ | .bytes, .listOf _ | .bytes, .tuple _
  | .bytes, .named _ _ | .bytes, .oneOf _ => isFalse nofun
  | .value _, .none | .value _, .reg _ | .value _, .str | .value _, .bytes | .value _, .tupleOf _ | .value _, .listOf _
  | .value _, .tuple _ | .value _, .named _ _ | .value _, .oneOf _ => isFalse nofun
  | .tupleOf _, .none | .tupleOf _, .reg _ | .tupleOf _, .str | .tupleOf _, .bytes | .tupleOf _, .value _ | .tupleOf _, .listOf _
  | .tupleOf _, .tuple _ | .tupleOf _, .named _ _ | .tupleOf _, .oneOf _ => isFalse nofun
  | .listOf _, .none | .listOf _, .reg _ | .listOf _, .str | .listOf _, .bytes | .listOf _, .value _ | .listOf _, .tupleOf _
  | .listOf _, .tuple _ | .listOf _, .named _ _ | .listOf _, .oneOf _ => isFalse nofun
  | .tuple _, .none | .tuple _, .reg _ | .tuple _, .str | .tuple _, .bytes | .tuple _, .value _ | .tuple _, .tupleOf _
  | .tuple _, .listOf _ | .tuple _, .named _ _ | .tuple _, .oneOf _ => isFalse nofun
  | .named _ _, .none | .named _ _, .reg _ | .named _ _, .str | .named _ _, .bytes | .named _ _, .value _ | .named _ _, .tupleOf _
  | .named _ _, .listOf _ | .named _ _, .tuple _ | .named _ _, .oneOf _ => isFalse nofun
  | .oneOf _, .none | .oneOf _, .reg _ | .oneOf _, .str | .oneOf _, .bytes | .oneOf _, .value _ | .oneOf _, .tupleOf _
  | .oneOf _, .listOf _ | .oneOf _, .tuple _ | .oneOf _, .named _ _ => isFalse nofun
/-- Equality of lists of types is decidable. -/
def Ty.decEqAll : (a b : List Ty) → Decidable (a = b)
  | [], [] => isTrue rfl
  | [], _ :: _ => isFalse nofun
  | _ :: _, [] => isFalse nofun
  | a :: as, b :: bs => match Ty.decEq a b, Ty.decEqAll as bs with
    | isTrue h, isTrue h' => isTrue (by rw [h, h'])
    | isFalse h, _ => isFalse (by simp [h])
    | _, isFalse h => isFalse (by simp [h])
end

instance : DecidableEq Ty := Ty.decEq

/-- What is stored for a value of a type.  `unit` is the data of `None` and of constants (they have none); `tag` is the data of a
`OneOf`: which alternative, and its data (OneOfType.cpp:135-143).  Which list object a list is, is not kept. -/
inductive Data
  | unit
  | num (n : Num)
  | str (points : List Nat)
  | bytes (b : List Nat)
  | seq (elts : List Data)
  | tag (which : Nat) (d : Data)
  deriving Repr

mutual
/-- Equality of data is decidable. -/
def Data.decEq : (a b : Data) → Decidable (a = b)
  | .unit, .unit => isTrue rfl
  | .num n, .num n' => if h : n = n' then isTrue (by rw [h]) else isFalse (by simp [h])
  | .str s, .str s' => if h : s = s' then isTrue (by rw [h]) else isFalse (by simp [h])
  | .bytes s, .bytes s' => if h : s = s' then isTrue (by rw [h]) else isFalse (by simp [h])
  | .seq a, .seq b => match Data.decEqAll a b with
    | isTrue h => isTrue (by rw [h])
    | isFalse h => isFalse (by simp [h])
  | .tag k a, .tag k' b => if hk : k = k' then match Data.decEq a b with
      | isTrue h => isTrue (by rw [h, hk])
      | isFalse h => isFalse (by simp [h])
    else isFalse (by simp [hk])
  | .unit, .num _ | .unit, .str _ | .unit, .bytes _ | .unit, .seq _ | .unit, .tag _ _ => isFalse nofun
  | .num _, .unit | .num _, .str _ | .num _, .bytes _ | .num _, .seq _ | .num _, .tag _ _ => isFalse nofun
  | .str _, .unit | .str _, .num _ | .str _, .bytes _ | .str _, .seq _ | .str _, .tag _ _ => isFalse nofun
  | .bytes _, .unit | .bytes _, .num _ | .bytes _, .str _ | .bytes _, .seq _ | .bytes _, .tag _ _ => isFalse nofun
  | .seq _, .unit | .seq _, .num _ | .seq _, .str _ | .seq _, .bytes _ | .seq _, .tag _ _ => isFalse nofun
  | .tag _ _, .unit | .tag _ _, .num _ | .tag _ _, .str _ | .tag _ _, .bytes _ | .tag _ _, .seq _ => isFalse nofun
/-- Equality of lists of data is decidable. -/
def Data.decEqAll : (a b : List Data) → Decidable (a = b)
  | [], [] => isTrue rfl
  | [], _ :: _ => isFalse nofun
  | _ :: _, [] => isFalse nofun
  | a :: as, b :: bs => match Data.decEq a b, Data.decEqAll as bs with
    | isTrue h, isTrue h' => isTrue (by rw [h, h'])
    | isFalse h, _ => isFalse (by simp [h])
    | _, isFalse h => isFalse (by simp [h])
end

instance : DecidableEq Data := Data.decEq

/-- A Python value.  `iter` is any other iterable object (a set, a generator) with the items it yields and whether it has a length;
`dict` has its keys and its values; `inst` is an object of a typed_python type; `obj` is any other object. -/
inductive Py
  | none
  | bool (b : Bool)
  | int (n : Int)
  | float (bits : Nat)
  | str (points : List Nat)
  | bytes (b : List Nat)
  | tuple (items : List Py)
  | list (items : List Py)
  | dict (keys values : List Py)
  | iter (sized : Bool) (items : List Py)
  | inst (t : Ty) (d : Data)
  | obj (n : Nat)
  deriving Repr

/-- ConversionLevel.hpp:9-16 and compiler/conversion_level.py: how much a conversion may change, from nothing to everything. -/
inductive Level
  | signature | upcast | upcastContainers | implicit | implicitContainers | new
  deriving DecidableEq, Repr

/-- ConversionLevel.hpp:18-39 `conversionLevelToInt`. -/
def Level.toInt : Level → Nat
  | .signature => 0
  | .upcast => 1
  | .upcastContainers => 2
  | .implicit => 3
  | .implicitContainers => 4
  | .new => 5

/-- ConversionLevel.hpp:95-97. -/
instance : LE Level := ⟨fun a b => a.toInt ≤ b.toInt⟩
/-- ConversionLevel.hpp:87-89. -/
instance : LT Level := ⟨fun a b => a.toInt < b.toInt⟩
instance (a b : Level) : Decidable (a ≤ b) := inferInstanceAs (Decidable (a.toInt ≤ b.toInt))
instance (a b : Level) : Decidable (a < b) := inferInstanceAs (Decidable (a.toInt < b.toInt))

/-- What the C++ compiler and the Python interpreter supply: conversions between integers and floats, the comparison `==` of
doubles, and `bool`, `int`, `float`, `str` and `bytes` of objects. -/
structure Env where
  /-- `(double)n`; also `PyFloat_AsDouble` of an integer -/
  double : Int → Nat
  /-- `(float)n` -/
  single : Int → Nat
  /-- `(float)x` -/
  narrow : Nat → Nat
  /-- `x` without its fraction, before it is reduced to the width of the target -/
  trunc : Nat → Int
  /-- `(bool)x` -/
  nonzero : Nat → Bool
  /-- `x == y` -/
  feq : Nat → Nat → Bool
  /-- `bool(v)` -/
  truth : Py → Option Bool
  /-- `int(v)` -/
  long : Py → Option Int
  /-- `float(v)` -/
  float : Py → Option Nat
  /-- `str(v)` -/
  str : Py → Option (List Nat)
  /-- `bytes(v)` -/
  bytes : Py → Option (List Nat)

end Verif.Conv
