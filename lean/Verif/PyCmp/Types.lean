import Verif.Conv.Types
/-
Plain Python objects, the comparison operators, and what the processor, the C library and Python supply for comparing.
-/
namespace Verif.PyCmp

/-- A plain Python object: nothing of typed_python in it.  `other` is any object that is not a number, text, a bytes object, a tuple
or a list. -/
inductive Obj
  | none
  | bool (b : Bool)
  | int (n : Int)
  | float (bits : Nat)
  | str (points : List Nat)
  | bytes (b : List Nat)
  | tuple (items : List Obj)
  | list (items : List Obj)
  | other (n : Nat)
  deriving Repr

/-- The comparison operators. -/
inductive Op
  | eq | ne | lt | gt | le | ge
  deriving DecidableEq, Repr

/-- What the C++ compiler and the C library supply: conversions between numbers and `==` of doubles (`env`), `x < y` of doubles, and
`memcmp` of two pieces of memory of the same size. -/
structure Machine where
  env : Conv.Env
  less : Nat → Nat → Bool
  memcmp : List Nat → List Nat → Int

end Verif.PyCmp
