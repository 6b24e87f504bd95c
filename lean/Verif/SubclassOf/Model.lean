import Verif.Mro.Class
/-
C131: classes as values in compiled code, `SubclassOf(c)`.

`w0` are the classes when the code is compiled, `w` those when it runs.  Classes only, without `Class` itself, without alternatives; types are the same
exactly if their numbers are.
-/
namespace Verif.SubclassOf
open Verif.Mro.Obj

/-- `Type::isSubclassOf` (Type.hpp:619-631) with `HeldClass::isSubclassOfConcrete` (HeldClassType.hpp:1033-1041): it is strict.  The base `m_base` of a
class is not one of the classes here. -/
def isSubclassOf (w : World) (e d : Nat) : Bool :=
  if d = e then false else match w[e]? with
    | some k => k.mro.contains d
    | none => false

/-- `np_typePtrIsSubclass` (_runtime.cpp:122-128). -/
def typePtrIsSubclass (w : World) (e d : Nat) : Bool := if e = d then true else isSubclassOf w e d

/-- `Type::canConvertToTrivially` (Type.cpp:248-255) for two classes. -/
def canConvertToTrivially (w : World) (c d : Nat) : Bool := if c = d then true else isSubclassOf w c d

/-- `SubclassOfWrapper._can_convert_to_type` (subclass_of_wrapper.py:59-86), the same for `SubclassOf(d)` and for the class `d`. -/
def canConvert (w0 : World) (c d : Nat) : Could :=
  if canConvertToTrivially w0 c d then .yes else if classCouldBeInstanceOf w0 c d = .no then .no else .maybe

/-- `convert_to_type_with_target` (subclass_of_wrapper.py:95-136) to `SubclassOf(d)`, of the class `e` known as `SubclassOf(c)`: what the target has then. -/
def toSubclassOf (w0 w : World) (c d e : Nat) : Option Nat := match canConvert w0 c d with
  | .yes => some e
  | .no => none
  | .maybe => if typePtrIsSubclass w e d then some e else none

/-- `convert_to_type_with_target` (subclass_of_wrapper.py:138-152) to the class `d`, whose target stores nothing and stands for `d`. -/
def toKnown (w0 : World) (c d e : Nat) : Option Nat := match canConvert w0 c d with
  | .yes => some d
  | .no => none
  | .maybe => if e = d then some d else none

/-- `convert_issubclass` (subclass_of_wrapper.py:166-181): `issubclass(e, f)` with `e` known as `SubclassOf(c)` and `f` as `SubclassOf(d)`. -/
def issubclassBoth (w0 w : World) (c d e f : Nat) : Bool :=
  if classCouldBeInstanceOf w0 c d = .no then false else typePtrIsSubclass w e f

/-- `convert_issubclass` (subclass_of_wrapper.py:184-212): `issubclass(e, d)` with `e` known as `SubclassOf(c)`. -/
def issubclassKnown (w0 w : World) (c d e : Nat) : Bool := match classCouldBeInstanceOf w0 c d with
  | .yes => true
  | .no => false
  | .maybe => if (match w0[d]? with | some k => k.final | none => false) then decide (e = d) else typePtrIsSubclass w e d

/-- `convert_attribute` (subclass_of_wrapper.py:223-229) for a class member of `c`: a constant. -/
def classMember (w0 : World) (c : Nat) (n : Name) : Option PyObj := match w0[c]? with
  | some k => find k.classMembers n
  | none => none

end Verif.SubclassOf
