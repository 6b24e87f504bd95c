import Verif.PyCmp.Model
/-
Comparing a Dict or a ConstDict with a plain Python object in the interpreter: PyDictInstance.cpp:589-651 and PyConstDictInstance.cpp:444-507.

Simplifications: the table is the list of its entries, since C04 and C10 prove that a lookup finds exactly the stored keys; two keys are the
same if their data are (keys with floats in them are not modelled).  A conversion that fails ends the comparison with "not equal"; this
leaves out the failures that are Python exceptions in PyConstDictInstance.cpp:487-488, after which the comparison goes on with the key
that memory full of zeros stands for.
-/
namespace Verif.PyDict

open Verif.PyCmp
open Verif.Conv (Ty Data Level Py conv)

mutual
/-- A plain object as the conversions see it. -/
def toPy : Obj → Py
  | .none => .none
  | .bool b => .bool b
  | .int n => .int n
  | .float x => .float x
  | .str s => .str s
  | .bytes b => .bytes b
  | .tuple xs => .tuple (toPys xs)
  | .list xs => .list (toPys xs)
  | .other n => .obj n
termination_by structural o => o
/-- All of a list. -/
def toPys : List Obj → List Py
  | [] => []
  | x :: xs => toPy x :: toPys xs
termination_by structural xs => xs
end

/-- DictType.cpp:266-280 `lookupValueByKey` and ConstDictType.cpp:485-491 `lookupValueByKey`. -/
def lookup (table : List (Data × Data)) (d : Data) : Option Data := table.lookup d

/-- PyDictInstance.cpp:620-650 and PyConstDictInstance.cpp:475-506: every entry of the other dictionary is looked up; `l` is how much the
conversion of its keys may change, and `none` an exception of a comparison of values. -/
def loop (m : Machine) (K V : Ty) (l : Level) (table : List (Data × Data)) : List (Obj × Obj) → Option Bool
  | [] => some true
  | (k, v) :: rest => match conv m.env K (toPy k) l with
    | none => some false
    | some d => match lookup table d with
      | none => some false
      | some w => match compare m V .eq w v with
        | none => none
        | some false => some false
        | some true => loop m K V l table rest

/-- PyDictInstance.cpp:603-650; `none` is an object that is not a dictionary. -/
def equals (m : Machine) (K V : Ty) (l : Level) (table : List (Data × Data)) : Option (List (Obj × Obj)) → Option Bool
  | none => some false
  | some items => if items.length = table.length then loop m K V l table items else some false

/-- PyDictInstance.cpp:589-601 and PyConstDictInstance.cpp:444-456. -/
def compareDict (m : Machine) (K V : Ty) (l : Level) (op : Op) (table : List (Data × Data)) (o : Option (List (Obj × Obj))) : Option Bool :=
  match op with
  | .eq => equals m K V l table o
  | .ne => (equals m K V l table o).map (!·)
  | op => incomparable op

/-- PyDictInstance.cpp:624-629, without `exact`. -/
def dict (m : Machine) (K V : Ty) : Op → List (Data × Data) → Option (List (Obj × Obj)) → Option Bool := compareDict m K V .implicit

/-- PyConstDictInstance.cpp:479-486, without `exact`. -/
def constDict (m : Machine) (K V : Ty) : Op → List (Data × Data) → Option (List (Obj × Obj)) → Option Bool := compareDict m K V .upcastContainers

/-- PyInstance.cpp:1483-1486 and 1499: the plain object on the left. -/
def dictRight (m : Machine) (K V : Ty) (op : Op) (table : List (Data × Data)) (o : Option (List (Obj × Obj))) : Option Bool := dict m K V (reverse op) table o

end Verif.PyDict
