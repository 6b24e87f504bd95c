import Verif.PyCmp.Spec
/-
What Python answers when two dictionaries are compared.
-/
namespace Verif.PyDict

open Verif.PyCmp
open Verif.Conv (Ty Data Reg Env Fits)

/-- Two dictionaries are equal if they have as many entries, and for each entry of the one there is one in the other with an equal key and an
equal value. -/
def pythonEqual (P : Floats) (a b : List (Obj × Obj)) : Bool :=
  decide (a.length = b.length) && a.all fun p => b.any fun q => python P .eq p.1 q.1 == some true && python P .eq p.2 q.2 == some true

/-- Python's comparison of a dictionary with an object, which is a dictionary or (`none`) is not; dictionaries are not ordered. -/
def pythonDict (P : Floats) (op : Op) (a : List (Obj × Obj)) : Option (List (Obj × Obj)) → Option Bool
  | none => unordered op
  | some b => match op with
    | .eq => some (pythonEqual P a b)
    | .ne => some (!pythonEqual P a b)
    | _ => none

/-- The plain dictionary with the contents of a typed one. -/
def contentsDict (K V : Ty) (table : List (Data × Data)) : List (Obj × Obj) := table.map fun p => (contents K p.1, contents V p.2)

/-- No two keys are equal. -/
def DistinctKeys (P : Floats) (items : List (Obj × Obj)) : Prop := items.Pairwise fun p q => python P .eq p.1 q.1 ≠ some true

/-- Machine integers and booleans. -/
def Whole (r : Reg) : Prop := r ≠ .f32 ∧ r ≠ .f64

/-- The key types that are spoken of: text, bytes objects and whole numbers of any width. -/
def KeyType (K : Ty) : Prop := K = .str ∨ K = .bytes ∨ ∃ r, K = .reg r ∧ Whole r

/-- A key that a conversion does not change: not a float where whole numbers are expected, and not a number that is too large. -/
def Kept (e : Env) : Ty → Obj → Prop
  | .reg r, .int n => Fits e r (.int n)
  | .reg _, .float _ => False
  | _, _ => True

end Verif.PyDict
