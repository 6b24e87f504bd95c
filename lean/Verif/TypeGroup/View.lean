import Verif.TypeGroup.Model
/-
The specification for C92: what can be found out about an object by following its walks to some depth.
-/
namespace Verif.TypeGroup

variable {O H : Type}

/-- What is seen of an object or of a record of a walk. -/
inductive View (H : Type) where
  /-- too deep -/
  | cut
  /-- a hash that the walk gives, or a simple constant with that hash -/
  | hash (h : H)
  | str (s : String)
  | named (n : String) (v : View H)
  /-- an object with the category of the type that it is, if it is one, and with its parts -/
  | object (category : Option Nat) (parts : List (View H))

/-- What is seen of a record; errors are not seen. -/
def recView (sub : O → View H) : Rec O H → Option (View H)
  | .hash h => some (.hash h)
  | .str s => some (.str s)
  | .topo o => some (sub o)
  | .named n o => some (.named n (sub o))
  | .err _ => none

/-- What is seen of an object down to a depth. -/
def view (W : World O H) : Nat → O → View H
  | depth, o =>
    match W.const o, depth with
    | some h, _ => .hash h
    | none, 0 => .cut
    | none, depth + 1 => .object ((W.type o).map Prod.fst) ((W.walk o).filterMap (recView (view W depth)))

end Verif.TypeGroup
