import Verif.Ast.Model
/-
What the conversion to a typed tree and back is to keep, and for which programs it is claimed.
-/
namespace Verif.Ast

mutual
/-- The same program: comments for type checkers are dropped; the node for `...` of Python 3.7 becomes a constant (without its place);
with `keep = false` every place is line 0, column 0. -/
def Py.clean (keep : Bool) : Py → Py
  | .node c fs pos => if c = "Ellipsis" then .node "Constant" [("value", .const .ellipsis)] (some (0, 0))
    else .node c (Py.cleanFields keep fs) (if keep then pos else pos.map fun _ => (0, 0))
  | .list xs => .list (Py.cleanAll keep xs)
  | .none => .none
  | .int n => .int n
  | .str s => .str s
  | .const c => .const c
termination_by structural p => p
/-- All of a list. -/
def Py.cleanAll (keep : Bool) : List Py → List Py
  | [] => []
  | p :: ps => p.clean keep :: Py.cleanAll keep ps
termination_by structural ps => ps
/-- All attributes. -/
def Py.cleanFields (keep : Bool) : List (String × Py) → List (String × Py)
  | [] => []
  | (n, p) :: ps => (n, if n = "type_comment" then .none else p.clean keep) :: Py.cleanFields keep ps
termination_by structural ps => ps
end

/-- A number that fits in 64 bits. -/
def small (n : Int) : Bool := decide (-2 ^ 63 ≤ n) && decide (n < 2 ^ 63)

/-- Is this a node of that class? -/
def Py.isNode (c : String) : Py → Bool
  | .node c' _ _ => c' == c
  | _ => false

/-- What a node must not be: an assignment expression; `from . import` without a module's name; a whole number of Python 3.7 that does
not fit in 64 bits; before Python 3.9 a subscription with a comma, unless there is a slice on every side of every comma. -/
def plainNode (c : String) (fs : List (String × Py)) : Bool :=
  if c = "NamedExpr" then false
  else if c = "ImportFrom" then match fs.lookup "module" with | some (.str _) => true | _ => false
  else if c = "Num" then match fs.lookup "n" with | some (.const (.int n)) => small n | _ => true
  else if c = "Index" then match fs.lookup "value" with | some p => !p.isNode "Tuple" | _ => true
  else if c = "ExtSlice" then match fs.lookup "dims" with | some (.list xs) => xs.all (·.isNode "Slice") | _ => true
  else true

mutual
/-- No node of a program is of this kind, and its line numbers, columns and other numbers fit in 64 bits. -/
def Py.plain : Py → Bool
  | .node c fs pos => plainNode c fs && (match pos with | some (l, o) => small l && small o | .none => true) && Py.plainFields fs
  | .list xs => Py.plainAll xs
  | .int n => small n
  | _ => true
termination_by structural p => p
/-- All of a list. -/
def Py.plainAll : List Py → Bool
  | [] => true
  | p :: ps => p.plain && Py.plainAll ps
termination_by structural ps => ps
/-- All attributes. -/
def Py.plainFields : List (String × Py) → Bool
  | [] => true
  | (_, p) :: ps => p.plain && Py.plainFields ps
termination_by structural ps => ps
end

end Verif.Ast
