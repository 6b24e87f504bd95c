import Mathlib.Data.List.Basic
/-
Python's syntax trees as the `ast` module gives them, and the grammar they follow in Python 3.7 to 3.10 (Python's own, from the
documentation of `ast`; nothing here is from /repo).
-/
namespace Verif.Ast

/-- The versions of Python that are supported (setup.py:80, and .github/workflows). -/
inductive Version
  | v37 | v38 | v39 | v310
  deriving DecidableEq, Repr

/-- `sys.version_info.minor`. -/
def Version.minor : Version → Nat
  | .v37 => 7
  | .v38 => 8
  | .v39 => 9
  | .v310 => 10

/-- A constant in a program. -/
inductive Const
  | none
  | bool (b : Bool)
  | int (n : Int)
  | float (x : Nat)
  | complex (re im : Nat)
  | str (s : String)
  | bytes (s : List UInt8)
  | ellipsis
  deriving DecidableEq, Repr

/-- What the attributes of `ast` nodes hold: a node with the name of its class, its attributes in the order of `_fields`, and line and
column if it has them; a list; None; a number; a name; a constant. -/
inductive Py
  | node (cls : String) (fields : List (String × Py)) (pos : Option (Int × Int))
  | list (xs : List Py)
  | none
  | int (n : Int)
  | str (s : String)
  | const (c : Const)

/-- The sorts of nodes. `slice` is a sort of its own before Python 3.9. -/
inductive Sort_
  | mod | stmt | expr | slice | exprContext | boolop | operator | unaryop | cmpop | comprehension | excepthandler | arguments | arg
  | keyword | alias | withitem | typeIgnore
  deriving DecidableEq, Repr

/-- What an attribute may hold: a node of a sort, or None instead, a list of them, a list of them with Nones; a name, a name or None, a
list of names; a number, a number or None, 0 or 1; a constant, or one of some kind; a text or None. -/
inductive Field
  | one (s : Sort_) | opt (s : Sort_) | many (s : Sort_) | manyOpt (s : Sort_)
  | ident | identOpt | idents
  | int | intOpt | flag
  | const | number | text | bytes | nameConst | stringOpt
  deriving DecidableEq, Repr

/-- A class of nodes: its sort, whether its nodes have a line and a column, and its attributes. -/
structure Class where
  sort : Sort_
  pos : Bool
  fields : List (String × Field)
  deriving DecidableEq, Repr

/-- The comment for type checkers, which some nodes have since Python 3.8. -/
def comment (v : Version) : List (String × Field) := if 8 ≤ v.minor then [("type_comment", .stringOpt)] else []

/-- The sort of what is between the brackets of a subscription. -/
def sliceSort (v : Version) : Sort_ := if 9 ≤ v.minor then .expr else .slice

/-- The statements. -/
def statements (v : Version) : List (String × Class) := [
  ("FunctionDef", ⟨.stmt, true, [("name", .ident), ("args", .one .arguments), ("body", .many .stmt), ("decorator_list", .many .expr), ("returns", .opt .expr)] ++ comment v⟩),
  ("AsyncFunctionDef", ⟨.stmt, true, [("name", .ident), ("args", .one .arguments), ("body", .many .stmt), ("decorator_list", .many .expr), ("returns", .opt .expr)] ++ comment v⟩),
  ("ClassDef", ⟨.stmt, true, [("name", .ident), ("bases", .many .expr), ("keywords", .many .keyword), ("body", .many .stmt), ("decorator_list", .many .expr)]⟩),
  ("Return", ⟨.stmt, true, [("value", .opt .expr)]⟩),
  ("Delete", ⟨.stmt, true, [("targets", .many .expr)]⟩),
  ("Assign", ⟨.stmt, true, [("targets", .many .expr), ("value", .one .expr)] ++ comment v⟩),
  ("AugAssign", ⟨.stmt, true, [("target", .one .expr), ("op", .one .operator), ("value", .one .expr)]⟩),
  ("AnnAssign", ⟨.stmt, true, [("target", .one .expr), ("annotation", .one .expr), ("value", .opt .expr), ("simple", .int)]⟩),
  ("For", ⟨.stmt, true, [("target", .one .expr), ("iter", .one .expr), ("body", .many .stmt), ("orelse", .many .stmt)] ++ comment v⟩),
  ("AsyncFor", ⟨.stmt, true, [("target", .one .expr), ("iter", .one .expr), ("body", .many .stmt), ("orelse", .many .stmt)] ++ comment v⟩),
  ("While", ⟨.stmt, true, [("test", .one .expr), ("body", .many .stmt), ("orelse", .many .stmt)]⟩),
  ("If", ⟨.stmt, true, [("test", .one .expr), ("body", .many .stmt), ("orelse", .many .stmt)]⟩),
  ("With", ⟨.stmt, true, [("items", .many .withitem), ("body", .many .stmt)] ++ comment v⟩),
  ("AsyncWith", ⟨.stmt, true, [("items", .many .withitem), ("body", .many .stmt)] ++ comment v⟩),
  ("Raise", ⟨.stmt, true, [("exc", .opt .expr), ("cause", .opt .expr)]⟩),
  ("Try", ⟨.stmt, true, [("body", .many .stmt), ("handlers", .many .excepthandler), ("orelse", .many .stmt), ("finalbody", .many .stmt)]⟩),
  ("Assert", ⟨.stmt, true, [("test", .one .expr), ("msg", .opt .expr)]⟩),
  ("Import", ⟨.stmt, true, [("names", .many .alias)]⟩),
  ("ImportFrom", ⟨.stmt, true, [("module", .identOpt), ("names", .many .alias), ("level", .intOpt)]⟩),
  ("Global", ⟨.stmt, true, [("names", .idents)]⟩),
  ("Nonlocal", ⟨.stmt, true, [("names", .idents)]⟩),
  ("Expr", ⟨.stmt, true, [("value", .one .expr)]⟩),
  ("Pass", ⟨.stmt, true, []⟩),
  ("Break", ⟨.stmt, true, []⟩),
  ("Continue", ⟨.stmt, true, []⟩)]

/-- The expressions other than constants and subscriptions. -/
def expressions (v : Version) : List (String × Class) := [
  ("BoolOp", ⟨.expr, true, [("op", .one .boolop), ("values", .many .expr)]⟩),
  ("BinOp", ⟨.expr, true, [("left", .one .expr), ("op", .one .operator), ("right", .one .expr)]⟩),
  ("UnaryOp", ⟨.expr, true, [("op", .one .unaryop), ("operand", .one .expr)]⟩),
  ("Lambda", ⟨.expr, true, [("args", .one .arguments), ("body", .one .expr)]⟩),
  ("IfExp", ⟨.expr, true, [("test", .one .expr), ("body", .one .expr), ("orelse", .one .expr)]⟩),
  ("Dict", ⟨.expr, true, [("keys", .manyOpt .expr), ("values", .many .expr)]⟩),
  ("Set", ⟨.expr, true, [("elts", .many .expr)]⟩),
  ("ListComp", ⟨.expr, true, [("elt", .one .expr), ("generators", .many .comprehension)]⟩),
  ("SetComp", ⟨.expr, true, [("elt", .one .expr), ("generators", .many .comprehension)]⟩),
  ("DictComp", ⟨.expr, true, [("key", .one .expr), ("value", .one .expr), ("generators", .many .comprehension)]⟩),
  ("GeneratorExp", ⟨.expr, true, [("elt", .one .expr), ("generators", .many .comprehension)]⟩),
  ("Await", ⟨.expr, true, [("value", .one .expr)]⟩),
  ("Yield", ⟨.expr, true, [("value", .opt .expr)]⟩),
  ("YieldFrom", ⟨.expr, true, [("value", .one .expr)]⟩),
  ("Compare", ⟨.expr, true, [("left", .one .expr), ("ops", .many .cmpop), ("comparators", .many .expr)]⟩),
  ("Call", ⟨.expr, true, [("func", .one .expr), ("args", .many .expr), ("keywords", .many .keyword)]⟩),
  ("FormattedValue", ⟨.expr, true, [("value", .one .expr), ("conversion", .intOpt), ("format_spec", .opt .expr)]⟩),
  ("JoinedStr", ⟨.expr, true, [("values", .many .expr)]⟩),
  ("Attribute", ⟨.expr, true, [("value", .one .expr), ("attr", .ident), ("ctx", .one .exprContext)]⟩),
  ("Starred", ⟨.expr, true, [("value", .one .expr), ("ctx", .one .exprContext)]⟩),
  ("Name", ⟨.expr, true, [("id", .ident), ("ctx", .one .exprContext)]⟩),
  ("List", ⟨.expr, true, [("elts", .many .expr), ("ctx", .one .exprContext)]⟩),
  ("Tuple", ⟨.expr, true, [("elts", .many .expr), ("ctx", .one .exprContext)]⟩),
  ("Subscript", ⟨.expr, true, [("value", .one .expr), ("slice", .one (sliceSort v)), ("ctx", .one .exprContext)]⟩)]

/-- Slices, and expressions of newer versions. -/
def newer (v : Version) : List (String × Class) :=
  (if 9 ≤ v.minor then [("Slice", ⟨.expr, true, [("lower", .opt .expr), ("upper", .opt .expr), ("step", .opt .expr)]⟩)]
    else [("Slice", ⟨.slice, false, [("lower", .opt .expr), ("upper", .opt .expr), ("step", .opt .expr)]⟩),
      ("Index", ⟨.slice, false, [("value", .one .expr)]⟩), ("ExtSlice", ⟨.slice, false, [("dims", .many .slice)]⟩)]) ++
  (if 8 ≤ v.minor then [("NamedExpr", ⟨.expr, true, [("target", .one .expr), ("value", .one .expr)]⟩)] else [])

/-- Constants. -/
def constants (v : Version) : List (String × Class) :=
  if 8 ≤ v.minor then [("Constant", ⟨.expr, true, [("value", .const), ("kind", .stringOpt)]⟩)]
  else [("Num", ⟨.expr, true, [("n", .number)]⟩), ("Str", ⟨.expr, true, [("s", .text)]⟩), ("Bytes", ⟨.expr, true, [("s", .bytes)]⟩),
    ("NameConstant", ⟨.expr, true, [("value", .nameConst)]⟩), ("Ellipsis", ⟨.expr, true, []⟩), ("Constant", ⟨.expr, true, [("value", .const)]⟩)]

/-- Classes without attributes. -/
def plainClasses (s : Sort_) (names : List String) : List (String × Class) := names.map fun n => (n, ⟨s, false, []⟩)

/-- All others. -/
def others (v : Version) : List (String × Class) := [
  ("Module", ⟨.mod, false, [("body", .many .stmt)] ++ (if 8 ≤ v.minor then [("type_ignores", .many .typeIgnore)] else [])⟩),
  ("Expression", ⟨.mod, false, [("body", .one .expr)]⟩),
  ("Interactive", ⟨.mod, false, [("body", .many .stmt)]⟩),
  ("comprehension", ⟨.comprehension, false, [("target", .one .expr), ("iter", .one .expr), ("ifs", .many .expr), ("is_async", .flag)]⟩),
  ("ExceptHandler", ⟨.excepthandler, true, [("type", .opt .expr), ("name", .identOpt), ("body", .many .stmt)]⟩),
  ("arguments", ⟨.arguments, false, (if 8 ≤ v.minor then [("posonlyargs", .many .arg)] else []) ++ [("args", .many .arg), ("vararg", .opt .arg),
    ("kwonlyargs", .many .arg), ("kw_defaults", .manyOpt .expr), ("kwarg", .opt .arg), ("defaults", .many .expr)]⟩),
  ("arg", ⟨.arg, true, [("arg", .ident), ("annotation", .opt .expr)] ++ comment v⟩),
  ("keyword", ⟨.keyword, decide (9 ≤ v.minor), [("arg", .identOpt), ("value", .one .expr)]⟩),
  ("alias", ⟨.alias, decide (10 ≤ v.minor), [("name", .ident), ("asname", .identOpt)]⟩),
  ("withitem", ⟨.withitem, false, [("context_expr", .one .expr), ("optional_vars", .opt .expr)]⟩)] ++
  plainClasses .exprContext ["Load", "Store", "Del"] ++ plainClasses .boolop ["And", "Or"] ++
  plainClasses .operator ["Add", "Sub", "Mult", "MatMult", "Div", "Mod", "Pow", "LShift", "RShift", "BitOr", "BitXor", "BitAnd", "FloorDiv"] ++
  plainClasses .unaryop ["Invert", "Not", "UAdd", "USub"] ++
  plainClasses .cmpop ["Eq", "NotEq", "Lt", "LtE", "Gt", "GtE", "Is", "IsNot", "In", "NotIn"]

/-- Python's grammar, but for `match` statements (3.10) and comments for type checkers on lines of their own. -/
def grammar (v : Version) : List (String × Class) := statements v ++ expressions v ++ newer v ++ constants v ++ others v

mutual
/-- What is in an attribute is as the grammar says. -/
def Py.wf (v : Version) : Py → Field → Bool
  | .node c fs pos, f => match (grammar v).lookup c with
    | some k => (f == .one k.sort || f == .opt k.sort) && (pos.isSome == k.pos) && Py.wfFields v fs k.fields
    | .none => false
  | .list xs, .many s => Py.wfAll v xs (.one s)
  | .list xs, .manyOpt s => Py.wfAll v xs (.opt s)
  | .list xs, .idents => Py.wfAll v xs .ident
  | .none, .opt _ => true
  | .none, .identOpt => true
  | .none, .intOpt => true
  | .none, .stringOpt => true
  | .str _, .ident => true
  | .str _, .identOpt => true
  | .str _, .stringOpt => true
  | .int _, .int => true
  | .int _, .intOpt => true
  | .int n, .flag => n == 0 || n == 1
  | .const _, .const => true
  | .const (.int _), .number => true
  | .const (.float _), .number => true
  | .const (.complex _ _), .number => true
  | .const (.str _), .text => true
  | .const (.bytes _), .bytes => true
  | .const .none, .nameConst => true
  | .const (.bool _), .nameConst => true
  | _, _ => false
termination_by structural p => p
/-- All in a list are. -/
def Py.wfAll (v : Version) : List Py → Field → Bool
  | [], _ => true
  | p :: ps, f => p.wf v f && Py.wfAll v ps f
termination_by structural ps => ps
/-- The attributes are those of the class. -/
def Py.wfFields (v : Version) : List (String × Py) → List (String × Field) → Bool
  | [], [] => true
  | (n, p) :: ps, (m, f) :: fs => n == m && p.wf v f && Py.wfFields v ps fs
  | _, _ => false
termination_by structural ps => ps
end

end Verif.Ast
