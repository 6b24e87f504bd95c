import Verif.Ast.Tree
/-
python_ast.py: Python's syntax trees to the typed ones and back.
Lists and `TupleOf`s are not distinguished on the typed side, nor are True and 1 (Python holds them equal); exceptions are `none`.
-/
namespace Verif.Ast

/-! ### The typed trees -/

/-- A typed tree: an alternative with its type, its constructor and its members; a list or tuple; None; a number; a text; a constant. -/
inductive Alg
  | alt (type ctor : String) (members : List (String × Alg))
  | tuple (xs : List Alg)
  | none
  | int (n : Int)
  | str (s : String)
  | const (c : Const)

/-- The types of members: an alternative, `OneOf` it and None, `TupleOf` it, `TupleOf(OneOf(None, it))`, `OneOf(it, TupleOf(it))`; and
`int`, `OneOf(int, None)`, `str`, `OneOf(str, None)`, `TupleOf(str)`, `OneOf(str, TupleOf(str))`, `bool`, `float`, `bytes`,
`OneOf(object, None)`. -/
inductive FT
  | alt (t : String) | altOpt (t : String) | alts (t : String) | altOpts (t : String) | altOrAlts (t : String)
  | int | intOpt | str | strOpt | strs | strOrStrs | bool | float | bytes | obj
  deriving DecidableEq, Repr

/-- The last three members of most alternatives, as python_ast.py:172-174. -/
def lineFields : List (String × FT) := [("line_number", .int), ("col_offset", .int), ("filename", .str)]

/-- python_ast.py:49-63. -/
def moduleAlts (v : Version) : List (String × String × List (String × FT)) := [
  ("Module", "Module", [("body", .alts "Statement")] ++ (if 8 ≤ v.minor then [("type_ignores", .alts "TypeIgnore")] else [])),
  ("Module", "Expression", [("body", .alt "Expr")]),
  ("Module", "Interactive", [("body", .alts "Statement")]),
  ("Module", "Suite", [("body", .alts "Statement")]),
  ("TypeIgnore", "Item", [("lineno", .int), ("tag", .str)])]

/-- python_ast.py:164-359 `Statement`. -/
def statementAlts (v : Version) : List (String × String × List (String × FT)) := [
  ("Statement", "FunctionDef", [("name", .str), ("args", .alt "Arguments"), ("body", .alts "Statement"), ("decorator_list", .alts "Expr"), ("returns", .altOpt "Expr")] ++ lineFields),
  ("Statement", "ClassDef", [("name", .str), ("bases", .alts "Expr"), ("keywords", .alts "Keyword"), ("body", .alts "Statement"), ("decorator_list", .alts "Expr")] ++ lineFields),
  ("Statement", "Return", [("value", .altOpt "Expr")] ++ lineFields),
  ("Statement", "Delete", [("targets", .alts "Expr")] ++ lineFields),
  ("Statement", "Assign", [("targets", .alts "Expr"), ("value", .alt "Expr")] ++ lineFields),
  ("Statement", "AugAssign", [("target", .alt "Expr"), ("op", .alt "BinaryOp"), ("value", .alt "Expr")] ++ lineFields),
  ("Statement", "Print", [("expr", .altOpt "Expr"), ("values", .alts "Expr"), ("nl", .int)] ++ lineFields),
  ("Statement", "For", [("target", .alt "Expr"), ("iter", .alt "Expr"), ("body", .alts "Statement"), ("orelse", .alts "Statement")] ++ lineFields),
  ("Statement", "While", [("test", .alt "Expr"), ("body", .alts "Statement"), ("orelse", .alts "Statement")] ++ lineFields),
  ("Statement", "If", [("test", .alt "Expr"), ("body", .alts "Statement"), ("orelse", .alts "Statement")] ++ lineFields),
  ("Statement", "With", [("items", .alts "WithItem"), ("body", .alts "Statement")] ++ lineFields),
  ("Statement", "Raise", [("exc", .altOpt "Expr"), ("cause", .altOpt "Expr")] ++ lineFields),
  ("Statement", "Try", [("body", .alts "Statement"), ("handlers", .alts "ExceptionHandler"), ("orelse", .alts "Statement"), ("finalbody", .alts "Statement")] ++ lineFields),
  ("Statement", "Assert", [("test", .alt "Expr"), ("msg", .altOpt "Expr")] ++ lineFields),
  ("Statement", "Import", [("names", .alts "Alias")] ++ lineFields),
  ("Statement", "ImportFrom", [("module", .strOrStrs), ("names", .altOrAlts "Alias"), ("level", .intOpt)] ++ lineFields),
  ("Statement", "Global", [("names", .strs)] ++ lineFields),
  ("Statement", "Expr", [("value", .alt "Expr")] ++ lineFields),
  ("Statement", "Pass", [] ++ lineFields),
  ("Statement", "Break", [] ++ lineFields),
  ("Statement", "Continue", [] ++ lineFields),
  ("Statement", "AsyncFunctionDef", [("name", .str), ("args", .alt "Arguments"), ("body", .alts "Statement"), ("decorator_list", .alts "Expr"), ("returns", .altOpt "Expr")] ++ lineFields),
  ("Statement", "AnnAssign", [("target", .alt "Expr"), ("annotation", .alt "Expr"), ("simple", .int), ("value", .altOpt "Expr")] ++ lineFields),
  ("Statement", "AsyncWith", [("items", .alts "WithItem"), ("body", .alts "Statement")] ++ lineFields),
  ("Statement", "AsyncFor", [("target", .alt "Expr"), ("iter", .alt "Expr"), ("body", .alts "Statement"), ("orelse", .alts "Statement")] ++ lineFields),
  ("Statement", "NonLocal", [("names", .strs)] ++ lineFields)]

/-- python_ast.py:478-685 `Expr`. -/
def exprAlts (v : Version) : List (String × String × List (String × FT)) := [
  ("Expr", "BoolOp", [("op", .alt "BooleanOp"), ("values", .alts "Expr")] ++ lineFields),
  ("Expr", "BinOp", [("left", .alt "Expr"), ("op", .alt "BinaryOp"), ("right", .alt "Expr")] ++ lineFields),
  ("Expr", "UnaryOp", [("op", .alt "UnaryOp"), ("operand", .alt "Expr")] ++ lineFields),
  ("Expr", "Lambda", [("args", .alt "Arguments"), ("body", .alt "Expr")] ++ lineFields),
  ("Expr", "IfExp", [("test", .alt "Expr"), ("body", .alt "Expr"), ("orelse", .alt "Expr")] ++ lineFields),
  ("Expr", "Dict", [("keys", .altOpts "Expr"), ("values", .alts "Expr")] ++ lineFields),
  ("Expr", "Set", [("elts", .alts "Expr")] ++ lineFields),
  ("Expr", "ListComp", [("elt", .alt "Expr"), ("generators", .alts "Comprehension")] ++ lineFields),
  ("Expr", "SetComp", [("elt", .alt "Expr"), ("generators", .alts "Comprehension")] ++ lineFields),
  ("Expr", "DictComp", [("key", .alt "Expr"), ("value", .alt "Expr"), ("generators", .alts "Comprehension")] ++ lineFields),
  ("Expr", "GeneratorExp", [("elt", .alt "Expr"), ("generators", .alts "Comprehension")] ++ lineFields),
  ("Expr", "Yield", [("value", .altOpt "Expr")] ++ lineFields),
  ("Expr", "Compare", [("left", .alt "Expr"), ("ops", .alts "ComparisonOp"), ("comparators", .alts "Expr")] ++ lineFields),
  ("Expr", "Call", [("func", .alt "Expr"), ("args", .alts "Expr"), ("keywords", .alts "Keyword")] ++ lineFields),
  ("Expr", "Num", [("n", .alt "NumericConstant")] ++ lineFields),
  ("Expr", "Str", [("s", .str)] ++ lineFields),
  ("Expr", "Attribute", [("value", .alt "Expr"), ("attr", .str), ("ctx", .alt "ExprContext")] ++ lineFields),
  ("Expr", "Subscript", [("value", .alt "Expr"), ("slice", .alt "Expr"), ("ctx", .alt "ExprContext")] ++ lineFields),
  ("Expr", "Name", [("id", .str), ("ctx", .alt "ExprContext")] ++ lineFields),
  ("Expr", "List", [("elts", .alts "Expr"), ("ctx", .alt "ExprContext")] ++ lineFields),
  ("Expr", "Tuple", [("elts", .alts "Expr"), ("ctx", .alt "ExprContext")] ++ lineFields),
  ("Expr", "Starred", [("value", .alt "Expr"), ("ctx", .alt "ExprContext")] ++ lineFields),
  ("Expr", "YieldFrom", [("value", .alt "Expr")] ++ lineFields),
  ("Expr", "Await", [("value", .alt "Expr")] ++ lineFields),
  ("Expr", "JoinedStr", [("values", .alts "Expr")] ++ lineFields),
  ("Expr", "Bytes", [("s", .bytes)] ++ lineFields),
  ("Expr", "Constant", [("value", .obj)] ++ (if 8 ≤ v.minor then [("kind", .strOpt)] else []) ++ lineFields),
  ("Expr", "FormattedValue", [("value", .alt "Expr"), ("conversion", .intOpt), ("format_spec", .altOpt "Expr")] ++ lineFields),
  ("Expr", "Slice", [("lower", .altOpt "Expr"), ("upper", .altOpt "Expr"), ("step", .altOpt "Expr")] ++ lineFields)]

/-- python_ast.py:687-758: constants, contexts and operators. -/
def opAlts (v : Version) : List (String × String × List (String × FT)) := [
  ("NumericConstant", "Int", [("value", .int)]),
  ("NumericConstant", "Long", [("value", .str)]),
  ("NumericConstant", "Boolean", [("value", .bool)]),
  ("NumericConstant", "None_", []),
  ("NumericConstant", "Float", [("value", .float)]),
  ("NumericConstant", "Complex", [("real", .float), ("imag", .float)]),
  ("NumericConstant", "Unknown", []),
  ("ExprContext", "Load", []),
  ("ExprContext", "Store", []),
  ("ExprContext", "Del", []),
  ("ExprContext", "AugLoad", []),
  ("ExprContext", "AugStore", []),
  ("ExprContext", "Param", []),
  ("BooleanOp", "And", []),
  ("BooleanOp", "Or", []),
  ("BinaryOp", "Add", []),
  ("BinaryOp", "Sub", []),
  ("BinaryOp", "Mult", []),
  ("BinaryOp", "Div", []),
  ("BinaryOp", "Mod", []),
  ("BinaryOp", "Pow", []),
  ("BinaryOp", "LShift", []),
  ("BinaryOp", "RShift", []),
  ("BinaryOp", "BitOr", []),
  ("BinaryOp", "BitXor", []),
  ("BinaryOp", "BitAnd", []),
  ("BinaryOp", "FloorDiv", []),
  ("BinaryOp", "MatMult", []),
  ("UnaryOp", "Invert", []),
  ("UnaryOp", "Not", []),
  ("UnaryOp", "UAdd", []),
  ("UnaryOp", "USub", []),
  ("ComparisonOp", "Eq", []),
  ("ComparisonOp", "NotEq", []),
  ("ComparisonOp", "Lt", []),
  ("ComparisonOp", "LtE", []),
  ("ComparisonOp", "Gt", []),
  ("ComparisonOp", "GtE", []),
  ("ComparisonOp", "Is", []),
  ("ComparisonOp", "IsNot", []),
  ("ComparisonOp", "In", []),
  ("ComparisonOp", "NotIn", [])]

/-- python_ast.py:760-844: all others. -/
def itemAlts (v : Version) : List (String × String × List (String × FT)) := [
  ("Comprehension", "Item", [("target", .alt "Expr"), ("iter", .alt "Expr"), ("ifs", .alts "Expr"), ("is_async", .bool)]),
  ("ExceptionHandler", "Item", [("type", .altOpt "Expr"), ("name", .strOpt), ("body", .alts "Statement")] ++ lineFields),
  ("Arguments", "Item", (if 8 ≤ v.minor then [("posonlyargs", .alts "Arg")] else []) ++ [("args", .alts "Arg"), ("vararg", .altOpt "Arg"), ("kwonlyargs", .alts "Arg"), ("kw_defaults", .altOpts "Expr"), ("kwarg", .altOpt "Arg"), ("defaults", .alts "Expr")]),
  ("Arg", "Item", [("arg", .str), ("annotation", .altOpt "Expr")] ++ lineFields),
  ("Keyword", "Item", [("arg", .strOpt), ("value", .alt "Expr")] ++ (if 9 ≤ v.minor then lineFields else [])),
  ("Alias", "Item", [("name", .str), ("asname", .strOpt)] ++ (if 10 ≤ v.minor then lineFields else [])),
  ("WithItem", "Item", [("context_expr", .alt "Expr"), ("optional_vars", .altOpt "Expr")])]

/-- All alternatives. -/
def alternatives (v : Version) : List (String × String × List (String × FT)) :=
  moduleAlts v ++ statementAlts v ++ exprAlts v ++ opAlts v ++ itemAlts v

/-- The members of an alternative. -/
def membersOf (v : Version) (t c : String) : Option (List (String × FT)) :=
  ((alternatives v).find? fun a => a.1 == t && a.2.1 == c).map (·.2.2)

/-- Is this an alternative of that type? -/
def Alg.isA (t : String) : Alg → Bool
  | .alt t' _ _ => t' == t
  | _ => false

/-- PyRegisterTypeInstance.hpp:587-604: an integer that does not fit in 64 bits loses its upper bits. -/
def wrap (n : Int) : Int := Int.bmod n (2 ^ 64)

/-- PyCompositeTypeInstance.cpp:379-385: a member converted to its type, as far as conversions are needed here. -/
def fits : FT → Alg → Option Alg
  | .alt t, a => if a.isA t then some a else .none
  | .altOpt t, a => match a with
    | .none => some .none
    | a => if a.isA t then some a else .none
  | .alts t, .tuple xs => if xs.all (·.isA t) then some (.tuple xs) else .none
  | .altOpts t, .tuple xs => if xs.all (fun a => match a with | .none => true | a => a.isA t) then some (.tuple xs) else .none
  | .altOrAlts t, a => match a with
    | .tuple xs => if xs.all (·.isA t) then some (.tuple xs) else .none
    | a => if a.isA t then some a else .none
  | .int, .int n => some (.int (wrap n))
  | .intOpt, .int n => some (.int (wrap n))
  | .intOpt, .none => some .none
  | .str, .str s => some (.str s)
  | .strOpt, .str s => some (.str s)
  | .strOpt, .none => some .none
  | .strs, .tuple xs => if xs.all (fun a => match a with | .str _ => true | _ => false) then some (.tuple xs) else .none
  | .strOrStrs, .str s => some (.str s)
  | .strOrStrs, .tuple xs => if xs.all (fun a => match a with | .str _ => true | _ => false) then some (.tuple xs) else .none
  | .bool, .int n => some (.int (if n = 0 then 0 else 1))
  | .float, .const (.float x) => some (.const (.float x))
  | .bytes, .const (.bytes s) => some (.const (.bytes s))
  | .obj, .const c => some (.const c)
  | _, _ => .none

/-- PyCompositeTypeInstance.cpp:399-406: a member that is not given, as far as that happens here. -/
def initial : FT → Option Alg
  | .int => some (.int 0)
  | .str => some (.str "")
  | .strOpt => some .none
  | .alt t => if t = "ExprContext" then some (.alt "ExprContext" "Load" []) else .none
  | _ => .none

/-- The members from keyword arguments. -/
def fill (args : List (String × Alg)) : List (String × FT) → Option (List (String × Alg))
  | [] => some []
  | (n, t) :: fs => match (match args.lookup n with | some a => fits t a | .none => initial t), fill args fs with
    | some a, some as => some ((n, a) :: as)
    | _, _ => .none

/-- PyAlternativeInstance.cpp:84-118, PyCompositeTypeInstance.cpp:350-409: an alternative made from keyword arguments. -/
def construct (v : Version) (t c : String) (args : List (String × Alg)) : Option Alg :=
  match membersOf v t c with
  | .none => .none
  | some fs => if args.all (fun a => fs.any fun f => f.1 == a.1) then (fill args fs).map (.alt t c) else .none

/-! ### From Python -/

/-- What makes a typed tree of a node: an alternative, or one of the functions of python_ast.py:855-886 and the lambda of 958. -/
inductive Maker
  | alt (t c : String)
  | num | str | nameConstant | ellipsis | extSlice | index
  deriving DecidableEq, Repr

/-- python_ast.py:890-997 `converters`, without the abstract class `excepthandler`; the last entry (996) is for a text, not a class. -/
def converters : List (String × Maker) := [
  ("Module", .alt "Module" "Module"), ("Expression", .alt "Module" "Expression"), ("Interactive", .alt "Module" "Interactive"),
  ("Suite", .alt "Module" "Suite"), ("FunctionDef", .alt "Statement" "FunctionDef"), ("ClassDef", .alt "Statement" "ClassDef"),
  ("Return", .alt "Statement" "Return"), ("Delete", .alt "Statement" "Delete"), ("Assign", .alt "Statement" "Assign"),
  ("AugAssign", .alt "Statement" "AugAssign"), ("AnnAssign", .alt "Statement" "AnnAssign"), ("For", .alt "Statement" "For"),
  ("While", .alt "Statement" "While"), ("If", .alt "Statement" "If"), ("With", .alt "Statement" "With"), ("Raise", .alt "Statement" "Raise"),
  ("Try", .alt "Statement" "Try"), ("Assert", .alt "Statement" "Assert"), ("Import", .alt "Statement" "Import"),
  ("ImportFrom", .alt "Statement" "ImportFrom"), ("Global", .alt "Statement" "Global"), ("Nonlocal", .alt "Statement" "NonLocal"),
  ("Expr", .alt "Statement" "Expr"), ("Pass", .alt "Statement" "Pass"), ("Break", .alt "Statement" "Break"),
  ("Continue", .alt "Statement" "Continue"), ("BoolOp", .alt "Expr" "BoolOp"), ("BinOp", .alt "Expr" "BinOp"), ("UnaryOp", .alt "Expr" "UnaryOp"),
  ("Lambda", .alt "Expr" "Lambda"), ("IfExp", .alt "Expr" "IfExp"), ("Dict", .alt "Expr" "Dict"), ("Set", .alt "Expr" "Set"),
  ("JoinedStr", .alt "Expr" "JoinedStr"), ("Bytes", .alt "Expr" "Bytes"), ("Constant", .alt "Expr" "Constant"),
  ("FormattedValue", .alt "Expr" "FormattedValue"), ("ListComp", .alt "Expr" "ListComp"), ("AsyncFunctionDef", .alt "Statement" "AsyncFunctionDef"),
  ("AsyncWith", .alt "Statement" "AsyncWith"), ("AsyncFor", .alt "Statement" "AsyncFor"), ("Await", .alt "Expr" "Await"),
  ("SetComp", .alt "Expr" "SetComp"), ("DictComp", .alt "Expr" "DictComp"), ("GeneratorExp", .alt "Expr" "GeneratorExp"),
  ("Yield", .alt "Expr" "Yield"), ("YieldFrom", .alt "Expr" "YieldFrom"), ("Compare", .alt "Expr" "Compare"), ("Call", .alt "Expr" "Call"),
  ("Num", .num), ("Str", .str), ("Attribute", .alt "Expr" "Attribute"), ("Subscript", .alt "Expr" "Subscript"), ("Name", .alt "Expr" "Name"),
  ("NameConstant", .nameConstant), ("List", .alt "Expr" "List"), ("Tuple", .alt "Expr" "Tuple"), ("Starred", .alt "Expr" "Starred"),
  ("Load", .alt "ExprContext" "Load"), ("Store", .alt "ExprContext" "Store"), ("Del", .alt "ExprContext" "Del"),
  ("AugLoad", .alt "ExprContext" "AugLoad"), ("AugStore", .alt "ExprContext" "AugStore"), ("Param", .alt "ExprContext" "Param"),
  ("Ellipsis", .ellipsis), ("Slice", .alt "Expr" "Slice"), ("ExtSlice", .extSlice), ("Index", .index), ("And", .alt "BooleanOp" "And"),
  ("Or", .alt "BooleanOp" "Or"), ("Add", .alt "BinaryOp" "Add"), ("Sub", .alt "BinaryOp" "Sub"), ("Mult", .alt "BinaryOp" "Mult"),
  ("MatMult", .alt "BinaryOp" "MatMult"), ("Div", .alt "BinaryOp" "Div"), ("Mod", .alt "BinaryOp" "Mod"), ("Pow", .alt "BinaryOp" "Pow"),
  ("LShift", .alt "BinaryOp" "LShift"), ("RShift", .alt "BinaryOp" "RShift"), ("BitOr", .alt "BinaryOp" "BitOr"),
  ("BitXor", .alt "BinaryOp" "BitXor"), ("BitAnd", .alt "BinaryOp" "BitAnd"), ("FloorDiv", .alt "BinaryOp" "FloorDiv"),
  ("Invert", .alt "UnaryOp" "Invert"), ("Not", .alt "UnaryOp" "Not"), ("UAdd", .alt "UnaryOp" "UAdd"), ("USub", .alt "UnaryOp" "USub"),
  ("Eq", .alt "ComparisonOp" "Eq"), ("NotEq", .alt "ComparisonOp" "NotEq"), ("Lt", .alt "ComparisonOp" "Lt"), ("LtE", .alt "ComparisonOp" "LtE"),
  ("Gt", .alt "ComparisonOp" "Gt"), ("GtE", .alt "ComparisonOp" "GtE"), ("Is", .alt "ComparisonOp" "Is"), ("IsNot", .alt "ComparisonOp" "IsNot"),
  ("In", .alt "ComparisonOp" "In"), ("NotIn", .alt "ComparisonOp" "NotIn"), ("comprehension", .alt "Comprehension" "Item"),
  ("ExceptHandler", .alt "ExceptionHandler" "Item"), ("arguments", .alt "Arguments" "Item"), ("arg", .alt "Arg" "Item"),
  ("keyword", .alt "Keyword" "Item"), ("alias", .alt "Alias" "Item"), ("withitem", .alt "WithItem" "Item")]

/-- python_ast.py:846-852 `numericConverters`, 855-864. -/
def numeric : Const → Alg
  | .int n => .alt "NumericConstant" "Int" [("value", .int (wrap n))]
  | .bool b => .alt "NumericConstant" "Boolean" [("value", .int (if b then 1 else 0))]
  | .none => .alt "NumericConstant" "None_" []
  | .float x => .alt "NumericConstant" "Float" [("value", .const (.float x))]
  | .complex re im => .alt "NumericConstant" "Complex" [("real", .const (.float re)), ("imag", .const (.float im))]
  | _ => .alt "NumericConstant" "Unknown" []

/-- The keyword arguments but one. -/
def without (n : String) (args : List (String × Alg)) : List (String × Alg) := args.filter fun a => a.1 != n

/-- `converter(**args)` (python_ast.py:1124, 1132). -/
def Maker.run (v : Version) (m : Maker) (args : List (String × Alg)) : Option Alg :=
  match m with
  | .alt t c => construct v t c args
  | .num => match args.lookup "n" with
    | some (.const c) => construct v "Expr" "Num" (("n", numeric c) :: without "n" args)
    | _ => .none
  | .str => match args.lookup "s" with
    | some (.const (.str s)) => (construct v "Expr" "Str" (("s", .str s) :: without "s" args)).or
        (construct v "Expr" "Num" (("n", .alt "NumericConstant" "Unknown" []) :: without "s" args))
    | _ => .none
  | .nameConstant => match args.lookup "value" with
    | some (.const c) => construct v "Expr" "Num" (("n", numeric c) :: without "value" args)
    | _ => .none
  | .ellipsis => if args.isEmpty then construct v "Expr" "Constant" [("value", .const .ellipsis)] else .none
  | .extSlice => match args with
    | [(n, a)] => if n = "dims" then construct v "Expr" "Tuple" [("elts", a)] else .none
    | _ => .none
  | .index => match args with
    | [(n, a)] => if n = "value" then some a else .none
    | _ => .none

/-- python_ast.py:1106-1116: the arguments for the place in the file. -/
def lineArgs (file : String) (keep : Bool) (pos : Option (Int × Int)) : List (String × Alg) :=
  if keep then match pos with
    | some (l, c) => [("line_number", .int l), ("col_offset", .int c), ("filename", .str file)]
    | .none => []
  else [("line_number", .int 0), ("col_offset", .int 0), ("filename", .str "")]

mutual
/-- python_ast.py:1092-1151 `convertPyAstToAlgebraic`. -/
def convert (v : Version) (file : String) (keep : Bool) : Py → Option Alg
  | .node c fs pos => match converters.lookup c with
    | .none => .none
    | some m => match convertFields v file keep fs with
      | .none => .none
      | some args => match m.run v (args ++ lineArgs file keep pos) with
        | some a => some a
        | .none => m.run v args
  | .list xs => (convertAll v file keep xs).map .tuple
  | .none => some .none
  | .int n => some (.int n)
  | .str s => some (.str s)
  | .const c => some (.const c)
termination_by structural p => p
/-- python_ast.py:1148-1149. -/
def convertAll (v : Version) (file : String) (keep : Bool) : List Py → Option (List Alg)
  | [] => some []
  | p :: ps => match convert v file keep p, convertAll v file keep ps with
    | some a, some as => some (a :: as)
    | _, _ => .none
termination_by structural ps => ps
/-- python_ast.py:1097-1103. -/
def convertFields (v : Version) (file : String) (keep : Bool) : List (String × Py) → Option (List (String × Alg))
  | [] => some []
  | (n, p) :: ps => if n = "type_comment" then convertFields v file keep ps else
    match convert v file keep p, convertFields v file keep ps with
    | some a, some as => some ((n, a) :: as)
    | _, _ => .none
termination_by structural ps => ps
end

/-! ### To Python -/

/-- python_ast.py:1000-1003 `reverseConverters`. -/
def reverse (t c : String) : Option String := (converters.find? fun e => e.2 == .alt t c).map (·.1)

/-- A member that is a number. -/
def number (fs : List (String × Alg)) (n : String) : Option Int := match fs.lookup n with
  | some (.int k) => some k
  | _ => .none

/-- A node made from keyword arguments (python_ast.py:1055-1087), with its place (1014-1016).  Attributes that are not in `_fields` are
dropped, since nothing looks at them; so is the place of a node of a class that has none. -/
def make (v : Version) (c : String) (args : List (String × Py)) (fs : List (String × Alg)) : Py :=
  match (grammar v).lookup c with
  | .none => .node c [] .none
  | some k => .node c (k.fields.map fun (n, _) => (n, (args.lookup n).getD .none))
      (if k.pos then match number fs "line_number", number fs "col_offset" with
        | some l, some o => some (l, o)
        | _, _ => .none
      else .none)

/-- python_ast.py:1055-1067: the node for a constant; since Python 3.8 `ast.Num` and the like make a `Constant`. -/
def constant (v : Version) (old field : String) (c : Const) (fs : List (String × Alg)) : Py :=
  if 8 ≤ v.minor then make v "Constant" [("value", .const c)] fs else make v old [(field, .const c)] fs

/-- python_ast.py:1058-1067. -/
def numBack (v : Version) (fs : List (String × Alg)) : Option Py := match fs.lookup "n" with
  | some (.alt _ c gs) =>
    if c = "Boolean" then match gs.lookup "value" with
      | some (.int n) => some (constant v "NameConstant" "value" (.bool (n != 0)) fs)
      | _ => .none
    else if c = "None_" then some (constant v "NameConstant" "value" .none fs)
    else if c = "Complex" then match gs.lookup "real", gs.lookup "imag" with
      | some (.const (.float x)), some (.const (.float y)) => some (constant v "Num" "n" (.complex x y) fs)
      | _, _ => .none
    else if c = "Unknown" then .none
    else match gs.lookup "value" with
      | some (.int n) => some (constant v "Num" "n" (.int n) fs)
      | some (.const x) => some (constant v "Num" "n" x fs)
      | _ => .none
  | _ => .none

/-- python_ast.py:1021-1042 `convertAlgebraicToSlice`, given what `convertAlgebraicToPyAst` makes of the tree: a `Slice` is the same with
its place left out, and the elements of a tuple become the parts of an `ExtSlice`. -/
def asSlice (v : Version) (a : Alg) (p : Py) : Py :=
  if 9 ≤ v.minor then p
  else match a with
    | .alt _ c _ => if c = "Slice" then p
      else if c = "Tuple" then match p with
        | .node _ fs _ => make v "ExtSlice" [("dims", (fs.lookup "elts").getD .none)] []
        | p => p
      else make v "Index" [("value", p)] []
    | _ => make v "Index" [("value", p)] []

mutual
/-- python_ast.py:1011-1018, 1045-1089 `convertAlgebraicToPyAst_`.  From Python 3.8 on no conversion gives `Bytes`, which this does not
rename. -/
def back (v : Version) : Alg → Option Py
  | .none => some .none
  | .int n => some (.int n)
  | .str s => some (.str s)
  | .const c => some (.const c)
  | .tuple xs => (backAll v xs).map .list
  | .alt t c fs =>
    if t = "Expr" ∧ c = "Str" then match fs.lookup "s" with
      | some (.str s) => some (constant v "Str" "s" (.str s) fs)
      | _ => .none
    else if t = "Expr" ∧ c = "Num" then numBack v fs
    else match reverse t c with
      | .none => .none
      | some k => match backFields v (t == "Expr" && c == "Subscript") fs with
        | .none => .none
        | some args => some (make v k args fs)
termination_by structural a => a
/-- python_ast.py:1053. -/
def backAll (v : Version) : List Alg → Option (List Py)
  | [] => some []
  | a :: as => match back v a, backAll v as with
    | some p, some ps => some (p :: ps)
    | _, _ => .none
termination_by structural as => as
/-- python_ast.py:1006-1008 `convertAlgebraicArgs`, and 1069-1079 for subscriptions; the place is not looked at by `make`. -/
def backFields (v : Version) (sub : Bool) : List (String × Alg) → Option (List (String × Py))
  | [] => some []
  | (n, a) :: as => match back v a, backFields v sub as with
    | some p, some ps => some ((n, if sub && n == "slice" then asSlice v a p else p) :: ps)
    | _, _ => .none
termination_by structural as => as
end

/-- python_ast.py:1194-1203: the tree without places, by which functions are told apart and sent when line numbers are not wanted. -/
def stripped (v : Version) (file : String) (p : Py) : Option Alg :=
  match convert v file true p with
  | .none => .none
  | some a => match back v a with
    | .none => .none
    | some q => convert v "" false q

end Verif.Ast
