import Verif.Ast.Spec
/-
The table of alternatives fits Python's grammar, class by class; each fact about the tables is checked over the whole table.
-/
namespace Verif.Ast

/-- The alternative for a sort of nodes. -/
def typeName : Sort_ → String
  | .mod => "Module"
  | .stmt => "Statement"
  | .expr => "Expr"
  | .slice => "Expr"
  | .exprContext => "ExprContext"
  | .boolop => "BooleanOp"
  | .operator => "BinaryOp"
  | .unaryop => "UnaryOp"
  | .cmpop => "ComparisonOp"
  | .comprehension => "Comprehension"
  | .excepthandler => "ExceptionHandler"
  | .arguments => "Arguments"
  | .arg => "Arg"
  | .keyword => "Keyword"
  | .alias => "Alias"
  | .withitem => "WithItem"
  | .typeIgnore => "TypeIgnore"

/-- A member of this type takes what the attribute holds. -/
def accepts (c n : String) : FT → Field → Bool
  | .alt t, .one s => t == typeName s
  | .altOpt t, .opt s => t == typeName s
  | .alts t, .many s => t == typeName s
  | .altOrAlts t, .many s => t == typeName s
  | .altOpts t, .manyOpt s => t == typeName s
  | .int, .int => true
  | .intOpt, .intOpt => true
  | .str, .ident => true
  | .strOpt, .identOpt => true
  | .strOpt, .stringOpt => true
  | .strs, .idents => true
  | .strOrStrs, .identOpt => c == "ImportFrom" && n == "module"
  | .bool, .flag => true
  | .bytes, .bytes => true
  | .obj, .const => true
  | _, _ => false

/-- The classes that are treated in their own way. -/
def special (c : String) : Bool := ["NamedExpr", "Num", "Str", "NameConstant", "Ellipsis", "Index", "ExtSlice"].contains c

/-- The names of the members for the place. -/
def isLine (n : String) : Bool := ["line_number", "col_offset", "filename"].contains n

/-- The attributes that are kept. -/
def kept (k : Class) : List (String × Field) := k.fields.filter fun f => f.1 != "type_comment"

/-- The alternative has members for the place. -/
def hasLine (ms : List (String × FT)) : Bool := ms.any fun m => m.1 == "line_number"

/-- The members for the place. -/
def lineOf (ms : List (String × FT)) : List (String × FT) := if hasLine ms then lineFields else []

/-- The members for the attributes. -/
def own (ms : List (String × FT)) : List (String × FT) := ms.take (ms.length - (lineOf ms).length)

/-- A class and its alternative fit. -/
def alignedWith (c : String) (k : Class) (ms : List (String × FT)) : Bool :=
  ms == own ms ++ lineOf ms && (!k.pos || hasLine ms) &&
  (own ms).all (fun m => match (kept k).lookup m.1 with | some f => accepts c m.1 m.2 f | .none => false) &&
  (kept k).all (fun f => ms.any fun m => m.1 == f.1) &&
  decide ((k.fields.map (·.1)).Nodup) && (kept k).all (fun f => !isLine f.1)

/-- The alternative of a class, and its fit. -/
def aligned (v : Version) (c : String) (k : Class) : Bool := match converters.lookup c with
  | some (.alt t d) => t == typeName k.sort && reverse t d == some c && !(t == "Expr" && d == "Str") && !(t == "Expr" && d == "Num") &&
    (d != "Tuple" || c == "Tuple") && (d != "Slice" || c == "Slice") && (!(t == "Expr" && d == "Subscript") || c == "Subscript") &&
    match membersOf v t d with
    | some ms => alignedWith c k ms
    | .none => false
  | _ => false

/-- All classes but the special ones fit, in every version. -/
theorem all_aligned (v : Version) : (grammar v).all (fun e => special e.1 || aligned v e.1 e.2) = true := by
  cases v <;> decide +kernel

theorem lookup_mem [BEq α] [LawfulBEq α] {n : α} {x : β} : ∀ {l : List (α × β)}, l.lookup n = some x → (n, x) ∈ l
  | [], h => by simp at h
  | (m, y) :: l, h => by
    rw [List.lookup_cons] at h
    split at h
    · rename_i e
      simp only [Option.some.injEq] at h
      subst h
      simp [eq_of_beq e]
    · exact List.mem_cons_of_mem _ (lookup_mem h)

theorem aligned_of {v : Version} {c : String} {k : Class} (h : (grammar v).lookup c = some k) (hs : special c = false) :
    aligned v c k = true := by
  have := List.all_eq_true.mp (all_aligned v) (c, k) (lookup_mem h)
  simpa [hs] using this

end Verif.Ast
