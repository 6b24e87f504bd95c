import Verif.Ast.Model
/-
python_ast.py:1323-1402, compiler/python_ast_analysis.py:58-82, 230-254 and compiler/python_ast_util.py:68-212: finding the source of a
function, and of the functions inside it.
-/
namespace Verif.Source
open Verif.Ast (Alg)

/-! ### The functions inside a function -/

/-- python_ast_analysis.py:234-248: what Python compiles to a code object of its own. -/
def scope : Alg → Bool
  | .alt t c _ => (t == "Statement" && (c == "FunctionDef" || c == "ClassDef" || c == "AsyncFunctionDef")) ||
    (t == "Expr" && (c == "Lambda" || c == "ListComp" || c == "SetComp" || c == "DictComp" || c == "GeneratorExp"))
  | _ => false

mutual
/-- python_ast_analysis.py:230-254 `extractFunctionDefsInOrder`, with 58-82 `visitPyAstChildren`: every child in the order of the members, but
nothing inside what has been found. -/
def extract : Alg → List Alg
  | .alt t c ms => if scope (.alt t c ms) then [.alt t c ms] else if c = "Constant" then [] else extractFields ms
  | .tuple xs => extractAll xs
  | _ => []
termination_by structural a => a
/-- python_ast_analysis.py:81-82. -/
def extractAll : List Alg → List Alg
  | [] => []
  | x :: xs => extract x ++ extractAll xs
termination_by structural xs => xs
/-- python_ast_analysis.py:78-79. -/
def extractFields : List (String × Alg) → List Alg
  | [] => []
  | (_, x) :: xs => extract x ++ extractFields xs
termination_by structural xs => xs
end

/-- An attribute. -/
def member (ms : List (String × Alg)) (n : String) : Alg := (ms.lookup n).getD .none

/-- Does the code of this node run its `body`? -/
def hasBody (t c : String) : Bool :=
  (t == "Statement" && (c == "FunctionDef" || c == "ClassDef" || c == "AsyncFunctionDef")) || (t == "Expr" && c == "Lambda")

/-- python_ast.py:1375-1388: the functions inside, in the order they are matched with the code's constants. -/
def inside : Alg → List Alg
  | .alt t c ms =>
    if hasBody t c then extract (member ms "body")
    else if c = "DictComp" then extract (member ms "key") ++ extract (member ms "value") ++ extract (member ms "generators")
    else if c = "ListComp" ∨ c = "SetComp" ∨ c = "GeneratorExp" then extract (member ms "elt") ++ extract (member ms "generators")
    else extract (member ms "generators")
  | _ => []

/-- Another value for an attribute. -/
def setMember (ms : List (String × Alg)) (n : String) (a : Alg) : List (String × Alg) := ms.map fun m => if m.1 = n then (n, a) else m

/-- python_ast.py:1154-1175 `stripDecoratorFromFuncDef`. -/
def stripDecorators : Alg → Alg
  | .alt t c ms => if t = "Statement" ∧ c = "FunctionDef" then .alt t c (setMember ms "decorator_list" (.tuple [])) else .alt t c ms
  | a => a

/-- python_ast.py:1339 `Name`: the variable `.0`, with what an alternative gets for the members that are not given. -/
def dotZero : Alg := .alt "Expr" "Name" [("id", .str ".0"), ("ctx", .alt "ExprContext" "Load" []), ("line_number", .int 0), ("col_offset", .int 0), ("filename", .str "")]

/-- python_ast.py:1323-1362 `replaceFirstComprehensionArg`. -/
def replaceFirst : Alg → Alg
  | .alt t c ms => if t = "Expr" ∧ (c = "ListComp" ∨ c = "SetComp" ∨ c = "GeneratorExp" ∨ c = "DictComp") then
      match member ms "generators" with
      | .tuple (.alt t' c' gs :: rest) => .alt t c (setMember ms "generators" (.tuple (.alt t' c' (setMember gs "iter" dotZero) :: rest)))
      | _ => .alt t c ms
    else .alt t c ms
  | a => a

/-- python_ast.py:1390-1392: the tree that is kept for a code object. -/
def presented (a : Alg) : Alg := replaceFirst (stripDecorators a)

/-- python_ast.py:1179 `_codeToAlgebraicAst`. -/
def Memo (κ : Type) := κ → Option Alg

/-- `_codeToAlgebraicAst[code] = a`. -/
def Memo.set [DecidableEq κ] (m : Memo κ) (c : κ) (a : Alg) : Memo κ := fun d => if d = c then some a else m d

mutual
/-- python_ast.py:1365-1402 `cacheAstForCode`: the memo afterwards, and whether no assertion failed.  `consts` gives the code objects among
the constants of a code object (1373); the depth of calls is bounded by `fuel`. -/
def cacheAst [DecidableEq κ] (consts : κ → List κ) : Nat → Memo κ → κ → Alg → Memo κ × Bool
  | 0, m, _, _ => (m, false)
  | fuel + 1, m, code, a =>
    if (m code).isSome then (m, true)
    else if (inside a).length = (consts code).length then cacheAll consts fuel (m.set code (presented a)) ((consts code).zip (inside a))
    else (m.set code (presented a), false)
/-- python_ast.py:1401-1402. -/
def cacheAll [DecidableEq κ] (consts : κ → List κ) : Nat → Memo κ → List (κ × Alg) → Memo κ × Bool
  | 0, m, xs => (m, xs.isEmpty)
  | _ + 1, m, [] => (m, true)
  | fuel + 1, m, (c, a) :: xs => match cacheAst consts fuel m c a with
    | (m', true) => cacheAll consts fuel m' xs
    | (m', false) => (m', false)
end

/-! ### The functions on a line -/

/-- What python_ast_util.py looks at in a code object: `co_code`, `co_freevars`, `co_varnames`, `co_cellvars`, `co_names` and `co_consts`
without None. -/
structure Code (γ : Type) where
  code : List Nat
  freevars : List String
  varnames : List String
  cellvars : List String
  names : List String
  consts : List γ
  deriving DecidableEq, Repr

/-- Insertion into a sorted list. -/
def insertBy (le : α → α → Bool) (x : α) : List α → List α
  | [] => [x]
  | y :: ys => if le x y then x :: y :: ys else y :: insertBy le x ys

/-- `sorted`. -/
def sortBy (le : α → α → Bool) : List α → List α
  | [] => []
  | x :: xs => insertBy le x (sortBy le xs)

/-- Order of texts. -/
def leText (a b : String) : Bool := decide (a ≤ b)

/-- python_ast_util.py:165-171 `namesInCodeObject`. -/
def namesIn (c : Code γ) : List String := sortBy leText (c.freevars ++ c.varnames ++ c.cellvars ++ c.names)

/-- python_ast_util.py:118-123 `codeKey`; `le` is the order of the constants, by the names of their types first (115-116). -/
def codeKey (le : γ → γ → Bool) (c : Code γ) : List Nat × List String × List γ := (c.code, namesIn c, sortBy le c.consts)

/-- python_ast_util.py:155-162 `isPossibleAstFor`. -/
def isPossible [DecidableEq γ] (candidate c : Code γ) : Bool :=
  candidate.consts.all (c.consts.contains ·) && c.consts.all (candidate.consts.contains ·) && namesIn candidate == namesIn c

/-- python_ast_util.py:127-138 `uniqueCodeIxs`: the candidates that are possible and whose key no earlier one has. -/
def possible [DecidableEq γ] (le : γ → γ → Bool) (c : Code γ) : List (List Nat × List String × List γ) → List (β × Code γ) → List β
  | _, [] => []
  | seen, (d, x) :: ds =>
    (if isPossible x c && !seen.contains (codeKey le x) then [d] else []) ++ possible le c (seen ++ [codeKey le x]) ds

/-- A function on the line: whether it is a lambda, the node, and the first constant of an expression that has only this lambda, where that
is a code object. -/
structure Def (β γ : Type) where
  lambda : Bool
  node : β
  first : Option (Code γ)

/-- python_ast_util.py:113: all the codes, or none when one is not a code object (an AttributeError comes then at 120). -/
def allCodes : List (Def β γ) → Option (List (β × Code γ))
  | [] => some []
  | d :: ds => match d.first, allCodes ds with
    | some c, some cs => some ((d.node, c) :: cs)
    | _, _ => .none

/-- python_ast_util.py:106-152: several lambdas. -/
def pick [DecidableEq γ] (le : γ → γ → Bool) (c : Code γ) (ds : List (Def β γ)) : Option β :=
  if ds.all (·.lambda) then match allCodes ds with
    | some cs => match possible le c [] cs with
      | [d] => some d
      | _ => .none
    | .none => .none
  else .none

/-- python_ast_util.py:68-152 `pyAstForCode`, given the functions on the first line of the code: none for an exception. -/
def astFor [DecidableEq γ] (le : γ → γ → Bool) (lambda : Bool) (c : Code γ) (ds : List (Def β γ)) : Option β :=
  match ds with
  | [] => .none
  | [d] => some d.node
  | _ => match ds.filter (·.lambda == lambda) with
    | [d] => some d.node
    | ds' => pick le c ds'

end Verif.Source
