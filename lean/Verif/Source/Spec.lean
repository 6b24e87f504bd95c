import Verif.Source.Model
/-
Python's own compiler: which code objects it makes for the functions inside a function, and in which order.  None of this is from /repo; it
is what C116 is stated against.
-/
namespace Verif.Source
open Verif.Ast (Alg)

/-- The keys and values of a dictionary display, in turn. -/
def interleave : List (List Alg) → List (List Alg) → List (List Alg)
  | k :: ks, v :: vs => k :: v :: interleave ks vs
  | ks, [] => ks
  | [], vs => vs

/-- What Python compiles where `a` stands, given what it compiles for each part of each attribute of `a`, in the order in which it does so
(the order of evaluation): the value of an assignment before its targets; the iterable of a loop before its target; the keys and values of a
dictionary in turn; decorators, default values and annotations before a function; a class before its bases; a comprehension before the first
of its iterables, and nothing else of it; all else in the order it is written. -/
def arrange (a : Alg) (t c : String) (rs : List (String × List (List Alg))) : List Alg :=
  let get n := ((rs.lookup n).getD []).flatten
  if t = "Statement" ∧ (c = "FunctionDef" ∨ c = "AsyncFunctionDef") then get "decorator_list" ++ get "args" ++ get "returns" ++ [a]
  else if t = "Statement" ∧ c = "ClassDef" then get "decorator_list" ++ [a] ++ get "bases" ++ get "keywords"
  else if t = "Expr" ∧ c = "Lambda" then get "args" ++ [a]
  else if t = "Expr" ∧ (c = "ListComp" ∨ c = "SetComp" ∨ c = "DictComp" ∨ c = "GeneratorExp") then a :: ((rs.lookup "generators").getD []).headD []
  else if t = "Comprehension" then get "iter"
  else if t = "Arguments" then get "defaults" ++ get "kw_defaults" ++ get "posonlyargs" ++ get "args" ++ get "vararg" ++ get "kwonlyargs" ++ get "kwarg"
  else if t = "Statement" ∧ c = "Assign" then get "value" ++ get "targets"
  else if t = "Statement" ∧ c = "AnnAssign" then get "value" ++ get "target"
  else if t = "Statement" ∧ (c = "For" ∨ c = "AsyncFor") then get "iter" ++ get "target" ++ get "body" ++ get "orelse"
  else if t = "Expr" ∧ c = "Dict" then (interleave ((rs.lookup "keys").getD []) ((rs.lookup "values").getD [])).flatten
  else (rs.map fun r => r.2.flatten).flatten

mutual
/-- What Python compiles where a node stands. -/
def codes : Alg → List Alg
  | .alt t c ms => arrange (.alt t c ms) t c (codesFields ms)
  | .tuple xs => (codesAll xs).flatten
  | _ => []
termination_by structural a => a
/-- For each of a list. -/
def codesAll : List Alg → List (List Alg)
  | [] => []
  | x :: xs => codes x :: codesAll xs
termination_by structural xs => xs
/-- For each attribute, part by part. -/
def codesFields : List (String × Alg) → List (String × List (List Alg))
  | [] => []
  | (n, .tuple xs) :: ms => (n, codesAll xs) :: codesFields ms
  | (n, x) :: ms => (n, [codes x]) :: codesFields ms
termination_by structural ms => ms
end

/-- What Python compiles for one `for ... in ... if ...` inside the code of a comprehension; the first iterable is an argument. -/
def genCodes (first : Bool) : Alg → List Alg
  | .alt _ _ gs => (if first then [] else codes (member gs "iter")) ++ codes (member gs "target") ++ codes (member gs "ifs")
  | _ => []

/-- All of them. -/
def gensCodes : Alg → List Alg
  | .tuple [] => []
  | .tuple (g :: gs) => genCodes true g ++ (gs.map (genCodes false)).flatten
  | _ => []

/-- What Python compiles inside the code object of `a`: the body of a function, lambda or class; in a comprehension first its loops and
conditions, then the element (or the key and then the value, since Python 3.8). -/
def inner : Alg → List Alg
  | .alt t c ms =>
    if hasBody t c then codes (member ms "body")
    else if c = "DictComp" then gensCodes (member ms "generators") ++ codes (member ms "key") ++ codes (member ms "value")
    else gensCodes (member ms "generators") ++ codes (member ms "elt")
  | _ => []

/-- The first occurrences. -/
def firsts [DecidableEq κ] : List κ → List κ → List κ
  | _, [] => []
  | seen, x :: xs => if x ∈ seen then firsts seen xs else x :: firsts (seen ++ [x]) xs

/-- Python's compiler.  `made a` is the code object made of `a`, and `consts` gives the code objects among its constants: those of `inner`,
in that order, equal ones once, for all programs that are `regular` (those where all conditions of `if` and `while` have to be computed, all
statements can be reached, and no annotation or clean-up is compiled elsewhere or more than once).  A code object is not among the constants
of itself, nor of those among its constants. -/
structure Python (κ : Type) [DecidableEq κ] where
  made : Alg → κ
  consts : κ → List κ
  regular : Alg → Prop
  law : ∀ a, scope a = true → regular a → consts (made a) = firsts [] ((inner a).map made)
  deep : κ → Nat
  deeper : ∀ c d, d ∈ consts c → deep d < deep c

/-- The functions inside a function, at any depth, and itself. -/
inductive Nested : Alg → Alg → Prop
  | self (a) : Nested a a
  | step {a b c} : b ∈ inner a → Nested b c → Nested a c

/-- What is kept for a code object is a source of that very code object. -/
def Right [DecidableEq κ] (py : Python κ) (m : Memo κ) : Prop := ∀ c a, m c = some a → ∃ s, py.made s = c ∧ a = presented s

/-- Where something is kept for a code object, something is kept for those inside it. -/
def Closed [DecidableEq κ] (py : Python κ) (m : Memo κ) : Prop := ∀ c, m c ≠ .none → ∀ d ∈ py.consts c, m d ≠ .none

/-! ### The programs for which it is claimed -/

mutual
/-- There is no function in it. -/
def quiet : Alg → Bool
  | .alt t c ms => !scope (.alt t c ms) && quietFields ms
  | .tuple xs => quietAll xs
  | _ => true
termination_by structural a => a
/-- Nor in any of a list. -/
def quietAll : List Alg → Bool
  | [] => true
  | x :: xs => quiet x && quietAll xs
termination_by structural xs => xs
/-- Nor in any attribute. -/
def quietFields : List (String × Alg) → Bool
  | [] => true
  | (_, x) :: xs => quiet x && quietFields xs
termination_by structural xs => xs
end

/-- The attributes of that name have no function in them. -/
def quietIn (ms : List (String × Alg)) (ns : List String) : Bool := ms.all fun m => !ns.contains m.1 || quiet m.2

/-- Is it a loop of a comprehension without a function in its target, and if it is the first without one in its iterable? -/
def plainGen (first : Bool) : Alg → Bool
  | .alt t c [(n1, a), (n2, b), (n3, .tuple _), (n4, .const _)] => t == "Comprehension" && c == "Item" && n1 == "target" && n2 == "iter" && n3 == "ifs" && n4 == "is_async" &&
    quiet a && (!first || quiet b)
  | _ => false

/-- The loops of a comprehension. -/
def plainGens : Alg → Bool
  | .tuple (g :: gs) => plainGen true g && gs.all (plainGen false)
  | _ => false

/-- What is asked of a node: an assignment has no function in its targets, or none in its value; a loop none in its target, or none in its
iterable; a dictionary display none in its keys, or none in its values; the default values, decorators and annotations of a function, the
bases and decorators of a class and the first iterable of a comprehension have none; a comprehension has none in its element, or none in its
conditions and further iterables; an assignment has none in an annotation; a `try` has none in `finally`, and not both in its handlers and
after `else`. -/
def plainNode (t c : String) (ms : List (String × Alg)) : Bool :=
  if t = "Statement" ∧ (c = "FunctionDef" ∨ c = "AsyncFunctionDef") then quietIn ms ["decorator_list", "args", "returns"]
  else if t = "Statement" ∧ c = "ClassDef" then quietIn ms ["decorator_list", "bases", "keywords"]
  else if t = "Expr" ∧ c = "Lambda" then quietIn ms ["args"]
  else if t = "Expr" ∧ (c = "ListComp" ∨ c = "SetComp" ∨ c = "GeneratorExp") then
    plainGens (member ms "generators") && (quiet (member ms "elt") || quiet (member ms "generators"))
  else if t = "Expr" ∧ c = "DictComp" then
    plainGens (member ms "generators") && ((quiet (member ms "key") && quiet (member ms "value")) || quiet (member ms "generators")) && (quiet (member ms "key") || quiet (member ms "value"))
  else if t = "Statement" ∧ c = "Assign" then match ms with
    | [(n1, a), (n2, b), (_, .int _), (_, .int _), (_, .str _)] => n1 == "targets" && n2 == "value" && (quiet a || quiet b)
    | _ => false
  else if t = "Statement" ∧ c = "AnnAssign" then match ms with
    | [(n1, a), (n2, b), (n3, .int _), (n4, d), (_, .int _), (_, .int _), (_, .str _)] => n1 == "target" && n2 == "annotation" && n3 == "simple" && n4 == "value" && quiet b && (quiet a || quiet d)
    | _ => false
  else if t = "Statement" ∧ (c = "For" ∨ c = "AsyncFor") then match ms with
    | [(n1, a), (n2, b), (n3, _), (n4, _), (_, .int _), (_, .int _), (_, .str _)] => n1 == "target" && n2 == "iter" && n3 == "body" && n4 == "orelse" && (quiet a || quiet b)
    | _ => false
  else if t = "Expr" ∧ c = "Dict" then match ms with
    | [(n1, .tuple ks), (n2, .tuple vs), (_, .int _), (_, .int _), (_, .str _)] => n1 == "keys" && n2 == "values" && (quietAll ks || quietAll vs)
    | _ => false
  else if t = "Statement" ∧ c = "Try" then (quiet (member ms "handlers") || quiet (member ms "orelse")) && quiet (member ms "finalbody")
  else if c = "Constant" ∨ t = "Arguments" then quietFields ms
  else true

/-- It is not a loop of a comprehension, nor a list of such. -/
def bare : Alg → Bool
  | .alt t _ _ => t != "Comprehension"
  | .tuple xs => xs.all fun x => match x with
    | .alt t _ _ => t != "Comprehension"
    | .tuple _ => false
    | _ => true
  | _ => true

/-- Is it a comprehension? -/
def comp (t c : String) : Bool := t == "Expr" && (c == "ListComp" || c == "SetComp" || c == "DictComp" || c == "GeneratorExp")

/-- The loops of comprehensions stand only in comprehensions. -/
def placed (t c : String) (ms : List (String × Alg)) : Bool := ms.all fun m => bare m.2 || (comp t c && m.1 == "generators")

mutual
/-- Every node is as `plainNode` and `placed` ask. -/
def plain : Alg → Bool
  | .alt t c ms => plainNode t c ms && placed t c ms && plainFields ms
  | .tuple xs => plainAll xs
  | _ => true
termination_by structural a => a
/-- In a list. -/
def plainAll : List Alg → Bool
  | [] => true
  | x :: xs => plain x && plainAll xs
termination_by structural xs => xs
/-- In all attributes. -/
def plainFields : List (String × Alg) → Bool
  | [] => true
  | (_, x) :: xs => plain x && plainFields xs
termination_by structural xs => xs
end

end Verif.Source
