/-
The analysis of variables in typed_python/compiler/python_ast_analysis.py: which variables a piece
of code assigns, which it reads, and which are read by the functions, lambdas, comprehensions and
classes nested in it; and the renaming of variables in the body of a generator
(typed_python/compiler/generator_codegen.py).

Sets of names are lists here: only membership counts, except in `sites`, where a name occurs as
often as `computeVariablesAssignmentCounts` counts it.
-/
namespace Verif.Scope

abbrev Name := String

/-- `ExprContext` (python_ast.py:705-713). -/
inductive Ctx where
  | load | store | del | augLoad | augStore | param
  deriving DecidableEq, Repr

/-- The names in `Arguments` (python_ast.py:782-803). -/
structure Params where
  posonly : List Name := []
  args : List Name := []
  vararg : Option Name := none
  kwonly : List Name := []
  kwarg : Option Name := none
  deriving DecidableEq, Repr

mutual
/-- `python_ast` as far as names are concerned (python_ast.py:164-359, 478-685, 760-844).
Simplification: every statement or expression that the analyses merely walk through is a `node` of
its fields in their order, since `visitPyAstChildren` (python_ast_analysis.py:58-82) treats all of
them alike; constants, strings, operators and statements without parts are a `leaf`. -/
inductive Tree where
  | leaf
  | node (a b : Tree)
  | name (x : Name) (c : Ctx)
  /-- `x = value`: an `Assign` with one target which is a `Name`. -/
  | bind (x : Name) (value : Tree)
  /-- An attribute of the object holding the variables of a generator
  (`accessVar`, generator_codegen.py:76-87). -/
  | selfVar (x : Name) (c : Ctx)
  /-- A field whose type is not one of those `_changeInteriorObject` walks
  (generator_codegen.py:212-221): keyword arguments, keys of a dict display, handlers of a `try`,
  items of a `with`. -/
  | hidden (t : Tree)
  /-- An `Alias` of an import: the part of its name before the first dot, and its `as` name. -/
  | alias (top : Name) (asname : Option Name)
  /-- `except type as nm: body`. -/
  | handler (type : Tree) (nm : Option Name) (body : Tree)
  | lam (p : Params) (defaults kwDefaults body : Tree)
  /-- A list, set or dict comprehension or generator expression: what is collected (for a dict a
  `node` of key and value), the first `for` clause and the others. -/
  | comp (elt target iter ifs : Tree) (more : Gens)
  /-- `annPos`: the annotations of positional-only parameters, `annOther`: those of the others. -/
  | funDef (nm : Name) (p : Params) (annPos annOther defaults kwDefaults body decorators returns : Tree)
  | classDef (nm : Name) (bases keywords decorators body : Tree)
  | nonlocal (xs : List Name)
  /-- `global`, `async def`, `async with`, `async for`. -/
  | rejected
/-- The `for` clauses of a comprehension after the first. -/
inductive Gens where
  | nil
  | cons (target iter ifs : Tree) (more : Gens)
end

/-- `set.difference`. -/
def diff (a b : List Name) : List Name := a.filter fun x => !b.contains x

/-- `computeFunctionArgVariables` (python_ast_analysis.py:346-363). For the keyword-only
parameters the code adds the `Arg` objects and not their names (line 361), so that no name is
added. -/
def argNames (p : Params) : List Name :=
  p.args ++ p.vararg.toList ++ p.kwarg.toList

/-- The contexts `computeVariablesAssignmentCounts` counts (python_ast_analysis.py:123). -/
def counts : Ctx → Bool
  | .store => true
  | .del => true
  | .augStore => true
  | _ => false

/-- The contexts `computeReadVariables` looks for (python_ast_analysis.py:421). -/
def reading : Ctx → Bool
  | .load => true
  | .augLoad => true
  | _ => false

/-- `computeVariablesAssignmentCounts` (python_ast_analysis.py:103-158): every name as often as it
is counted. -/
def sites : Tree → List Name
  | .leaf => []
  | .node a b => sites a ++ sites b
  | .name x c => if counts c then [x] else []
  | .bind x v => x :: sites v
  | .selfVar _ _ => []
  | .hidden t => sites t
  | .alias top asname => [asname.getD top]
  | .handler ty _ body => sites ty ++ sites body
  | .lam _ _ _ _ => []
  | .comp _ _ _ _ _ => []
  | .funDef nm _ _ _ _ _ _ _ _ => [nm]
  | .classDef nm _ _ _ _ => [nm]
  | .nonlocal _ => []
  | .rejected => []

/-- `computeVariablesAssignedOnlyOnce` (python_ast_analysis.py:97-100). -/
def assignedOnce (t : Tree) (x : Name) : Bool := (sites t).count x == 1

/-- The targets of the clauses of a comprehension, as added to `masked`
(python_ast_analysis.py:446-448). -/
def masks : Gens → List Name
  | .nil => []
  | .cons t _ _ more => sites t ++ masks more

/-- The variable a generator's variables are attributes of (generator_codegen.py:66); the code
appends the line number of the generator. -/
def selfName : Name := "__typed_python_generator_self__"

mutual
/-- `computeReadVariables` (python_ast_analysis.py:402-504). -/
def reads (cls : Bool) : Tree → List Name
  | .leaf => []
  | .node a b => reads cls a ++ reads cls b
  | .name x c => if reading c then [x] else []
  | .bind _ v => reads cls v
  | .selfVar _ _ => [selfName]
  | .hidden t => reads cls t
  | .alias _ _ => []
  | .handler ty _ body => reads cls ty ++ reads cls body
  | .lam p d k body =>
      diff (reads false body) (sites body ++ argNames p) ++ (reads false k ++ reads false d)
  | .comp elt t i f more =>
      reads false i ++ diff (reads false f) (sites t)
        ++ readsGens (sites t) more
        ++ diff (reads false elt) (sites t ++ masks more)
  | .funDef nm p _ annOther d k body decorators returns =>
      diff (reads false body ++ reads false returns)
          (sites body ++ argNames p ++ (if cls then [] else [nm]))
        ++ reads false decorators ++ reads false d ++ reads false k ++ reads false annOther
  | .classDef _ bases keywords decorators body =>
      reads false bases ++ reads false keywords ++ reads false decorators ++ reads true body
  | .nonlocal _ => []
  | .rejected => []
/-- The loop over the clauses of a comprehension (python_ast_analysis.py:443-450) after the first
one, with the variables masked so far. -/
def readsGens (masked : List Name) : Gens → List Name
  | .nil => []
  | .cons t i f more =>
      diff (reads false i) masked ++ diff (reads false f) (masked ++ sites t)
        ++ readsGens (masked ++ sites t) more
end

/-- `computeVariablesReadByClosures` (python_ast_analysis.py:161-200). -/
def closureReads : Tree → List Name
  | .leaf => []
  | .node a b => closureReads a ++ closureReads b
  | .name _ _ => []
  | .bind _ v => closureReads v
  | .selfVar _ _ => []
  | .hidden t => closureReads t
  | .alias _ _ => []
  | .handler ty _ body => closureReads ty ++ closureReads body
  | .lam p d k body => reads false (.lam p d k body)
  | .comp elt t i f more => reads false (.comp elt t i f more)
  | .funDef nm p ap ao d k body decorators returns =>
      reads false (.funDef nm p ap ao d k body decorators returns)
  | .classDef _ bases keywords decorators body =>
      closureReads bases ++ closureReads keywords ++ closureReads decorators ++ reads true body
  | .nonlocal _ => []
  | .rejected => []

/-- Does `computeVariablesAssignmentCounts` raise? `assertValidStatement`
(python_ast_analysis.py:507-519) on the statements it visits. The test for `nonlocal` asks for an
alternative called `Nonlocal` (line 510) where python_ast.py:352 calls it `NonLocal`, so it is never
met. -/
def sitesRaises : Tree → Bool
  | .node a b => sitesRaises a || sitesRaises b
  | .bind _ v => sitesRaises v
  | .hidden t => sitesRaises t
  | .handler ty _ body => sitesRaises ty || sitesRaises body
  | .rejected => true
  | _ => false

mutual
/-- Does `computeReadVariables` raise? It visits the bodies of nested functions too. -/
def readsRaises : Tree → Bool
  | .node a b => readsRaises a || readsRaises b
  | .bind _ v => readsRaises v
  | .hidden t => readsRaises t
  | .handler ty _ body => readsRaises ty || readsRaises body
  | .lam _ d k body => readsRaises body || sitesRaises body || readsRaises d || readsRaises k
  | .comp elt t i f more =>
      readsRaises i || sitesRaises t || readsRaises f || gensRaise more || readsRaises elt
  | .funDef _ _ _ annOther d k body decorators returns =>
      readsRaises body || readsRaises returns || sitesRaises body || readsRaises decorators
        || readsRaises d || readsRaises k || readsRaises annOther
  | .classDef _ bases keywords decorators body =>
      readsRaises bases || readsRaises keywords || readsRaises decorators || readsRaises body
  | .rejected => true
  | _ => false
/-- The same for the further clauses of a comprehension. -/
def gensRaise : Gens → Bool
  | .nil => false
  | .cons t i f more => readsRaises i || sitesRaises t || readsRaises f || gensRaise more
end

/-! ### Functions defined once -/

/-- The pairs `extractFunctionDefs` collects under a name (python_ast_analysis.py:285-343):
`functionDefs`, by their name, and `assignedLambdas`. -/
def namedFunctions : Tree → List (Name × Tree)
  | .node a b => namedFunctions a ++ namedFunctions b
  | .bind x (.lam p d k body) => [(x, .lam p d k body)]
  | .bind _ v => namedFunctions v
  | .hidden t => namedFunctions t
  | .handler ty _ body => namedFunctions ty ++ namedFunctions body
  | .funDef nm p ap ao d k body decorators returns =>
      [(nm, .funDef nm p ap ao d k body decorators returns)]
  | _ => []

/-- `functionDefsAssignedOnce` (function_conversion_context.py:1143-1150). -/
def definedOnce (t : Tree) : List (Name × Tree) :=
  (namedFunctions t).filter fun d => assignedOnce t d.1

/-! ### Renaming in generators -/

mutual
/-- `_changeInteriorObject` (generator_codegen.py:115-223) for a generator whose variables are
`V`, with `varsToNotRebind` = `B`. -/
def rename (V : List Name) (B : List Name) : Tree → Tree
  | .leaf => .leaf
  | .node a b => .node (rename V B a) (rename V B b)
  | .name x c => if V.contains x && !B.contains x then .selfVar x c else .name x c
  | .bind x v =>
      if V.contains x && !B.contains x then .node (.selfVar x .store) (rename V B v)
      else .bind x (rename V B v)
  | .selfVar x c => .selfVar x c
  | .hidden t => .hidden t
  | .alias top asname => .alias top asname
  | .handler ty nm body => .handler ty nm body
  | .lam p d k body => .lam p (rename V B d) k (rename V (B ++ argNames p) body)
  | .comp elt t i f more =>
      .comp (rename V (B ++ (reads false t ++ boundVars more)) elt) t (rename V B i)
        (rename V (B ++ reads false t) f) (renameGens V (B ++ reads false t) more)
  | .funDef nm p ap ao d k body decorators returns =>
      .funDef nm p (rename V [] ap) (rename V [] ao) (rename V [] d) k
        (rename V (B ++ argNames p ++ sites body) body) (rename V [] decorators) (rename V [] returns)
  | .classDef nm bases keywords decorators body =>
      .classDef nm (rename V B bases) keywords (rename V B decorators) (rename V B body)
  | .nonlocal xs => .nonlocal xs
  | .rejected => .rejected
/-- The loop over the clauses (generator_codegen.py:139-154) after the first one. -/
def renameGens (V : List Name) (B : List Name) : Gens → Gens
  | .nil => .nil
  | .cons t i f more =>
      .cons t (rename V B i) (rename V (B ++ reads false t) f) (renameGens V (B ++ reads false t) more)
/-- `boundVars` after that loop: what `computeReadVariables` finds in the targets (line 140). -/
def boundVars : Gens → List Name
  | .nil => []
  | .cons t _ _ more => reads false t ++ boundVars more
end

end Verif.Scope
