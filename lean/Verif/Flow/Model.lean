import Verif.Flow.Types
/-
The conversion of statements to native code: a model of `FunctionConversionContext` in
/repo/typed_python/compiler/function_conversion_context.py, and of what the generated code does.

Modelled: assignment to a local variable, expression statements, `return`, `raise`, `assert`,
`if`, `while`, `break`, `continue` and `try` with handlers, `else` and `finally`; the state of the
variables that is threaded through the conversion; the repeated conversion of a loop until the
state is stable; the code that is dropped as unreachable; the flag and the control flow slots that
`try` uses. Simplified: an expression is the list of the local variables it reads (in order), the
function giving its type from theirs, and an evaluation that may raise and may depend on the rest
of the program (an oracle); variables that live in closures, `for` loops and `with` are not
modelled; the value of a `return` is not converted to the type of the function.
-/
namespace Verif.Flow

variable {n : Nat}

/-- An expression: expression_conversion_context.py `convert_expression_ast` seen from outside. `ty`
is the type of the result given the types of the variables read, `none` when the conversion returns
`None`, i.e. when the expression can only raise. -/
structure Expr (n : Nat) where
  reads : List (Fin n)
  ty : List Ty → Option Ty
  eval : List Val → Nat → Except Val Val

/-- A condition. `fold` is the truth value when the converted condition is a constant
(function_conversion_context.py:1574-1575, 1627-1628, 2128, 2133). -/
inductive Test (n : Nat) where
  /-- `isinstance(x, T)` -/
  | isinst (x : Fin n) (T : Atom) (fold : Ty → Option Bool)
  /-- `x is None`, and `x is not None` when `neg` -/
  | isNone (x : Fin n) (neg : Bool) (fold : Ty → Option Bool)
  /-- any other condition; `ok` is false when the conversion returns `None` -/
  | cond (reads : List (Fin n)) (ok : List Ty → Bool) (fold : List Ty → Option Bool)
      (eval : List Val → Nat → Except Val Bool)

mutual
/-- Python statements. -/
inductive Stmt (n : Nat) where
  | pass
  | seq (a b : Stmt n)
  | assign (x : Fin n) (e : Expr n)
  | expr (e : Expr n)
  | ret (e : Expr n)
  | raiseE (e : Expr n)
  /-- `raise` without an exception -/
  | reraise
  | assertS (t : Test n)
  | ifS (t : Test n) (a b : Stmt n)
  | whileS (t : Test n) (a b : Stmt n)
  | brk
  | cont
  | tryS (body : Stmt n) (hs : Handlers n) (orelse final : Stmt n)
/-- The `except` clauses of a `try`: the class caught, the name bound, the body. -/
inductive Handlers (n : Nat) where
  | nil
  | cons (c : Nat) (name : Option (Fin n)) (body : Stmt n) (rest : Handlers n)
end

/-! ### Native code -/

/-- Where a `Return(blockName=...)` can go: `loop_break`, `loop_continue`, `end_of_try`,
`end_of_finally` (function_conversion_context.py:1680-1681, 2083, 2101). The markers of a `try`
carry its line and column; the model numbers a `try` by its nesting depth, which distinguishes the
ones that are active at the same time. -/
inductive Label where
  | brk
  | cont
  | endTry (d : Nat)
  | endFin (d : Nat)
  deriving DecidableEq, Repr

/-- function_conversion_context.py:1678: the control flow that is deferred to the end of a `try` -/
inductive Deferred where
  | default | exception | brk | cont | ret
  deriving DecidableEq, Repr

/-- A read of a local variable in the generated code (expression_conversion_context.py:1435-1461):
`checked` when code is emitted to test that the variable is initialised, and the type the slot is
read as. -/
structure Read (n : Nat) where
  x : Fin n
  checked : Bool
  ty : Ty

/-- The generated code. -/
inductive Code (n : Nat) where
  | skip
  | seq (a b : Code n)
  /-- evaluate; `live` is false when the conversion found that it can only raise -/
  | eval (e : Expr n) (rs : List (Read n)) (live : Bool)
  /-- evaluate and store; `over` when the old content of the slot is known to be initialised -/
  | store (x : Fin n) (e : Expr n) (rs : List (Read n)) (live : Bool) (over pod : Bool)
  | ret (e : Expr n) (rs : List (Read n)) (live : Bool)
  /-- store into `.return_value` -/
  | saveRet (e : Expr n) (rs : List (Read n)) (live : Bool)
  /-- return `.return_value` -/
  | retSaved
  | returnNone
  | raiseE (e : Expr n) (rs : List (Read n))
  /-- raise the exception in `sys.exc_info()`; `clear` as in `pushExceptionObject` -/
  | reraise (clear : Bool)
  | assertC (t : Test n) (rs : List (Read n))
  | branch (t : Test n) (rs : List (Read n)) (a b : Code n)
  | loop (t : Test n) (rs : List (Read n)) (a b : Code n)
  | jump (l : Label)
  | block (l : Label) (c : Code n)
  /-- the slot `.exc_occurred`, of which there is one in a function -/
  | setExc (b : Bool)
  | ifExc (a b : Code n)
  | setFlow (d : Nat) (k : Deferred)
  | ifFlow (d : Nat) (k : Deferred) (a : Code n)
  | tryCatch (c h : Code n)
  | catchExc
  | clearInfo
  | matchExc (c : Nat) (a b : Code n)
  | storeExc (x : Fin n) (over pod : Bool)
  /-- run `c`, then destroy `x` whatever happened -/
  | cleanup (c : Code n) (x : Fin n) (pod : Bool)
  | unreachable

/-! ### Conversion -/

/-- Types whose values need no destructor. -/
def isPod (t : Ty) : Bool :=
  t.all (fun a => match a with
    | .int | .float | .bool | .none | .const _ => true | _ => false)

/-- The type given to each variable's slot (function_conversion_context.py:186
`_varname_to_type`). -/
abbrev Slots (n : Nat) := Fin n → Option Ty

/-- expression_conversion_context.py:1411-1433 `recastVariableAsRestrictedType`: the type a slot of
type `slot` is read as, when the state gives the variable type `cur`. -/
def recast (H : Hier) (slot : Ty) (cur : Option Ty) : Ty :=
  match cur with
  | none => slot
  | some t =>
    if t = slot then slot
    else if slot.length ≠ 1 then t
    else match slot, t with
      | [.cls c], [.cls d] => if H.sub d c then t else slot
      | _, _ => slot

/-- Can the state change how a slot of this type is read? -/
def narrowable (slot : Option Ty) : Bool :=
  match slot with
  | none => false
  | some [.cls _] => true
  | some s => s.length != 1

/-- expression_conversion_context.py:1435-1461 `namedVariableLookup` for a local variable -/
def readOf (H : Hier) (σ : Slots n) (A : VS n) (x : Fin n) : Read n × Option Ty :=
  match σ x with
  | none => (⟨x, !A.defInit x, []⟩, none)
  | some s => (⟨x, !A.defInit x, recast H s (A.current x)⟩, some (recast H s (A.current x)))

/-- the reads of an expression, and the types of the variables unless one was never assigned -/
def readsOf (H : Hier) (σ : Slots n) (A : VS n) : List (Fin n) → List (Read n) × Option (List Ty)
  | [] => ([], some [])
  | x :: xs =>
    let r := readOf H σ A x
    let rs := readsOf H σ A xs
    (r.1 :: rs.1,
     match r.2, rs.2 with
     | some t, some ts => some (t :: ts)
     | _, _ => none)

/-- convert an expression: the reads and the type of the result (`none`: it can only raise) -/
def convExpr (H : Hier) (σ : Slots n) (A : VS n) (e : Expr n) : List (Read n) × Option Ty :=
  match readsOf H σ A e.reads with
  | (rs, none) => (rs, none)
  | (rs, some ts) => (rs, e.ty ts)

def Test.reads : Test n → List (Fin n)
  | .isinst x _ _ => [x]
  | .isNone x _ _ => [x]
  | .cond rs _ _ _ => rs

def Test.ok : Test n → List Ty → Bool
  | .isinst _ _ _, _ => true
  | .isNone _ _ _, _ => true
  | .cond _ ok _ _, ts => ok ts

def Test.fold : Test n → List Ty → Option Bool
  | .isinst _ _ f, [t] => f t
  | .isNone _ _ f, [t] => f t
  | .cond _ _ f _, ts => f ts
  | _, _ => none

def Test.eval (H : Hier) : Test n → List Val → Nat → Except Val Bool
  | .isinst _ T _, [v], _ => .ok (pyIsInst H v T)
  | .isNone _ neg _, [v], _ => .ok ((v == .none) != neg)
  | .cond _ _ _ f, vs, k => f vs k
  | _, _, _ => .ok false

/-- convert a condition: the reads, whether it can return, and its value when constant -/
def convTest (H : Hier) (σ : Slots n) (A : VS n) (t : Test n) :
    List (Read n) × Bool × Option Bool :=
  match readsOf H σ A t.reads with
  | (rs, none) => (rs, false, none)
  | (rs, some ts) => (rs, t.ok ts, t.fold ts)

/-- function_conversion_context.py:985-1033 `restrictByCondition` (the `var.matches.Y` form is not
modelled) -/
def restrictBy (H : Hier) (A : VS n) (t : Test n) (result : Bool) : VS n :=
  match t with
  | .isinst x T _ => A.restrict H x T result
  | .isNone x neg _ => A.restrict H x .none (if neg then !result else result)
  | .cond _ _ _ _ => A

/-- function_conversion_context.py:71-101 `ControlFlowBlocks`. `return_to` and `try_flow` are set
together, and the marker gives the depth of its `try`. -/
structure Blocks where
  ret : Option Label
  inLoop : Bool
  inLoopEver : Bool
  depth : Nat

def Label.depth : Label → Nat
  | .endTry d => d
  | .endFin d => d
  | _ => 0

/-- function_conversion_context.py:93-96 -/
def Blocks.pushTry (b : Blocks) (l : Label) : Blocks :=
  { ret := some l, inLoop := false, inLoopEver := b.inLoopEver, depth := b.depth + 1 }

/-- function_conversion_context.py:98-101 -/
def Blocks.pushLoop (b : Blocks) : Blocks :=
  { b with inLoop := true, inLoopEver := true }

/-- native_ast.py:491-521 `returnTargets`: can the code jump to `l`? -/
def Code.targets (l : Label) : Code n → Bool
  | .seq a b => a.targets l || b.targets l
  | .branch _ _ a b => a.targets l || b.targets l
  | .loop _ _ a b => a.targets l || b.targets l
  | .jump k => k == l
  | .block k c => c.targets l && !(k == l)
  | .ifExc a b => a.targets l || b.targets l
  | .ifFlow _ _ a => a.targets l
  | .tryCatch c h => c.targets l || h.targets l
  | .matchExc _ a b => a.targets l || b.targets l
  | .cleanup c _ _ => c.targets l
  | _ => false

mutual
/-- python_ast_analysis.py:85-158 `computeAssignedVariables`: the names stored to. The name bound by
an `except` clause is a string, not a `Name` expression, so it is not counted. -/
def Stmt.assigns : Stmt n → Fin n → Bool
  | .seq a b, x => a.assigns x || b.assigns x
  | .assign y _, x => y == x
  | .ifS _ a b, x => a.assigns x || b.assigns x
  | .whileS _ a b, x => a.assigns x || b.assigns x
  | .tryS body hs orelse final, x =>
    body.assigns x || hs.assigns x || orelse.assigns x || final.assigns x
  | _, _ => false
/-- the same for the `except` clauses (python_ast_analysis.py:85-158) -/
def Handlers.assigns : Handlers n → Fin n → Bool
  | .nil, _ => false
  | .cons _ _ body rest, x => body.assigns x || rest.assigns x
end

/-- function_conversion_context.py:1692-1700: the state going into the handlers. The variables
assigned in the body have the type of their slot and may be uninitialised. -/
def VS.enterHandlers (σ : Slots n) (A : VS n) (assigned : Fin n → Bool) : VS n :=
  { types := fun x =>
      if assigned x then (match σ x with | some s => some (some s) | none => A.types x) else A.types x
    maybe := fun x => if assigned x && (σ x).isSome then true else A.maybe x }

/-- What a conversion gives: the code, the state after it, and whether control can reach its end. -/
abbrev Conv (n : Nat) := Code n × VS n × Bool

/-- function_conversion_context.py:2081-2097 (`break`), 2099-2115 (`continue`); `none` is the failed
assertion of lines 2085 and 2103 -/
def jumpCode (b : Blocks) (l : Label) (k : Deferred) : Option (Code n) :=
  if b.inLoop then some (.jump l)
  else match b.ret with
    | none => none
    | some r => some (.seq (.setFlow r.depth k) (.seq (.ifExc .clearInfo .skip) (.jump r)))

/-- function_conversion_context.py:1534-1555: `return`, given the code that evaluates the value -/
def retCode (b : Blocks) (e : Expr n) (rs : List (Read n)) (live : Bool) : Code n :=
  match b.ret with
  | none => .ret e rs live
  | some r =>
    .seq (.saveRet e rs live)
      (.seq (.setFlow r.depth .ret) (.seq (.ifExc .clearInfo .skip) (.jump r)))

/-- function_conversion_context.py:1852-1856: `return .return_value` -/
def retSavedCode (b : Blocks) : Code n :=
  match b.ret with
  | none => .retSaved
  | some r => .seq (.setFlow r.depth .ret) (.seq (.ifExc .clearInfo .skip) (.jump r))

/-- function_conversion_context.py:892-949 `assignToLocalVariable`: is the slot overwritten as
initialised, and does its type need no destructor? -/
def storeMode (σ : Slots n) (A : VS n) (x : Fin n) : Bool × Bool :=
  (A.defInit x, match σ x with | none => true | some s => isPod s)

/-- One round of the conversion of a `while`: finished, or to be repeated from a larger state. -/
inductive Pass (n : Nat) where
  | done (r : Conv n)
  | again (A : VS n)

/-- function_conversion_context.py:1658-1663: the state after the two parts of a `while`, merged with
the state before them -/
def loopMerge (H : Hier) (A : VS n) (rt : Bool) (T : VS n) (rf : Bool) (F : VS n) : VS n :=
  VS.becomeMerge H
    (some (VS.becomeMerge H (if rt then some T else none) (if rf then some F else none))) (some A)

/-- function_conversion_context.py:1614-1673: one round of the conversion of a `while` -/
def whilePass (H : Hier) (σ : Slots n) (t : Test n) (body orelse : VS n → Option (Conv n))
    (A : VS n) : Option (Pass n) :=
  match convTest H σ A t with
  | (rs, false, _) => some (.done (.branch t rs .unreachable .unreachable, A, false))
  | (rs, true, some false) =>
    match orelse A with
    | none => none
    | some (c, A', r) => some (.done (.seq (.branch t rs .skip .skip) c, A', r))
  | (rs, true, k) =>
    match body (restrictBy H A t true), orelse (restrictBy H A t false) with
    | some (ct, T, rt), some (cf, F, rf) =>
      let M2 := loopMerge H A rt T rf F
      let whileTrue := k == some true && !ct.targets .brk
      if M2.eqv A then
        some (.done (.block .brk (.loop t rs (.block .cont ct) cf), M2, (rt || rf) && !whileTrue))
      else some (.again M2)
    | _, _ => none

/-- function_conversion_context.py:1613: repeat until the state is stable. The code has no limit;
`none` after `k` rounds means that the conversion takes more than that. -/
def fixLoop (pass : VS n → Option (Pass n)) : Nat → VS n → Option (Conv n)
  | 0, _ => none
  | k + 1, A =>
    match pass A with
    | none => none
    | some (.done r) => some r
    | some (.again A') => fixLoop pass k A'

/-- function_conversion_context.py:1814-1895: the code of a `try`, from the code of its parts -/
def tryCode (b : Blocks) (cb working co cf : Code n) (brkC contC : Code n) : Code n :=
  let d := b.depth
  let caught : Code n := .seq .catchExc (.setFlow d .exception)
  let start : Code n := .seq (.setExc false) (.setFlow d .default)
  let main : Code n := .tryCatch cb (.seq (.setExc true) (.tryCatch working caught))
  let els : Code n := .ifExc .skip (.tryCatch co (.seq (.setExc true) caught))
  let fin : Code n := .tryCatch (.block (.endFin d) cf) (.seq (.setExc true) caught)
  let retC : Code n := .ifFlow d .ret (.seq (.ifExc .clearInfo .skip) (retSavedCode b))
  let raiseC : Code n := .ifFlow d .exception (.reraise true)
  .seq (.block (.endTry d) (.seq start (.seq main els)))
    (.seq fin (.seq retC (.seq brkC (.seq contC raiseC))))

/-- function_conversion_context.py:1866-1889: the deferred `break` or `continue` of a `try` -/
def deferredJump (b : Blocks) (l : Label) (k : Deferred) : Option (Code n) :=
  if b.inLoopEver then
    match jumpCode b l k with
    | none => none
    | some j => some (.ifFlow b.depth k (.seq (.ifExc .clearInfo .skip) j))
  else some .skip

mutual
/-- function_conversion_context.py:1420-2175 `_convert_statement_ast` and, for a sequence,
:2465-2544 `convert_statement_list_ast`. `K` bounds the rounds of a loop's conversion. `none`: the
conversion itself fails, or needs more rounds. -/
def conv (H : Hier) (σ : Slots n) (K : Nat) : Stmt n → Blocks → VS n → Option (Conv n)
  | .pass, _, A => some (.skip, A, true)                                      -- 1609-1610
  | .seq s₁ s₂, b, A =>                                                       -- 2486-2544
    match conv H σ K s₁ b A with
    | none => none
    | some (c₁, A₁, false) => some (c₁, A₁, false)
    | some (c₁, A₁, true) =>
      match conv H σ K s₂ b A₁ with
      | none => none
      | some (c₂, A₂, r) => some (.seq c₁ c₂, A₂, r)
  | .assign x e, _, A =>                                                      -- 1479-1506, 892-949
    match convExpr H σ A e with
    | (rs, none) => some (.eval e rs false, A, false)
    | (rs, some t) =>
      some (.store x e rs true (storeMode σ A x).1 (storeMode σ A x).2, A.assigned x t, true)
  | .expr e, _, A =>                                                          -- 1557-1562
    match convExpr H σ A e with
    | (rs, none) => some (.eval e rs false, A, false)
    | (rs, some _) => some (.eval e rs true, A, true)
  | .ret e, b, A =>                                                           -- 1508-1555
    match convExpr H σ A e with
    | (rs, none) => some (.eval e rs false, A, false)
    | (rs, some _) => some (retCode b e rs true, A, false)
  | .raiseE e, _, A =>                                                        -- 1947-2000
    some (.raiseE e (convExpr H σ A e).1, A, false)
  | .reraise, _, A => some (.reraise false, A, false)                         -- 1950-1951, 1995
  | .assertS t, _, A =>                                                       -- 2117-2149
    match convTest H σ A t with
    | (rs, false, _) => some (.branch t rs .unreachable .unreachable, A, false)
    | (rs, true, some true) => some (.branch t rs .skip .skip, A, true)
    | (rs, true, some false) => some (.assertC t rs, A, false)
    | (rs, true, none) => some (.assertC t rs, restrictBy H A t true, true)
  | .ifS t a c, b, A =>                                                       -- 1564-1607
    match convTest H σ A t with
    | (rs, false, _) => some (.branch t rs .unreachable .unreachable, A, false)
    | (rs, true, some true) =>
      match conv H σ K a b A with
      | none => none
      | some (c₁, A₁, r) => some (.seq (.branch t rs .skip .skip) c₁, A₁, r)
    | (rs, true, some false) =>
      match conv H σ K c b A with
      | none => none
      | some (c₁, A₁, r) => some (.seq (.branch t rs .skip .skip) c₁, A₁, r)
    | (rs, true, none) =>
      match conv H σ K a b (restrictBy H A t true), conv H σ K c b (restrictBy H A t false) with
      | some (ct, T, rt), some (cf, F, rf) =>
        some (.branch t rs ct cf,
          VS.becomeMerge H (if rt then some T else none) (if rf then some F else none), rt || rf)
      | _, _ => none
  | .whileS t a c, b, A =>                                                    -- 1612-1673
    fixLoop (whilePass H σ t (conv H σ K a b.pushLoop) (conv H σ K c b)) K A
  | .brk, b, A =>                                                             -- 2081-2097
    match jumpCode b .brk .brk with
    | none => none
    | some c => some (c, A, true)
  | .cont, b, A =>                                                            -- 2099-2115
    match jumpCode b .cont .cont with
    | none => none
    | some c => some (c, A, true)
  | .tryS body hs orelse final, b, A =>                                       -- 1675-1897
    match conv H σ K body (b.pushTry (.endTry b.depth)) A with
    | none => none
    | some (cb, A₁, _) =>
      match convHandlers H σ K hs (b.pushTry (.endTry b.depth)) (A.enterHandlers σ body.assigns) A₁ with
      | none => none
      | some (working, A₁') =>
        match conv H σ K orelse (b.pushTry (.endTry b.depth)) A₁' with
        | none => none
        | some (co, A₂, _) =>
          match conv H σ K final (b.pushTry (.endFin b.depth)) A₂ with
          | none => none
          | some (cf, A₃, _) =>
            match deferredJump b .brk .brk, deferredJump b .cont .cont with
            | some brkC, some contC => some (tryCode b cb working co cf brkC contC, A₃, true)
            | _, _ => none
/-- function_conversion_context.py:1714-1786: the handlers, from the last to the first. `AH` is the
state going into a handler and `A` the state after the body, into which the state at the end of
each handler that can end is merged. -/
def convHandlers (H : Hier) (σ : Slots n) (K : Nat) :
    Handlers n → Blocks → VS n → VS n → Option (Code n × VS n)
  | .nil, b, _, A => some (.seq .catchExc (.setFlow (b.depth - 1) .exception), A)
  | .cons c name body rest, b, AH, A =>
    match convHandlers H σ K rest b AH A with
    | none => none
    | some (working, A') =>
      match name with
      | none =>
        match conv H σ K body b AH with
        | none => none
        | some (ch, Ah, r) =>
          some (.matchExc c (.seq .catchExc (.seq ch (.ifExc .clearInfo .skip))) working,
            if r then VS.becomeMerge H (some A') (some Ah) else A')
      | some x =>
        match conv H σ K body b (AH.assigned x [.cls c]) with
        | none => none
        | some (ch, Ah, r) =>
          some (.matchExc c (.seq (.storeExc x (storeMode σ AH x).1 (storeMode σ AH x).2)
              (.seq (.cleanup ch x (storeMode σ AH x).2) (.ifExc .clearInfo .skip))) working,
            if r then VS.becomeMerge H (some A') (some (Ah.uninit x)) else A')
end

/-- Outside any loop or `try`. -/
def Blocks.top : Blocks := { ret := none, inLoop := false, inLoopEver := false, depth := 0 }

/-- function_conversion_context.py:2535-2544, 2546-2564: the body of a function. Control that can
reach the end returns `None`; otherwise the code ends in `Unreachable`. -/
def convFn (H : Hier) (σ : Slots n) (K : Nat) (s : Stmt n) (A : VS n) : Option (Code n) :=
  match conv H σ K s Blocks.top A with
  | none => none
  | some (c, _, r) => some (.seq c (if r then .returnNone else .unreachable))

/-! ### Running the generated code -/

/-- `UnboundLocalError` for variable `x` -/
def unboundErr (x : Fin n) : Val := .inst 0 x.val
/-- `RuntimeError("No active exception to reraise")`, _runtime.cpp:1081 -/
def noActiveErr : Val := .inst 1 0
/-- `AssertionError` -/
def assertErr : Val := .inst 2 0

/-- The state of the running code: the slots (`none`: not initialised), how many values have been
taken from the oracle, `.exc_occurred`, the `.control_flow` slots, the exception being thrown, the
exception in `sys.exc_info()` (there is one: _runtime.cpp:1110-1113, 1199-1214) and
`.return_value`. -/
structure St (n : Nat) where
  env : Fin n → Option Val
  pos : Nat
  exc : Bool
  flow : Nat → Deferred
  err : Option Val
  info : Option Val
  rv : Option Val

/-- How a piece of code ends. `fault`: the generated code does something undefined: it reads a slot
as a type its content does not have, reads or destroys a slot that is not initialised, or reaches
`Unreachable`. `timeout`: a loop ran more often than the bound given. -/
inductive Out where
  | normal
  | jump (l : Label)
  | raised (v : Val)
  | returned (v : Val)
  | fault
  | timeout
  deriving DecidableEq, Repr

/-- read the variables of an expression: expression_conversion_context.py:1448-1461 -/
def doReads (H : Hier) (env : Fin n → Option Val) : List (Read n) → Except Out (List Val)
  | [] => .ok []
  | r :: rs =>
    match env r.x with
    | none => .error (if r.checked then .raised (unboundErr r.x) else .fault)
    | some v =>
      if inTy H v r.ty then
        match doReads H env rs with
        | .error o => .error o
        | .ok vs => .ok (v :: vs)
      else .error .fault

/-- evaluate an expression -/
def doEval (H : Hier) (ω : Nat → Nat) (e : Expr n) (rs : List (Read n)) (st : St n) :
    Except Out Val × St n :=
  match doReads H st.env rs with
  | .error o => (.error o, st)
  | .ok vs =>
    match e.eval vs (ω st.pos) with
    | .error v => (.error (.raised v), { st with pos := st.pos + 1 })
    | .ok v => (.ok v, { st with pos := st.pos + 1 })

/-- evaluate a condition -/
def doTest (H : Hier) (ω : Nat → Nat) (t : Test n) (rs : List (Read n)) (st : St n) :
    Except Out Bool × St n :=
  match doReads H st.env rs with
  | .error o => (.error o, st)
  | .ok vs =>
    match t.eval H vs (ω st.pos) with
    | .error v => (.error (.raised v), { st with pos := st.pos + 1 })
    | .ok v => (.ok v, { st with pos := st.pos + 1 })

def setVar (env : Fin n → Option Val) (x : Fin n) (v : Option Val) : Fin n → Option Val :=
  fun y => if y = x then v else env y

/-- function_conversion_context.py:929-947: store into a slot. A slot taken to be initialised is
overwritten: its old content is destroyed first, unless it needs no destructor, and then the flag
is not set. -/
def doStore (st : St n) (x : Fin n) (v : Val) (over pod : Bool) : Out × St n :=
  if over && (st.env x).isNone then
    if pod then (.normal, st) else (.fault, st)
  else (.normal, { st with env := setVar st.env x (some v) })

/-- a `While` of the native language -/
def doLoop (test : St n → Except Out Bool × St n) (body orelse : St n → Out × St n) :
    Nat → St n → Out × St n
  | 0, st => (.timeout, st)
  | k + 1, st =>
    match test st with
    | (.error o, st') => (o, st')
    | (.ok false, st') => orelse st'
    | (.ok true, st') =>
      match body st' with
      | (.normal, st'') => doLoop test body orelse k st''
      | r => r

/-- Run code. `ω` supplies what the rest of the program contributes to each evaluation; `N` bounds
the iterations of each loop. -/
def run (H : Hier) (ω : Nat → Nat) (N : Nat) : Code n → St n → Out × St n
  | .skip, st => (.normal, st)
  | .seq a b, st =>
    match run H ω N a st with
    | (.normal, st') => run H ω N b st'
    | r => r
  | .eval e rs live, st =>
    match doEval H ω e rs st with
    | (.error o, st') => (o, st')
    | (.ok _, st') => (if live then .normal else .fault, st')
  | .store x e rs live over pod, st =>
    match doEval H ω e rs st with
    | (.error o, st') => (o, st')
    | (.ok v, st') => if live then doStore st' x v over pod else (.fault, st')
  | .ret e rs live, st =>
    match doEval H ω e rs st with
    | (.error o, st') => (o, st')
    | (.ok v, st') => (if live then .returned v else .fault, st')
  | .saveRet e rs live, st =>
    match doEval H ω e rs st with
    | (.error o, st') => (o, st')
    | (.ok v, st') => if live then (.normal, { st' with rv := some v }) else (.fault, st')
  | .retSaved, st =>
    match st.rv with
    | some v => (.returned v, st)
    | none => (.fault, st)
  | .returnNone, st => (.returned .none, st)
  | .raiseE e rs, st =>
    match doEval H ω e rs st with
    | (.error o, st') => (o, st')
    | (.ok v, st') => (.raised v, st')
  | .reraise clear, st =>                          -- expression_conversion_context.py:1342-1364
    match st.info with
    | none => (.raised noActiveErr, st)
    | some v => (.raised v, if clear && st.exc then { st with info := none } else st)
  | .assertC t rs, st =>
    match doTest H ω t rs st with
    | (.error o, st') => (o, st')
    | (.ok true, st') => (.normal, st')
    | (.ok false, st') => (.raised assertErr, st')
  | .branch t rs a b, st =>
    match doTest H ω t rs st with
    | (.error o, st') => (o, st')
    | (.ok true, st') => run H ω N a st'
    | (.ok false, st') => run H ω N b st'
  | .loop t rs a b, st => doLoop (doTest H ω t rs) (run H ω N a) (run H ω N b) N st
  | .jump l, st => (.jump l, st)
  | .block l c, st =>
    match run H ω N c st with
    | (.jump k, st') => if k = l then (.normal, st') else (.jump k, st')
    | r => r
  | .setExc v, st => (.normal, { st with exc := v })
  | .ifExc a b, st => if st.exc then run H ω N a st else run H ω N b st
  | .setFlow d k, st => (.normal, { st with flow := fun j => if j = d then k else st.flow j })
  | .ifFlow d k a, st => if st.flow d = k then run H ω N a st else (.normal, st)
  | .tryCatch c h, st =>
    match run H ω N c st with
    | (.raised v, st') => run H ω N h { st' with err := some v }
    | r => r
  | .catchExc, st => (.normal, { st with info := st.err })
  | .clearInfo, st => (.normal, { st with info := none })
  | .matchExc c a b, st =>
    match st.err with
    | some v => if inAtom H v (.cls c) then run H ω N a st else run H ω N b st
    | none => (.fault, st)
  | .storeExc x over pod, st =>
    match st.err with
    | some v => doStore { st with info := some v } x v over pod
    | none => (.fault, st)
  | .cleanup c x pod, st =>
    match run H ω N c st with
    | (.timeout, st') => (.timeout, st')
    | (.fault, st') => (.fault, st')
    | (o, st') =>
      if (st'.env x).isNone && !pod then (.fault, st')
      else (o, { st' with env := setVar st'.env x none })
  | .unreachable, st => (.fault, st)

/-- Call a compiled function whose arguments are in `env`. -/
def runFn (H : Hier) (ω : Nat → Nat) (N : Nat) (c : Code n) (env : Fin n → Option Val) : Out :=
  (run H ω N c { env, pos := 0, exc := false, flow := fun _ => .default, err := none, info := none,
                 rv := none }).1

end Verif.Flow
