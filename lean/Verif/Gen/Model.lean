import Verif.Gen.Spec
/-
The generator transformation of typed_python/compiler/generator_codegen.py: a function body
with `yield`s becomes the body of `__fastnext__`, an ordinary function that finds its way
back to where it stopped with the help of the number in `..slot`.

The result is again Python source, in the statement language of `Spec.lean` and without
`yield`; it is run with the same `exec`.  How the compiler translates it to machine code is
the subject of C62.
-/
namespace Verif.Gen

variable {σ E V : Type}

/-- The members of the generated class (function_conversion_context.py:542-549): `..slot`,
`..value`, and one member per local variable; `vars` is the latter together with the heap. -/
structure GS (σ V : Type) where
  slot : Int
  value : Option V
  vars : σ
deriving DecidableEq, Repr

/-- `_changeInteriorObject` (generator_codegen.py:115-223): the same expression with every
local variable `x` replaced by `self..x`. -/
def onVars {α : Type} (f : Act σ E V α) : Act (GS σ V) E V α :=
  fun g => ({ g with vars := (f g.vars).1 }, (f g.vars).2)

/-- A comparison on `..slot` (generator_codegen.py:76-87). -/
def slotTest (p : Int → Bool) : Act (GS σ V) E V Bool := fun g => (g, .ok (p g.slot))

/-- The expression `a or b` (codegen_helpers.py:31-41). -/
def orA {S : Type} (a b : Act S E V Bool) : Act S E V Bool := fun s =>
  match a s with
  | (s', .error e) => (s', .error e)
  | (s', .ok true) => (s', .ok true)
  | (s', .ok false) => b s'

/-- The expression `a and b` (codegen_helpers.py:31-41). -/
def andA {S : Type} (a b : Act S E V Bool) : Act S E V Bool := fun s =>
  match a s with
  | (s', .error e) => (s', .error e)
  | (s', .ok true) => b s'
  | (s', .ok false) => (s', .ok false)

/-- `checkSlotBetween` (generator_codegen.py:102-113). -/
def between (low high : Int) (k : Int) : Bool :=
  if low > high then false
  else if low = high then decide (low = k)
  else decide (low ≤ k) && decide (high ≥ k)

/-- `setVar("..slot", k)` (generator_codegen.py:89-100). -/
def setSlot (k : Int) : Stmt (GS σ V) E V := .prim (fun g => ({ g with slot := k }, .ok ()))

/-- `setVar("..value", e)` (generator_codegen.py:89-100, 249). -/
def setValue (e : Act σ E V V) : Stmt (GS σ V) E V := .prim (fun g =>
  match onVars e g with
  | (g', .error x) => (g', .error x)
  | (g', .ok v) => ({ g' with value := some v }, .ok ()))

/-- `return pointerTo(self)..value` (generator_codegen.py:250-255).  The caller reads through
the pointer at once (generator.py:18-20), so the returned pointer is modelled by what it
points to; the null pointer (generator_codegen.py:68-74) by `ret none`.  The `.error` branch
cannot happen, as the member has just been set. -/
def retValue : Stmt (GS σ V) E V := .ret (some (fun g =>
  match g.value with
  | some v => (g, .ok v)
  | none => (g, .error .noActive)))

/-- `raise StopIteration(e)` (generator_codegen.py:475-477, codegen_helpers.py:118-125). -/
def raiseStop (e : Act σ E V V) : Stmt (GS σ V) E V := .prim (fun g =>
  match onVars e g with
  | (g', .error x) => (g', .error x)
  | (g', .ok v) => (g', .error (.stop (some v))))

/-- A list of one statement. -/
def one {S : Type} (s : Stmt S E V) : Block S E V := .cons s .nil

/-- Concatenation of statement lists. -/
def Block.append {S : Type} : Block S E V → Block S E V → Block S E V
  | .nil, c => c
  | .cons s r, c => .cons s (r.append c)

/-- Is the list of statements empty? -/
def Block.isNil {S : Type} : Block S E V → Bool
  | .nil => true
  | .cons _ _ => false

/-- Is the list of handlers empty? -/
def Handlers.isNil {S : Type} : Handlers S E V → Bool
  | .nil => true
  | .cons _ _ _ _ => false

mutual
/-- `countYieldStatements` (python_ast_analysis.py:257-282) of a statement.  Only `yield`
statements exist in the model; `x = yield` and the like are not modelled. -/
def Stmt.yields : Stmt σ E V → Nat
  | .yld _ => 1
  | .ite _ b o => b.yields + o.yields
  | .whl _ b o => b.yields + o.yields
  | .tri b hs o f => b.yields + (hs.yields + (o.yields + f.yields))
  | _ => 0
/-- `countYieldStatements` of a list of statements. -/
def Block.yields : Block σ E V → Nat
  | .nil => 0
  | .cons s r => s.yields + r.yields
/-- `countYieldStatements` summed over the bodies of handlers. -/
def Handlers.yields : Handlers σ E V → Nat
  | .nil => 0
  | .cons _ _ b r => b.yields + r.yields
end

/-- The test that replaces the test of `if` and `while` (generator_codegen.py:304-315). -/
def gate (b y : Nat) (t : Act σ E V Bool) : Act (GS σ V) E V Bool :=
  orA (slotTest (between b (b + y - 1))) (andA (slotTest (between (-1) (-1))) (onVars t))

/-- The check around every statement (generator_codegen.py:225-239): `slot < upper`. -/
def guarded (upper : Nat) (inner : Block (GS σ V) E V) : Stmt (GS σ V) E V :=
  .ite (slotTest (fun k => decide (k < upper))) inner .nil

/-- The block that resumes in a handler, in `else` or in `finally`, if that block has yields
(generator_codegen.py:412-431). -/
def matcher (start y : Nat) (code rest : Block (GS σ V) E V) : Block (GS σ V) E V :=
  if y = 0 then rest
  else .cons (.ite (slotTest (between start (start + y - 1))) code .nil) rest

/-- The code for a `try` whose parts have been converted (generator_codegen.py:436-464). -/
def tryCode (b y : Nat) (body : Block (GS σ V) E V) (handlers : Handlers (GS σ V) E V)
    (orelse finalbody cleanup : Block (GS σ V) E V) : Stmt (GS σ V) E V :=
  .ite (slotTest (between (-1) (b + y - 1)))
    (one (.tri body handlers orelse
      (if finalbody.isNil then .nil
       else one (.ite (slotTest (between (-1) (-1))) finalbody .nil))))
    cleanup

mutual
/-- `changeStatementInner` (generator_codegen.py:241-540); `b` is `self.yieldsSeen`.  `For` and
`With` have been rewritten before (for_loop_codegen.py:98-215) and are not statements here.
A `try` with handlers and `finally` is split in two (generator_codegen.py:375-399), which
`changeStatement`s the outer one; the code produced for it is written out. -/
def Stmt.changeInner (b : Nat) : Stmt σ E V → Block (GS σ V) E V
  | .prim f => one (.prim (onVars f))
  | .yld e =>
    one (.ite (slotTest (fun k => decide (k = b)))
      (one (setSlot (-1)))
      (.cons (setSlot b) (.cons (setValue e) (one retValue))))
  | .ite t body o =>
    one (.ite (gate b body.yields t) (body.change b) (o.change (b + body.yields)))
  | .whl t body o =>
    one (.whl (gate b body.yields t) (body.change b) (o.change (b + body.yields)))
  | .brk => one .brk
  | .cont => one .cont
  | .ret none => one (.ret none)
  | .ret (some e) => .cons (setSlot (-2)) (one (raiseStop e))
  | .reraise => one .reraise
  | .info f => one (.info (fun c => onVars (f c)))
  | .tri body hs o f =>
    let bo := b + body.yields + hs.yields
    let bf := bo + o.yields
    let whole := body.yields + hs.yields + o.yields
    if !hs.isNil && !f.isNil then
      one (guarded (b + whole + f.yields) (one (tryCode b whole
        (one (guarded (b + whole) (one (tryCode b body.yields (body.change b)
          (hs.change (b + body.yields)) (o.change bo) .nil
          (hs.cleanup (b + body.yields) (matcher bo o.yields (o.change bo) .nil))))))
        .nil .nil (f.change bf) (matcher bf f.yields (f.change bf) .nil))))
    else
      one (tryCode b body.yields (body.change b) (hs.change (b + body.yields)) (o.change bo)
        (f.change bf)
        (hs.cleanup (b + body.yields)
          (matcher bo o.yields (o.change bo) (matcher bf f.yields (f.change bf) .nil))))
/-- `changeStatementSequence` (generator_codegen.py:542-543), with `changeStatement`
(generator_codegen.py:225-239) for each statement. -/
def Block.change (b : Nat) : Block σ E V → Block (GS σ V) E V
  | .nil => .nil
  | .cons s r => .cons (guarded (b + s.yields) (s.changeInner b)) (r.change (b + s.yields))
/-- The converted handlers (generator_codegen.py:442-448).  The name in `except E as name` is
kept as it is, so that it is bound in the frame of `__fastnext__`, while the body looks for
it among the members: binding it does nothing to the members. -/
def Handlers.change (b : Nat) : Handlers σ E V → Handlers (GS σ V) E V
  | .nil => .nil
  | .cons m _ body r => .cons m (fun _ g => g) (body.change b) (r.change (b + body.yields))
/-- The blocks that resume in the handlers (generator_codegen.py:412-431), before `rest`, those
for `else` and `finally`. -/
def Handlers.cleanup (b : Nat) : Handlers σ E V → Block (GS σ V) E V → Block (GS σ V) E V
  | .nil, rest => rest
  | .cons _ _ body r, rest =>
    matcher b body.yields (body.change b) (r.cleanup (b + body.yields) rest)
end

/-- `convertStatementsToFunctionDef` (generator_codegen.py:545-588): the body of
`__fastnext__`. -/
def fastnextBody (body : Block σ E V) : Block (GS σ V) E V :=
  one (.tri
    (.cons (.ite (slotTest (between (-2) (-2))) (one (.ret none)) .nil)
      ((body.change 0).append (one (.ret none))))
    .nil .nil
    (one (.ite (slotTest (between (-1) (-1))) (one (setSlot (-2))) .nil)))

/-- `Generator.__next__` (generator.py:17-22): what the end of `__fastnext__` means for the
caller of `next`. -/
def nextOf : Out E V V → Obs E V
  | .ret (some v) => .value v
  | .exc (.stop a) => .stop a
  | .exc e => .raised e
  | _ => .stop none

/-- One call of `__next__`. -/
def next (N : Nat) (body : Block σ E V) (g : GS σ V) : Option (Obs E V × GS σ V) :=
  match execB N none (fastnextBody body) (g, []) with
  | none => none
  | some (o, w) => some (nextOf o, w.1)

/-- The consumer acts on the state between two calls. -/
def GS.touch (a : σ → σ) (g : GS σ V) : GS σ V := { g with vars := a g.vars }

/-- `between.length + 1` calls of `__next__`, the consumer acting in between; the last
result. -/
def callsFrom (N : Nat) (body : Block σ E V) : List (σ → σ) → GS σ V → Option (Obs E V × σ)
  | [], g =>
    match next N body g with
    | none => none
    | some (r, g') => some (r, g'.vars)
  | a :: rest, g =>
    match next N body g with
    | none => none
    | some (_, g') => callsFrom N body rest (g'.touch a)

/-- A fresh generator object (function_conversion_context.py:600-614): `..slot` is -1. -/
def fresh (s : σ) : GS σ V := ⟨-1, none, s⟩

/-- What the `(between.length + 1)`-th call of `__next__` on the compiled generator does, and
the state after it. -/
def nthCompiled (N : Nat) (body : Block σ E V) (between : List (σ → σ)) (s : σ) :
    Option (Obs E V × σ) :=
  callsFrom N body between (fresh s)

end Verif.Gen
