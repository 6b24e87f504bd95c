import Verif.Gen.ForSpec
import Verif.Gen.Model
/-
Before a generator's body is transformed, its `for` loops become `while` loops over hidden
variables (`rewriteForLoops` of typed_python/compiler/for_loop_codegen.py), and its `with`
statements become `try` statements (typed_python/compiler/withblock_codegen.py).
-/
namespace Verif.Gen

variable {σ E V T I X M Y : Type}

/-- The names of hidden variables contain the line of the loop (for_loop_codegen.py:165-168), or
the line and column of the `with` (withblock_codegen.py:29-32). -/
inductive Key where
  | loop (line : Nat)
  | ctx (line col : Nat)
deriving DecidableEq

/-- The hidden variables whose names contain the same position, each `none` until it is
assigned: those of a loop (for_loop_codegen.py:165-168) and those of a `with`
(withblock_codegen.py:29-32).  The two flags are read only after they have been assigned. -/
structure HVars (E V T I X M : Type) where
  expr : Option T
  iter : Option I
  ptr : Option (Option X)
  trigger : Bool
  fine : Bool
  mgr : Option M
  info : Option (Exc E V)

/-- The hidden variables. -/
abbrev Hid (E V T I X M : Type) := Key → HVars E V T I X M

/-- No hidden variable has been assigned. -/
def Hid.empty : Hid E V T I X M := fun _ => ⟨none, none, none, false, false, none, none⟩

/-- Assign hidden variables. -/
def Hid.set (h : Hid E V T I X M) (k : Key) (f : HVars E V T I X M → HVars E V T I X M) :
    Hid E V T I X M :=
  fun k' => if k' = k then f (h k) else h k'

/-- An expression that does not mention hidden variables. -/
def up {α : Type} (f : Act σ E V α) : Act (σ × Hid E V T I X M) E V α :=
  fun g => (((f g.1).1, g.2), (f g.1).2)

/-- An expression that reads hidden variables of one position. -/
def hget {α : Type} (k : Key) (e : HVars E V T I X M → Act σ E V α) :
    Act (σ × Hid E V T I X M) E V α :=
  fun g => up (e (g.2 k)) g

/-- `v = e` for a hidden variable `v` (codegen_helpers.py:98-104). -/
def hset {α : Type} (k : Key) (e : HVars E V T I X M → Act σ E V α)
    (put : α → HVars E V T I X M → HVars E V T I X M) :
    Act (σ × Hid E V T I X M) E V Unit := fun g =>
  match e (g.2 k) g.1 with
  | (s', .error x) => ((s', g.2), .error x)
  | (s', .ok a) => ((s', g.2.set k (put a)), .ok ())

/-- Reading a variable that has no value raises; it never happens here. -/
def getOr {α β : Type} (o : Option α) (f : α → Act σ E V β) : Act σ E V β :=
  match o with
  | some a => f a
  | none => fun s => (s, .error .noActive)

/-- A constant. -/
def con {α : Type} (a : α) : Act σ E V α := fun s => (s, .ok a)

/-- The statements in front of the body of the `while` loop
(for_loop_codegen.py:187-207). -/
def fetch (p : Proto σ E V T I X M Y) (k : Key) (target : X → Act σ E V Unit)
    (rest : Block (σ × Hid E V T I X M) E V) : Block (σ × Hid E V T I X M) E V :=
  .cons (.prim (hset k (fun v => getOr v.iter p.step) (fun q v => { v with ptr := some q })))
    (.cons (.ite (hget k (fun v => con v.ptr.join.isSome))
      (one (.prim (hget k (fun v => getOr v.ptr.join target))))
      (.cons (.prim (hset k (fun _ => con ()) (fun _ v => { v with trigger := true })))
        (one .brk)))
    rest)

/-- The code for a `for` loop (for_loop_codegen.py:162-215).  The statement that imports
`ExtractIteratorWithFastnext` has no effect and is left out. -/
def forCode (p : Proto σ E V T I X M Y) (k : Key) (e : Act σ E V T)
    (target : X → Act σ E V Unit) (body orelse : Block (σ × Hid E V T I X M) E V) :
    Block (σ × Hid E V T I X M) E V :=
  .cons (.prim (hset k (fun _ => e) (fun t v => { v with expr := some t })))
    (.cons (.prim (hset k (fun v => getOr v.expr p.start) (fun i v => { v with iter := some i })))
      (.cons (.prim (hset k (fun _ => con ()) (fun _ v => { v with trigger := false })))
        (.cons (.whl (fun g => (g, .ok true)) (fetch p k target body) .nil)
          (if orelse.isNil then .nil
           else one (.ite (hget k (fun v => con v.trigger)) orelse .nil)))))

/-- `target = manager.__enter__()`, or `manager.__enter__()` (withblock_codegen.py:130-155). -/
def enterA (p : Proto σ E V T I X M Y) (item : WItem σ E V M Y) (m : M) : Act σ E V Unit :=
  fun s =>
    match p.enter m s with
    | (s', .error x) => (s', .error x)
    | (s', .ok y) =>
      match item.target with
      | none => (s', .ok ())
      | some t => t y s'

/-- `manager.__exit__(None, None, None)` as a statement (withblock_codegen.py:224-235). -/
def exitA (p : Proto σ E V T I X M Y) (m : M) : Act σ E V Unit := fun s =>
  match p.exit m none s with
  | (s', .error x) => (s', .error x)
  | (s', .ok _) => (s', .ok ())

/-- The handler (withblock_codegen.py:162-216).  `sys.exc_info()` is modelled by the exception
being handled. -/
def withHandler (p : Proto σ E V T I X M Y) (k : Key) : Handlers (σ × Hid E V T I X M) E V :=
  .cons (fun _ => true) (fun _ g => g)
    (.cons (.prim (hset k (fun _ => con ()) (fun _ v => { v with fine := false })))
      (.cons (.info (fun c => hset k (fun _ => con ()) (fun _ v => { v with info := c })))
        (one (.ite (hget k (fun v => getOr v.mgr (fun m => p.exit m v.info)))
          (one (.prim (con ()))) (one .reraise)))))
    .nil

/-- The `finally` block (withblock_codegen.py:217-239). -/
def withFinal (p : Proto σ E V T I X M Y) (k : Key) : Block (σ × Hid E V T I X M) E V :=
  one (.ite (hget k (fun v => con v.fine))
    (one (.prim (hget k (fun v => getOr v.mgr (exitA p))))) .nil)

/-- The code for a `with` statement with one item (withblock_codegen.py:28-243).  `__enter__` is
called, and its result assigned, before the `try` (withblock_codegen.py:130-157). -/
def withCode (p : Proto σ E V T I X M Y) (k : Key) (item : WItem σ E V M Y)
    (body : Block (σ × Hid E V T I X M) E V) : Block (σ × Hid E V T I X M) E V :=
  .cons (.prim (hset k (fun _ => con ()) (fun _ v => { v with fine := true })))
    (.cons (.prim (hset k (fun _ => item.mgr) (fun m v => { v with mgr := some m })))
      (.cons (.prim (hget k (fun v => getOr v.mgr (enterA p item))))
        (one (.tri body (withHandler p k) .nil (withFinal p k)))))

/-- `with a, b: body` is `with a: with b: body`, where the position of the inner `with` is that
of the expression `b` (withblock_codegen.py:6-26). -/
def withsCode (p : Proto σ E V T I X M Y) (line col : Nat) (item : WItem σ E V M Y) :
    List (WItem σ E V M Y) → Block (σ × Hid E V T I X M) E V → Block (σ × Hid E V T I X M) E V
  | [], body => withCode p (.ctx line col) item body
  | i2 :: more, body =>
    withCode p (.ctx line col) item (withsCode p line i2.col i2 more body)

mutual
/-- `rewriteForLoopStatement` (for_loop_codegen.py:98-215), and the expansion of `with`
(generator_codegen.py:481-485).  `rewriteForLoopStatement` makes a new `With` without a position
(for_loop_codegen.py:155-160), so that the line and column are 0: `keep` is false.  In a function
that is not a generator, `with` is expanded where it is (function_conversion_context.py:2012-2015)
and keeps its position: `keep` is true. -/
def FStmt.rewrite (p : Proto σ E V T I X M Y) (keep : Bool) :
    FStmt σ E V T X M Y → Block (σ × Hid E V T I X M) E V
  | .prim f => one (.prim (up f))
  | .yld e => one (.yld (up e))
  | .ite t b o => one (.ite (up t) (b.rewrite p keep) (o.rewrite p keep))
  | .whl t b o => one (.whl (up t) (b.rewrite p keep) (o.rewrite p keep))
  | .forS l e target b o => forCode p (.loop l) e target (b.rewrite p keep) (o.rewrite p keep)
  | .withS line col item more b =>
    withsCode p (if keep then line else 0) (if keep then col else 0) item more (b.rewrite p keep)
  | .brk => one .brk
  | .cont => one .cont
  | .ret none => one (.ret none)
  | .ret (some e) => one (.ret (some (up e)))
  | .reraise => one .reraise
  | .tri b hs o f => one (.tri (b.rewrite p keep) (hs.rewrite p keep) (o.rewrite p keep) (f.rewrite p keep))
/-- `rewriteForLoops` (for_loop_codegen.py:76-95). -/
def FBlock.rewrite (p : Proto σ E V T I X M Y) (keep : Bool) :
    FBlock σ E V T X M Y → Block (σ × Hid E V T I X M) E V
  | .nil => .nil
  | .cons s r => (s.rewrite p keep).append (r.rewrite p keep)
/-- The handlers of a `try` (for_loop_codegen.py:143-149). -/
def FHandlers.rewrite (p : Proto σ E V T I X M Y) (keep : Bool) : FHandlers σ E V T X M Y →
    Handlers (σ × Hid E V T I X M) E V
  | .nil => .nil
  | .cons m bind b r => .cons m (fun e g => (bind e g.1, g.2)) (b.rewrite p keep) (r.rewrite p keep)
end

/-- A compiled generator whose body may have `for` and `with`: they are rewritten, then the body
is transformed (function_conversion_context.py:519-530). -/
def nthCompiledFor (p : Proto σ E V T I X M Y) (N : Nat) (body : FBlock σ E V T X M Y)
    (between : List (σ → σ)) (s : σ) : Option (Obs E V × σ) :=
  match nthCompiled N (body.rewrite p false) (between.map (fun a g => (a g.1, g.2)))
    (s, Hid.empty) with
  | none => none
  | some (r, g) => some (r, g.1)

end Verif.Gen
