/-
The specification of generators: ordinary Python statements, run as Python runs them, in
which `yield` hands a value to the consumer and the consumer does something before the
body goes on.

Nothing here comes from /repo, except that the statement kinds are the ones
`changeStatementInner` of typed_python/compiler/generator_codegen.py handles
(generator_codegen.py:241-540).  The reference for the semantics is the Python language
reference (compound statements; yield expressions; PEP 479).

Expressions and simple statements are not given a syntax.  An expression is any function
from the state to a new state and a value or an exception, a simple statement any function
from the state to a new state and possibly an exception: the theorems hold for all of
them.  `σ` is everything a generator's body can see: its variables and the heap.
-/
namespace Verif.Gen

/-- Exceptions: `StopIteration` with its optional argument, the `RuntimeError` that a bare
`raise` without an active exception causes, the `RuntimeError` that replaces a
`StopIteration` escaping from a generator's body (PEP 479), and every other exception. -/
inductive Exc (E V : Type) where
  | stop (arg : Option V)
  | noActive
  | runtime
  | other (e : E)
deriving DecidableEq, Repr

/-- Evaluating an expression: a new state, and a value or an exception. -/
abbrev Act (σ E V α : Type) := σ → σ × Except (Exc E V) α

mutual
/-- Statements.
* `prim`: a simple statement (assignment, augmented assignment, call, assert, import,
  delete, `raise e`, pass, ...);
* `yld e`: the statement `yield e`;
* `ite`, `whl`: `if` and `while`, with their `else`;
* `brk`, `cont`, `ret`: `break`, `continue`, `return` and `return e`;
* `reraise`: a bare `raise`;
* `info f`: a simple statement that looks at the exception being handled
  (`sys.exc_info()`);
* `tri body handlers orelse finalbody`: `try`; a missing clause is an empty block. -/
inductive Stmt (σ E V : Type) where
  | prim (f : Act σ E V Unit)
  | yld (e : Act σ E V V)
  | ite (test : Act σ E V Bool) (body orelse : Block σ E V)
  | whl (test : Act σ E V Bool) (body orelse : Block σ E V)
  | brk
  | cont
  | ret (e : Option (Act σ E V V))
  | reraise
  | info (f : Option (Exc E V) → Act σ E V Unit)
  | tri (body : Block σ E V) (handlers : Handlers σ E V) (orelse finalbody : Block σ E V)
/-- Lists of statements. -/
inductive Block (σ E V : Type) where
  | nil
  | cons (s : Stmt σ E V) (rest : Block σ E V)
/-- Lists of `except` clauses: which exceptions the clause catches, what `as name` does to
the state (nothing when there is no `as`), and the clause's body. -/
inductive Handlers (σ E V : Type) where
  | nil
  | cons (catches : Exc E V → Bool) (bind : Exc E V → σ → σ) (body : Block σ E V)
      (rest : Handlers σ E V)
end

/-- How a statement ends.  `susp p`: it is suspended at a `yield`; `p` says what was
yielded. -/
inductive Out (E V P : Type) where
  | norm
  | brk
  | cont
  | ret (v : Option V)
  | exc (e : Exc E V)
  | susp (p : P)
deriving DecidableEq, Repr

/-- The result of running something: `none` when the fuel for loops has run out. -/
abbrev Res (S E V P : Type) := Option (Out E V P × S)

variable {S E V P : Type}

/-- Evaluate a test, then go one way or the other. -/
def condR (t : S → S × Except (Exc E V) Bool) (b o : S → Res S E V P) (s : S) : Res S E V P :=
  match t s with
  | (s', .error e) => some (.exc e, s')
  | (s', .ok true) => b s'
  | (s', .ok false) => o s'

/-- Go on with the next statement if this one ended normally. -/
def seqR (k : S → Res S E V P) : Res S E V P → Res S E V P
  | some (.norm, s) => k s
  | r => r

/-- What a loop does when its body has ended. -/
def againR (again : S → Res S E V P) : Res S E V P → Res S E V P
  | some (.norm, s) => again s
  | some (.cont, s) => again s
  | some (.brk, s) => some (.norm, s)
  | r => r

/-- `while test: body else: orelse`, at most `n` evaluations of the test. -/
def loopN (t : S → S × Except (Exc E V) Bool) (b o : S → Res S E V P) : Nat → S → Res S E V P
  | 0, _ => none
  | n + 1, s => condR t (fun s' => againR (loopN t b o n) (b s')) o s

/-- What `try` does when its body has ended: handlers after an exception, `else` after a
normal end. -/
def tryR (h : Exc E V → S → Res S E V P) (o : S → Res S E V P) : Res S E V P → Res S E V P
  | some (.exc e, s) => h e s
  | some (.norm, s) => o s
  | r => r

/-- The exception that a bare `raise` in a `finally` block raises again. -/
def finCur (cur : Option (Exc E V)) : Out E V P → Option (Exc E V)
  | .exc e => some e
  | _ => cur

/-- Run the `finally` block `f`, then go on with what was pending.  Being suspended is not
an end: the `finally` block does not run. -/
def finR (f : Option (Exc E V) → S → Res S E V P) (cur : Option (Exc E V)) :
    Res S E V P → Res S E V P
  | none => none
  | some (.susp p, s) => some (.susp p, s)
  | some (.norm, s) => f cur s
  | some (.brk, s) => seqR (fun s' => some (.brk, s')) (f cur s)
  | some (.cont, s) => seqR (fun s' => some (.cont, s')) (f cur s)
  | some (.ret v, s) => seqR (fun s' => some (.ret v, s')) (f cur s)
  | some (.exc e, s) => seqR (fun s' => some (.exc e, s')) (f (some e) s)

/-- The state while a generator runs: the state proper, and what the consumer will do to it
between the calls of `next` still to come. -/
abbrev World (σ : Type) := σ × List (σ → σ)

variable {σ : Type}

/-- Evaluate an expression in the world. -/
def act {α : Type} (f : Act σ E V α) (w : World σ) : World σ × Except (Exc E V) α :=
  (((f w.1).1, w.2), (f w.1).2)

/-- Run a simple statement. -/
def primR (f : Act σ E V Unit) (w : World σ) : Res (World σ) E V V :=
  match act f w with
  | (w', .error e) => some (.exc e, w')
  | (w', .ok _) => some (.norm, w')

/-- Run `yield e`: the value is handed over.  If the consumer does not call `next` again, the
generator stays suspended; otherwise the consumer does what it does in between and the body
goes on. -/
def yldR (e : Act σ E V V) (w : World σ) : Res (World σ) E V V :=
  match act e w with
  | (w', .error x) => some (.exc x, w')
  | (w', .ok v) =>
    match w'.2 with
    | [] => some (.susp v, w')
    | a :: rest => some (.norm, (a w'.1, rest))

/-- Run `return e`. -/
def retR (e : Act σ E V V) (w : World σ) : Res (World σ) E V V :=
  match act e w with
  | (w', .error x) => some (.exc x, w')
  | (w', .ok v) => some (.ret (some v), w')

mutual
/-- Run a statement.  `N` bounds the iterations of each loop, `cur` is the exception being
handled (for a bare `raise`). -/
def exec (N : Nat) (cur : Option (Exc E V)) : Stmt σ E V → World σ → Res (World σ) E V V
  | .prim f, w => primR f w
  | .yld e, w => yldR e w
  | .ite t b o, w => condR (act t) (execB N cur b) (execB N cur o) w
  | .whl t b o, w => loopN (act t) (execB N cur b) (execB N cur o) N w
  | .brk, w => some (.brk, w)
  | .cont, w => some (.cont, w)
  | .ret none, w => some (.ret none, w)
  | .ret (some e), w => retR e w
  | .reraise, w => some (.exc (cur.getD .noActive), w)
  | .info f, w => primR (f cur) w
  | .tri b hs o f, w =>
    finR (fun c => execB N c f) cur (tryR (execH N cur hs) (execB N cur o) (execB N cur b w))
/-- Run a list of statements. -/
def execB (N : Nat) (cur : Option (Exc E V)) : Block σ E V → World σ → Res (World σ) E V V
  | .nil, w => some (.norm, w)
  | .cons s r, w => seqR (execB N cur r) (exec N cur s w)
/-- Let the first `except` clause that catches `e` run; without one, `e` goes on. -/
def execH (N : Nat) (cur : Option (Exc E V)) : Handlers σ E V → Exc E V → World σ →
    Res (World σ) E V V
  | .nil, e, w => some (.exc e, w)
  | .cons m bind b r, e, w =>
    if m e then execB N (some e) b (bind e w.1, w.2) else execH N cur r e w
end

/-- What a call of `next` does: return a value, raise `StopIteration`, or raise another
exception. -/
inductive Obs (E V : Type) where
  | value (v : V)
  | stop (arg : Option V)
  | raised (e : Exc E V)
deriving DecidableEq, Repr

/-- How the end of a generator's body shows to the caller of `next`: falling off the end and
`return` raise `StopIteration`; an escaping `StopIteration` becomes `RuntimeError`.
(`break` and `continue` outside a loop are syntax errors.) -/
def obsOf : Out E V V → Obs E V
  | .susp v => .value v
  | .ret v => .stop v
  | .exc (.stop _) => .raised .runtime
  | .exc e => .raised e
  | .norm => .stop none
  | .brk => .stop none
  | .cont => .stop none

/-- **Specification.**  What the `(between.length + 1)`-th call of `next` on a generator with
this body does, and the state after it, when the consumer does `between[i]` after the
`i`-th call.  If the body has already ended by then, `next` raises `StopIteration` and the
state is what the consumer has made of it since. -/
def nthNext (N : Nat) (body : Block σ E V) (between : List (σ → σ)) (s : σ) :
    Option (Obs E V × σ) :=
  match execB N none body (s, between) with
  | none => none
  | some (o, (s', [])) => some (obsOf o, s')
  | some (_, (s', a :: rest)) => some (.stop none, (a :: rest).foldl (fun x f => f x) s')

end Verif.Gen
