import Verif.Gen.Spec
/-
The specification of generators whose bodies contain `for` and `with`: the statements of
`Spec.lean` and these two, run as Python runs them.

A `for` statement evaluates its expression, asks the result for an iterator once, and then asks
the iterator for one item after the other; the iterator belongs to this run of the statement
alone.  `break` leaves the loop without running `else`.

A `with` statement evaluates its expression, enters the manager, assigns the result, runs its
body and leaves the same manager, telling it about the exception if there is one, which the
manager may swallow (Python language reference, 8.5).
-/
namespace Verif.Gen

/-- What `iter(x)`, `next(i)` (`none`: there are no more items), `m.__enter__()` and
`m.__exit__(...)` do.  `T` are the things one can iterate over, `I` the iterators, `X` the items,
`M` the context managers, `Y` what entering them gives. -/
structure Proto (σ E V T I X M Y : Type) where
  start : T → Act σ E V I
  step : I → Act σ E V (Option X)
  enter : M → Act σ E V Y
  exit : M → Option (Exc E V) → Act σ E V Bool

/-- `expression as target`, or without `as target`.  `col` is the position of the expression in
its line; it has no meaning in Python. -/
structure WItem (σ E V M Y : Type) where
  col : Nat
  mgr : Act σ E V M
  target : Option (Y → Act σ E V Unit)

mutual
/-- Statements with `for` and `with`.  `line` and `col` are the position of the statement; they
have no meaning in Python. -/
inductive FStmt (σ E V T X M Y : Type) where
  | prim (f : Act σ E V Unit)
  | yld (e : Act σ E V V)
  | ite (test : Act σ E V Bool) (body orelse : FBlock σ E V T X M Y)
  | whl (test : Act σ E V Bool) (body orelse : FBlock σ E V T X M Y)
  | forS (line : Nat) (it : Act σ E V T) (target : X → Act σ E V Unit)
      (body orelse : FBlock σ E V T X M Y)
  | withS (line col : Nat) (item : WItem σ E V M Y) (more : List (WItem σ E V M Y))
      (body : FBlock σ E V T X M Y)
  | brk
  | cont
  | ret (e : Option (Act σ E V V))
  | reraise
  | tri (body : FBlock σ E V T X M Y) (handlers : FHandlers σ E V T X M Y)
      (orelse finalbody : FBlock σ E V T X M Y)
/-- Lists of statements. -/
inductive FBlock (σ E V T X M Y : Type) where
  | nil
  | cons (s : FStmt σ E V T X M Y) (rest : FBlock σ E V T X M Y)
/-- Lists of `except` clauses. -/
inductive FHandlers (σ E V T X M Y : Type) where
  | nil
  | cons (catches : Exc E V → Bool) (bind : Exc E V → σ → σ) (body : FBlock σ E V T X M Y)
      (rest : FHandlers σ E V T X M Y)
end

variable {σ E V T I X M Y : Type}

/-- Evaluate an expression and go on with its value. -/
def actR {α : Type} (f : Act σ E V α) (k : α → World σ → Res (World σ) E V V) (w : World σ) :
    Res (World σ) E V V :=
  match act f w with
  | (w', .error e) => some (.exc e, w')
  | (w', .ok a) => k a w'

/-- The rounds of a `for` loop over the iterator with this `next`, at most `n` calls of it. -/
def forN (next : Act σ E V (Option X)) (target : X → Act σ E V Unit)
    (body orelse : World σ → Res (World σ) E V V) : Nat → World σ → Res (World σ) E V V
  | 0, _ => none
  | n + 1, w => actR next (fun
      | none => orelse
      | some x => actR (target x) (fun _ w' => againR (forN next target body orelse n) (body w'))) w

/-- Leave the manager when the body has ended (not when it is suspended). -/
def exitR (exit : Option (Exc E V) → Act σ E V Bool) :
    Res (World σ) E V V → Res (World σ) E V V
  | none => none
  | some (.susp v, w) => some (.susp v, w)
  | some (.exc e, w) =>
    actR (exit (some e)) (fun b w' => if b then some (.norm, w') else some (.exc e, w')) w
  | some (o, w) => actR (exit none) (fun _ w' => some (o, w')) w

/-- `with item: body`. -/
def withR (p : Proto σ E V T I X M Y) (item : WItem σ E V M Y)
    (body : World σ → Res (World σ) E V V) (w : World σ) : Res (World σ) E V V :=
  actR item.mgr (fun m => actR (p.enter m) (fun y w' =>
    exitR (p.exit m)
      (match item.target with
       | none => body w'
       | some t => actR (t y) (fun _ => body) w'))) w

/-- `with item, more: body` is `with item: with more: body`. -/
def withsR (p : Proto σ E V T I X M Y) (item : WItem σ E V M Y) :
    List (WItem σ E V M Y) → (World σ → Res (World σ) E V V) → World σ → Res (World σ) E V V
  | [], body => withR p item body
  | i2 :: more, body => withR p item (withsR p i2 more body)

mutual
/-- Run a statement. -/
def fexec (p : Proto σ E V T I X M Y) (N : Nat) (cur : Option (Exc E V)) :
    FStmt σ E V T X M Y → World σ → Res (World σ) E V V
  | .prim f, w => primR f w
  | .yld e, w => yldR e w
  | .ite t b o, w => condR (act t) (fexecB p N cur b) (fexecB p N cur o) w
  | .whl t b o, w => loopN (act t) (fexecB p N cur b) (fexecB p N cur o) N w
  | .forS _ e target b o, w =>
    actR e (fun t => actR (p.start t) (fun i =>
      forN (p.step i) target (fexecB p N cur b) (fexecB p N cur o) N)) w
  | .withS _ _ item more b, w => withsR p item more (fexecB p N cur b) w
  | .brk, w => some (.brk, w)
  | .cont, w => some (.cont, w)
  | .ret none, w => some (.ret none, w)
  | .ret (some e), w => retR e w
  | .reraise, w => some (.exc (cur.getD .noActive), w)
  | .tri b hs o f, w =>
    finR (fun c => fexecB p N c f) cur
      (tryR (fexecH p N cur hs) (fexecB p N cur o) (fexecB p N cur b w))
/-- Run a list of statements. -/
def fexecB (p : Proto σ E V T I X M Y) (N : Nat) (cur : Option (Exc E V)) :
    FBlock σ E V T X M Y → World σ → Res (World σ) E V V
  | .nil, w => some (.norm, w)
  | .cons s r, w => seqR (fexecB p N cur r) (fexec p N cur s w)
/-- Let the first `except` clause that catches `e` run. -/
def fexecH (p : Proto σ E V T I X M Y) (N : Nat) (cur : Option (Exc E V)) :
    FHandlers σ E V T X M Y → Exc E V → World σ → Res (World σ) E V V
  | .nil, e, w => some (.exc e, w)
  | .cons m bind b r, e, w =>
    if m e then fexecB p N (some e) b (bind e w.1, w.2) else fexecH p N cur r e w
end

/-- **Specification.**  `nthNext` for bodies with `for` and `with`. -/
def nthNextFor (p : Proto σ E V T I X M Y) (N : Nat) (body : FBlock σ E V T X M Y)
    (between : List (σ → σ)) (s : σ) : Option (Obs E V × σ) :=
  match fexecB p N none body (s, between) with
  | none => none
  | some (o, (s', [])) => some (obsOf o, s')
  | some (_, (s', a :: rest)) => some (.stop none, (a :: rest).foldl (fun x f => f x) s')

end Verif.Gen
