import Verif.Gen.Spec
/-
The specification of `for` in functions that are not generators: how Python runs it over a
sequence, over a tuple and over an iterator.

Outcomes of statements (`Out`: `norm`, `brk`, `cont`, `ret`, `exc`) and the ways to put them
together (`seqR`, `condR`, `loopN`, `againR`) are those of `Verif.Gen.Spec`; nothing is ever
suspended here.
-/
namespace Verif.Loops
open Verif.Gen

/-- What can be iterated over, by the kinds of types that the compiler distinguishes.
* `Q`: sequences with a length and items, which may change while they are iterated over
  (lists, strings, ranges, ...);
* `T`: tuples, whose length is known from their type;
* `I`: other iterators.
`σ` is the state, `X` are the items. -/
structure Iter (σ E V Q T I X : Type) where
  size : Q → σ → Nat
  item : Q → Nat → Act σ E V X
  elem : T → Nat → X
  step : I → Act σ E V (Option X)

mutual
/-- Statements.  `line` is the position of a loop; it has no meaning in Python. -/
inductive Stmt (σ E V Q T I X : Type) where
  | prim (f : Act σ E V Unit)
  | ite (test : Act σ E V Bool) (body orelse : Block σ E V Q T I X)
  | whl (test : Act σ E V Bool) (body orelse : Block σ E V Q T I X)
  /-- Over a sequence. -/
  | forSeq (line : Nat) (it : Act σ E V Q) (target : X → Act σ E V Unit)
      (body orelse : Block σ E V Q T I X)
  /-- Over a tuple of length `n`, where the expression is not a variable. -/
  | forTup (n : Nat) (it : Act σ E V T) (target : X → Act σ E V Unit)
      (body orelse : Block σ E V Q T I X)
  /-- Over a tuple of length `n` in a variable, which `read` reads. -/
  | forVar (n : Nat) (read : σ → T) (target : X → Act σ E V Unit)
      (body orelse : Block σ E V Q T I X)
  /-- Over anything else; `it` also makes the iterator. -/
  | forIter (line : Nat) (it : Act σ E V I) (target : X → Act σ E V Unit)
      (body orelse : Block σ E V Q T I X)
  | brk
  | cont
  | ret (e : Act σ E V V)
/-- Lists of statements. -/
inductive Block (σ E V Q T I X : Type) where
  | nil
  | cons (s : Stmt σ E V Q T I X) (rest : Block σ E V Q T I X)
end

variable {σ E V Q T I X P α : Type}

/-- Evaluate an expression and go on with its value. -/
def bindR {S : Type} (f : S → S × Except (Exc E V) α) (k : α → S → Res S E V P) (s : S) :
    Res S E V P :=
  match f s with
  | (s', .error e) => some (.exc e, s')
  | (s', .ok a) => k a s'

/-- A loop over a sequence, from index `i` on, at most `n` rounds: whether there is another item
is decided anew in every round. -/
def seqFor (p : Iter σ E V Q T I X) (q : Q) (target : X → Act σ E V Unit)
    (body orelse : σ → Res σ E V P) : Nat → Nat → σ → Res σ E V P
  | 0, _, _ => none
  | n + 1, i, s =>
    if i < p.size q s then
      bindR (p.item q i) (fun x => bindR (target x) (fun _ s' =>
        againR (seqFor p q target body orelse n (i + 1)) (body s'))) s
    else orelse s

/-- A loop over the given items. -/
def listFor (target : X → Act σ E V Unit) (body orelse : σ → Res σ E V P) :
    List X → σ → Res σ E V P
  | [], s => orelse s
  | x :: l, s => bindR (target x) (fun _ s' => againR (listFor target body orelse l) (body s')) s

/-- A loop over an iterator, at most `n` rounds. -/
def iterFor (p : Iter σ E V Q T I X) (i : I) (target : X → Act σ E V Unit)
    (body orelse : σ → Res σ E V P) : Nat → σ → Res σ E V P
  | 0, _ => none
  | n + 1, s => bindR (p.step i) (fun
      | none => orelse
      | some x => bindR (target x) (fun _ s' =>
          againR (iterFor p i target body orelse n) (body s'))) s

/-- The first `n` items of a tuple. -/
def items (p : Iter σ E V Q T I X) (n : Nat) (t : T) : List X := (List.range n).map (p.elem t)

mutual
/-- Run a statement as Python does; `N` bounds the rounds of loops. -/
def exec (p : Iter σ E V Q T I X) (N : Nat) : Stmt σ E V Q T I X → σ → Res σ E V Empty
  | .prim f, s => bindR f (fun _ s' => some (.norm, s')) s
  | .ite t b o, s => condR t (execB p N b) (execB p N o) s
  | .whl t b o, s => loopN t (execB p N b) (execB p N o) N s
  | .forSeq _ it target b o, s =>
    bindR it (fun q => seqFor p q target (execB p N b) (execB p N o) N 0) s
  | .forTup n it target b o, s =>
    bindR it (fun t => listFor target (execB p N b) (execB p N o) (items p n t)) s
  | .forVar n read target b o, s =>
    listFor target (execB p N b) (execB p N o) (items p n (read s)) s
  | .forIter _ it target b o, s =>
    bindR it (fun i => iterFor p i target (execB p N b) (execB p N o) N) s
  | .brk, s => some (.brk, s)
  | .cont, s => some (.cont, s)
  | .ret e, s => bindR e (fun v s' => some (.ret (some v), s')) s
/-- Run a list of statements. -/
def execB (p : Iter σ E V Q T I X) (N : Nat) : Block σ E V Q T I X → σ → Res σ E V Empty
  | .nil, s => some (.norm, s)
  | .cons x r, s => seqR (execB p N r) (exec p N x s)
end

/-- How a call ends. -/
inductive Fin (E V : Type) where
  /-- It returns a value; `none` is Python's `None` where there is no `return`. -/
  | value (v : Option V)
  | raised (e : Exc E V)
  /-- Control comes where it must not come: in a native program, behind the last instruction. -/
  | lost

/-- Call a function with this body: how it ends, and the state then. -/
def call (p : Iter σ E V Q T I X) (N : Nat) (b : Block σ E V Q T I X) (s : σ) :
    Option (Fin E V × σ) :=
  match execB p N b s with
  | none => none
  | some (.norm, s') => some (.value none, s')
  | some (.ret v, s') => some (.value v, s')
  | some (.exc e, s') => some (.raised e, s')
  | some (_, s') => some (.lost, s')

end Verif.Loops
