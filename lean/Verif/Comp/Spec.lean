import Verif.Loops.Spec
/-
The specification of comprehensions: what `[elt for ... if ... for ... if ...]`, and the same in
braces, is in Python.

"The elements of the new container are those that would be produced by considering each of the
`for` or `if` clauses a block, nesting from left to right, and evaluating the expression to
produce an element each time the innermost block is reached."  "The iterable expression in the
leftmost `for` clause is evaluated directly in the enclosing scope and then passed as an argument to
the implicitly nested scope."  (The Python language reference, 6.2.4.)

Blocks are those of `Verif.Loops.Spec`.
-/
namespace Verif.Comp
open Verif.Gen (Act Exc Out Res condR seqR againR loopN)
open Verif.Loops

/-- The values of variables; `none` for a variable that has none. -/
abbrev Vars (W : Type) := String → Option W

/-- An expression: it may read variables and may do anything to the heap, of type `H`. -/
abbrev Expr (H E V W α : Type) := Vars W → Act H E V α

/-- What follows `in`, by the kinds of types that the compiler distinguishes: a sequence, a tuple of
length `n`, a variable that holds such a tuple, an iterator. -/
inductive Source (H E V W Q T I : Type) where
  | seq (e : Expr H E V W Q)
  | tup (n : Nat) (e : Expr H E V W T)
  | var (n : Nat) (read : Vars W → T)
  | iter (e : Expr H E V W I)

/-- `for target in source if ... if ...`.  `names` are the variables in the target, `assign`
assigns an item to them. -/
structure Clause (H E V W Q T I X : Type) where
  names : List String
  assign : X → Vars W → Except (Exc E V) (Vars W)
  source : Source H E V W Q T I
  ifs : List (Expr H E V W Bool)

/-- A comprehension.  `A` is the type of the container that it makes, `put` puts an element into
it (`append`, `add`, or the assignment of an item of a dictionary, where an element is a key and a
value), `empty` is the empty container. -/
structure Comp (H E V W Q T I X Y A : Type) where
  first : Clause H E V W Q T I X
  rest : List (Clause H E V W Q T I X)
  elt : Expr H E V W Y
  put : A → Y → Except (Exc E V) A
  empty : A

variable {H E V W Q T I X Y A α : Type}

/-- All clauses. -/
def Comp.clauses (c : Comp H E V W Q T I X Y A) : List (Clause H E V W Q T I X) := c.first :: c.rest

/-- The variables that are bound in the comprehension. -/
def Comp.bound (c : Comp H E V W Q T I X Y A) : List String := c.clauses.flatMap (·.names)

/-- What a comprehension runs in: the heap, its own variables, and the container so far. -/
structure St (H W A : Type) where
  heap : H
  loc : Vars W
  acc : A

/-- The variables that can be seen in the comprehension: those that it binds are its own. -/
def view (bound : List String) (outer : Vars W) (s : St H W A) : Vars W :=
  fun n => if n ∈ bound then s.loc n else outer n

/-- Evaluate an expression with these variables. -/
def eval (ρ : St H W A → Vars W) (e : Expr H E V W α) : Act (St H W A) E V α := fun s =>
  ({ s with heap := (e (ρ s) s.heap).1 }, (e (ρ s) s.heap).2)

/-- Assign an item to the target. -/
def bind (f : X → Vars W → Except (Exc E V) (Vars W)) (x : X) : Act (St H W A) E V Unit := fun s =>
  match f x s.loc with
  | .ok l => ({ s with loc := l }, .ok ())
  | .error e => (s, .error e)

/-- How things are iterated over does not depend on variables. -/
def lift (p : Iter H E V Q T I X) : Iter (St H W A) E V Q T I X where
  size q s := p.size q s.heap
  item q i s := ({ s with heap := (p.item q i s.heap).1 }, (p.item q i s.heap).2)
  elem := p.elem
  step i s := ({ s with heap := (p.step i s.heap).1 }, (p.step i s.heap).2)

/-- The statements of a function. -/
abbrev Code (H E V W Q T I X A : Type) := Block (St H W A) E V Q T I X

/-- A list of one statement. -/
def one (s : Stmt (St H W A) E V Q T I X) : Code H E V W Q T I X A := .cons s .nil

/-- `for target in source: body`, where the variables that the source sees are `ρ`. -/
def forStmt (ρ : St H W A → Vars W) (line : Nat) (c : Clause H E V W Q T I X)
    (body : Code H E V W Q T I X A) : Stmt (St H W A) E V Q T I X :=
  match c.source with
  | .seq e => .forSeq line (eval ρ e) (bind c.assign) body .nil
  | .tup n e => .forTup n (eval ρ e) (bind c.assign) body .nil
  | .var n read => .forVar n (fun s => read (ρ s)) (bind c.assign) body .nil
  | .iter e => .forIter line (eval ρ e) (bind c.assign) body .nil

/-- Evaluate the element and put it into the container. -/
def putStmt (ρ : St H W A → Vars W) (elt : Expr H E V W Y)
    (put : A → Y → Except (Exc E V) A) :
    Stmt (St H W A) E V Q T I X :=
  .prim (fun s =>
    match (eval ρ elt s : St H W A × Except (Exc E V) Y) with
    | (s', .error e) => (s', .error e)
    | (s', .ok y) =>
      match put s'.acc y with
      | .error e => (s', .error e)
      | .ok a => ({ s' with acc := a }, .ok ()))

/-- `if t1: if t2: ... body` -/
def ifsIn (ρ : St H W A → Vars W) : List (Expr H E V W Bool) → Code H E V W Q T I X A →
    Code H E V W Q T I X A
  | [], body => body
  | t :: ts, body => one (.ite (eval ρ t) (ifsIn ρ ts body) .nil)

/-- The clauses as blocks, nesting from left to right. -/
def nested (ρ : St H W A → Vars W) (innermost : Code H E V W Q T I X A) :
    List (Clause H E V W Q T I X) → Code H E V W Q T I X A
  | [] => innermost
  | c :: cs => one (forStmt ρ 0 c (ifsIn ρ c.ifs (nested ρ innermost cs)))

/-- The comprehension as statements: only the leftmost iterable sees the enclosing scope. -/
def pythonCode (c : Comp H E V W Q T I X Y A) (outer : Vars W) : Code H E V W Q T I X A :=
  let ρ := view c.bound outer
  one (forStmt (fun _ => outer) 0 c.first
    (ifsIn ρ c.first.ifs (nested ρ (one (putStmt ρ c.elt c.put)) c.rest)))

/-- What comes of running that: the container or an exception, and the heap then. -/
def outcome : Option (Fin E V × St H W A) → Option (Except (Exc E V) A × H)
  | some (.value _, s) => some (.ok s.acc, s.heap)
  | some (.raised e, s) => some (.error e, s.heap)
  | _ => none

/-- A comprehension in Python. -/
def python (p : Iter H E V Q T I X) (N : Nat) (c : Comp H E V W Q T I X Y A) (outer : Vars W)
    (h : H) : Option (Except (Exc E V) A × H) :=
  outcome (call (lift p) N (pythonCode c outer) ⟨h, fun _ => none, c.empty⟩)

end Verif.Comp
