/-
Native expressions (typed_python/compiler/native_compiler/native_ast.py) as far as control flow and
teardowns are concerned, and what they mean.
-/
namespace Verif.Native

/-- Names of teardowns (`ActivatesTeardown`). -/
abbrev Tag := Nat
/-- Names of blocks (`Finally` with a name). -/
abbrev Name := String

mutual
/-- `Expression` (native_ast.py:561-627). Simplifications: all expressions that neither branch nor
jump are `act`s, which happen, and may throw if they call a function that can; values are left out;
the condition of a `Branch` is tested by `c` after whatever computes it, which is put before it in a
`seq`; a `While` keeps the computation of its condition in `pre`. -/
inductive E where
  | skip
  | act (a : Nat) (canThrow : Bool)
  | activates (t : Tag)
  | seq (a b : E)
  | branch (c : Nat) (yes no : E)
  | loop (pre : E) (c : Nat) (body orelse : E)
  | throw
  /-- `Return` with `blockName` (native_ast.py:604-607). -/
  | ret (name : Option Name)
  | tryCatch (e handler : E)
  | propagate (e handler : E)
  | finally (e : E) (teardowns : Tds) (name : Option Name)
/-- `Teardown`s (native_ast.py:297-302). -/
inductive Tds where
  | nil
  | always (e : E) (rest : Tds)
  | byTag (t : Tag) (e : E) (rest : Tds)
end

/-- What can be observed: acts, and (for the proofs) temporaries coming into being and being torn
down. -/
inductive Ev where
  | act (a : Nat)
  | made (t : Tag)
  | torn (t : Tag)
  deriving DecidableEq, Repr

/-- What the outside world decides, depending on everything that happened: which acts throw, and
how conditions turn out. -/
structure World where
  throws : List Ev → Nat → Bool
  test : List Ev → Nat → Bool

/-- How an expression ends. -/
inductive Out where
  | norm
  | exc
  | ret (name : Option Name)
  deriving DecidableEq, Repr

/-- Which teardowns are active. -/
abbrev Active := Tag → Bool

def Active.set (A : Active) (t : Tag) (b : Bool) : Active := fun u => if u = t then b else A u

/-- The tags of teardowns. -/
def Tds.tags : Tds → List Tag
  | .nil => []
  | .always _ rest => rest.tags
  | .byTag t _ rest => t :: rest.tags

/-- None of these is active. -/
def Active.clear (A : Active) (ts : List Tag) : Active := fun u => if u ∈ ts then false else A u

abbrev Res := Option (Out × Active × List Ev)

/-- Go on after a normal end. -/
def andThen (r : Res) (f : Active → List Ev → Res) : Res :=
  match r with
  | some (.norm, A, tr) => f A tr
  | r => r

/-- Go on after an exception. -/
def onExc (r : Res) (f : Active → List Ev → Res) : Res :=
  match r with
  | some (.exc, A, tr) => f A tr
  | r => r

/-- At most `n` rounds of a loop. -/
def rounds (pre body orelse : Active → List Ev → Res) (test : List Ev → Bool) :
    Nat → Active → List Ev → Res
  | 0, _, _ => none
  | n + 1, A, tr =>
      andThen (pre A tr) fun A1 tr1 =>
        if test tr1 then andThen (body A1 tr1) (rounds pre body orelse test n)
        else orelse A1 tr1

/-- How a `Finally` ends whose expression ended with `o` and whose teardowns ended with `o2`. -/
def settle (name : Option Name) (o o2 : Out) : Out :=
  match o2 with
  | .norm => if o = .ret name ∧ name ≠ none then .norm else o
  | o2 => o2

/-- The teardowns of a `Finally`, after its expression, whose result is `r`. Afterwards none of its
tags is active. -/
def finish (tds : Active → List Ev → Res) (tags : List Tag) (name : Option Name) (r : Res) : Res :=
  match r with
  | none => none
  | some (o, A1, tr1) =>
      match tds A1 tr1 with
      | none => none
      | some (o2, A2, tr2) => some (settle name o o2, A2.clear tags, tr2)

mutual
/-- What native expressions mean, by the comments in native_ast.py:583-613: `Finally` evaluates its
expression and then calls the teardowns that are unconditional or were activated, however the
expression ended; a `Return` to its name ends there; `TryCatch` evaluates its handler if the
expression throws. With `fuel` rounds for every loop; `none` if that is not enough. -/
def eval (w : World) (fuel : Nat) : E → Active → List Ev → Res
  | .skip, A, tr => some (.norm, A, tr)
  | .act a ct, A, tr =>
      some (if ct && w.throws tr a then .exc else .norm, A, tr ++ [.act a])
  | .activates t, A, tr => some (.norm, A.set t true, tr ++ [.made t])
  | .seq a b, A, tr =>
      andThen (eval w fuel a A tr) (eval w fuel b)
  | .branch c yes no, A, tr => if w.test tr c then eval w fuel yes A tr else eval w fuel no A tr
  | .loop pre c body orelse, A, tr =>
      rounds (eval w fuel pre) (eval w fuel body) (eval w fuel orelse) (fun tr => w.test tr c) fuel A tr
  | .throw, A, tr => some (.exc, A, tr)
  | .ret name, A, tr => some (.ret name, A, tr)
  | .tryCatch e h, A, tr =>
      onExc (eval w fuel e A tr) (eval w fuel h)
  | .propagate e h, A, tr =>
      onExc (eval w fuel e A tr) (eval w fuel h)
  | .finally e tds name, A, tr =>
      finish (evalTds w fuel tds) tds.tags name (eval w fuel e (A.clear tds.tags) tr)
/-- The teardowns, in their order. One that throws ends them. -/
def evalTds (w : World) (fuel : Nat) : Tds → Active → List Ev → Res
  | .nil, A, tr => some (.norm, A, tr)
  | .always e rest, A, tr =>
      andThen (eval w fuel e A tr) (evalTds w fuel rest)
  | .byTag t e rest, A, tr =>
      if A t then
        andThen (eval w fuel e (A.set t false) (tr ++ [.torn t])) (evalTds w fuel rest)
      else evalTds w fuel rest A tr
end

end Verif.Native
