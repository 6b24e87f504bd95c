import Verif.Comp.Spec
import Verif.Loops.Model
/-
How comprehensions are compiled: they become functions that yield the elements, whose code is
converted with every `yield` turned into an insertion into the container.
-/
namespace Verif.Comp
open Verif.Gen (Act Exc Out Res condR seqR againR loopN)
open Verif.Loops

variable {H E V W Q T I X Y A α : Type}

/-- The tests of one clause, put around the body one after another
(python_ast.py:1455-1460). -/
def wrapIfs (ρ : St H W A → Vars W) (body : Code H E V W Q T I X A) (ifs : List (Expr H E V W Bool)) :
    Code H E V W Q T I X A :=
  ifs.foldl (fun body t => one (.ite (eval ρ t) body .nil)) body

/-- The body of the function that a comprehension becomes (python_ast.py:1444-1479): one clause
after another is put around the `yield`.  The loops have no line number, so it is 0.

The hidden variables of a loop also contain the line of its target (for_loop_codegen.py:220-222);
the clauses of a comprehension are taken to be on one line.  That the code which is compiled is this
code is due to `evaluateFunctionPyAst` (python_ast.py:1497, 1318), which remembers it
(python_ast.py:1365-1402) before the comprehension itself would be remembered
(python_ast.py:1501). -/
def compiledCode (c : Comp H E V W Q T I X Y A) (outer : Vars W) : Code H E V W Q T I X A :=
  let ρ := view c.bound outer
  c.clauses.foldl (fun body cl => one (forStmt ρ 0 cl (wrapIfs ρ body cl.ifs)))
    (one (putStmt ρ c.elt c.put))

/-- Reading items does not depend on variables. -/
def liftValue (value : Q → Nat → Act H E V X) : Q → Nat → Act (St H W A) E V X :=
  fun q i s => ({ s with heap := (value q i s.heap).1 }, (value q i s.heap).2)

/-- A compiled comprehension (python_typed_function_wrapper.py:325-376,
function_conversion_context.py:2594-2599, 2621-2641, 2657-2666, 2689-2698, 2734-2743): the container
is empty when the function begins, every `yield` puts an element into it, and it is returned where
control flow comes to the end of the function.

Simplified: the variables of the enclosing function do not change while the comprehension runs. -/
def compiled (p : Iter H E V Q T I X) (value : Q → Nat → Act H E V X) (N : Nat)
    (c : Comp H E V W Q T I X Y A) (outer : Vars W) (h : H) : Option (Except (Exc E V) A × H) :=
  outcome (callCompiled (lift p) (liftValue value) N (compiledCode c outer)
    ⟨h, fun _ => none, c.empty⟩)

end Verif.Comp
