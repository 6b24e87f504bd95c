import Verif.Scope.Model
/-
Default values of nested functions. The compiler builds the function object of a nested `def` or
lambda once, while it compiles the enclosing function, by evaluating its definition with every local
variable bound to `None` (function_conversion_context.py:951-963, python_ast.py:1405-1503). The
default values this leaves in the function object are what calls from compiled code pass
(expression_conversion_context.py:886-887).
-/
namespace Verif.Scope

/-- A default value as written: a constant, a name, or an operation on others. -/
inductive Default (V : Type) where
  | const (v : V)
  | name (x : Name)
  | op (f : V → V → Option V) (a b : Default V)

/-- The names in it. -/
def Default.names {V : Type} : Default V → List Name
  | .const _ => []
  | .name x => [x]
  | .op _ a b => a.names ++ b.names

/-- Its value where names have these values; `none` is an exception. -/
def Default.eval {V : Type} (env : Name → Option V) : Default V → Option V
  | .const v => some v
  | .name x => env x
  | .op f a b =>
      match a.eval env with
      | none => none
      | some u =>
        match b.eval env with
        | none => none
        | some w => f u w

/-- Python evaluates it when the definition is executed: local variables have the values they have
then, others are global. -/
def Default.python {V : Type} (locals : List Name) (frame globals : Name → Option V)
    (d : Default V) : Option V :=
  d.eval fun x => if x ∈ locals then frame x else globals x

/-- What the compiler passes: `locals={name: None for name in (self.variablesBound |
self.variablesAssigned)}` (function_conversion_context.py:954-958), the arguments of the function
that is built around the definition (python_ast.py:1485-1499), and the globals of that time. -/
def Default.compiled {V : Type} (noneValue : V) (locals : List Name) (globals : Name → Option V)
    (d : Default V) : Option V :=
  d.eval fun x => if x ∈ locals then some noneValue else globals x

theorem Default.eval_congr {V : Type} {e1 e2 : Name → Option V} : ∀ (d : Default V),
    (∀ x ∈ d.names, e1 x = e2 x) → d.eval e1 = d.eval e2
  | .const _, _ => rfl
  | .name x, h => h x (by simp [Default.names])
  | .op f a b, h => by
      simp only [Default.eval]
      rw [Default.eval_congr a fun x hx => h x (by simp [Default.names, hx]),
        Default.eval_congr b fun x hx => h x (by simp [Default.names, hx])]

end Verif.Scope
