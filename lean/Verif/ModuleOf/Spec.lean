import Verif.ModuleOf.Model
/-
What is said about modules.
-/
namespace Verif.ModuleOf

open TypeFn (Ty)

/-- The types that a step mentions. -/
def Op.types : Op → List Ty
  | .set _ t | .define _ t | .resolve _ t => [t]
  | _ => []

/-- A program mentions only forwards that it has got. -/
def Honest (contains : Contains) (s : State) : List Op → Prop
  | [] => True
  | op :: ops => (∀ t ∈ op.types, ∀ j ∈ t.fwds, j < s.forwards) ∧ (∀ i t, op = .resolve i t → i < s.forwards) ∧ Honest contains (step contains s op) ops

/-- The program makes no forwards but through the module. -/
def OnlyModule (ops : List Op) : Prop := ∀ op ∈ ops, op ≠ .forward

/-- The step assigns to the member. -/
def Assigns (x : String) : Op → Prop
  | .set y _ | .define y _ => x = y
  | _ => False

/-- The step defines the forward itself. -/
def Resolves (i : Nat) : Op → Prop
  | .resolve j _ => i = j
  | _ => False

end Verif.ModuleOf
