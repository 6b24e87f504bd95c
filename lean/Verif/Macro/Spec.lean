import Verif.Macro.Model
/-
Specification for C124.
-/
namespace Verif.Macro

/-- What a macro function has to return, as its documentation says: a dictionary of a list of lines, of which the last is `return` and a name, and
a dictionary from variable names. -/
def Proper (valid : Text → Bool) (r : Returned) (body : List Text) (ret : Text) (ns : List (Text × Val)) : Prop :=
  r = .dict (some (.list ((body ++ ["return ".toList ++ ret]).map Line.text))) (some (.dict (ns.map fun x => (some x.1, x.2)))) 0 ∧
    ∀ x ∈ ns, valid x.1 = true

/-- The lines, each with its end. -/
def program (body : List Text) : Text := (body.map (· ++ ['\n'])).flatten

/-- The namespace in which the program is executed: what was returned hides the globals of the macro's function. -/
def Sees (globals : Env) (ns : List (Text × Val)) (env : Env) : Prop :=
  ∀ n, (∀ v, ns.lookup n = some v → env n = some v) ∧ (ns.lookup n = none → env n = globals n)

/-- The history clears no caches. -/
def NoClear (ops : List Op) : Prop := ∀ op ∈ ops, op ≠ .clear

/-- Every macro is made from a function at another place. -/
def Apart : List Op → Prop
  | [] => True
  | .make file line :: ops => (∀ op ∈ ops, op ≠ .make file line) ∧ Apart ops
  | _ :: ops => Apart ops

/-- No file on any disk has a name like that of a macro's code. -/
def NoStash (ops : List Op) : Prop :=
  ∀ op ∈ ops, ∀ disk path, op = .read disk path → ∀ f l c, disk (fileName f l c) = none

end Verif.Macro
