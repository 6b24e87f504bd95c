import Verif.Native.Model
/-
Which native expressions are well formed: temporaries are activated inside the `Finally` that tears
them down, and not inside a loop, a `TryCatch` or a named `Finally` within it.
-/
namespace Verif.Native

mutual
/-- The tags that `Finally` expressions in here tear down. -/
def E.decl : E → List Tag
  | .skip | .act .. | .activates _ | .throw | .ret _ => []
  | .seq a b => a.decl ++ b.decl
  | .branch _ a b => a.decl ++ b.decl
  | .loop p _ b o => p.decl ++ (b.decl ++ o.decl)
  | .tryCatch e h => e.decl ++ h.decl
  | .propagate e h => e.decl ++ h.decl
  | .finally e tds _ => tds.tags ++ (e.decl ++ tds.decl)
/-- The same for the expressions of teardowns. -/
def Tds.decl : Tds → List Tag
  | .nil => []
  | .always e rest => e.decl ++ rest.decl
  | .byTag _ e rest => e.decl ++ rest.decl
end

mutual
/-- The tags that are activated in here for a `Finally` outside. -/
def E.acts : E → List Tag
  | .skip | .act .. | .throw | .ret _ => []
  | .activates t => [t]
  | .seq a b => a.acts ++ b.acts
  | .branch _ a b => a.acts ++ b.acts
  | .loop p _ b o => p.acts ++ (b.acts ++ o.acts)
  | .tryCatch e h => e.acts ++ h.acts
  | .propagate e h => e.acts ++ h.acts
  | .finally e tds _ => (e.acts.filter fun t => !tds.tags.contains t) ++ tds.acts
/-- The same for the expressions of teardowns. -/
def Tds.acts : Tds → List Tag
  | .nil => []
  | .always e rest => e.acts ++ rest.acts
  | .byTag _ e rest => e.acts ++ rest.acts
end

/-- May the expression end normally, as far as its form goes? -/
def E.falls : E → Bool
  | .skip | .act .. | .activates _ => true
  | .throw | .ret _ => false
  | .seq a b => a.falls && b.falls
  | .branch _ a b => a.falls || b.falls
  | .loop _ _ _ o => o.falls
  | .tryCatch _ _ => true
  | .propagate e _ => e.falls
  | .finally e _ name => name.isSome || e.falls

mutual
/-- Well formed, inside `Finally`s with these names: jumps have a target; a tag is activated at most
once on every path, and not inside a loop, a `TryCatch` or a named `Finally` within the one that tears
it down; conditions and teardowns may end normally, the handler of an `ExceptionPropagator` may not. -/
def E.Wf (names : List Name) : E → Prop
  | .skip | .act .. | .throw | .activates _ | .ret none => True
  | .ret (some nm) => nm ∈ names
  | .seq a b => a.Wf names ∧ b.Wf names ∧ ∀ t ∈ a.acts, t ∉ b.acts
  | .branch _ a b => a.Wf names ∧ b.Wf names
  | .loop p _ b o => p.Wf names ∧ b.Wf names ∧ o.Wf names ∧ p.falls = true ∧
      p.acts = [] ∧ b.acts = [] ∧ o.acts = []
  | .tryCatch e h => e.Wf names ∧ h.Wf names ∧ e.acts = [] ∧ h.acts = []
  | .propagate e h => e.Wf names ∧ h.Wf names ∧ h.acts = [] ∧ h.falls = false
  | .finally e tds name => e.Wf (name.toList ++ names) ∧ tds.Wf names ∧
      (name ≠ none → ∀ t ∈ e.acts, t ∈ tds.tags)
/-- The same for teardowns. -/
def Tds.Wf (names : List Name) : Tds → Prop
  | .nil => True
  | .always e rest => e.Wf names ∧ e.acts = [] ∧ e.falls = true ∧ rest.Wf names
  | .byTag _ e rest => e.Wf names ∧ e.acts = [] ∧ e.falls = true ∧ rest.Wf names
end

/-- A well formed body of a function: no two teardowns have the same tag, everything that is
activated has a teardown around it, and it does not end without returning. -/
def E.Ok (e : E) : Prop := e.decl.Nodup ∧ e.Wf [] ∧ e.acts = [] ∧ e.falls = false

end Verif.Native
