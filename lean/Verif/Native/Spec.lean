import Verif.Native.Shape
/-
What it means that temporaries are torn down exactly once.
-/
namespace Verif.Native

/-- Is the temporary alive after this event? `none` if it is torn down without being alive; if
`strict`, also if it is made while alive. -/
def lifeStep (strict : Bool) (t : Tag) : Option Bool → Ev → Option Bool
  | none, _ => none
  | some alive, .made u => if u = t then (if strict && alive then none else some true) else some alive
  | some alive, .torn u => if u = t then (if alive then some false else none) else some alive
  | some alive, .act _ => some alive

/-- Is the temporary alive after all of these? -/
def life (strict : Bool) (t : Tag) (tr : List Ev) : Option Bool := tr.foldl (lifeStep strict t) (some false)

/-- Every time a temporary is torn down, it was made before, and not torn down since. -/
def NeverTwice (tr : List Ev) : Prop := ∀ t, life false t tr ≠ none

/-- Temporaries are made and torn down in turns, and in the end all have been torn down. -/
def ExactlyOnce (tr : List Ev) : Prop := ∀ t, life true t tr = some false

mutual
/-- Nothing in here ever throws or jumps. -/
def E.Quiet (w : World) : E → Prop
  | .skip | .activates _ => True
  | .act a ct => ct = true → ∀ tr, w.throws tr a = false
  | .throw | .ret _ => False
  | .seq a b => a.Quiet w ∧ b.Quiet w
  | .branch _ a b => a.Quiet w ∧ b.Quiet w
  | .loop p _ b o => p.Quiet w ∧ b.Quiet w ∧ o.Quiet w
  | .tryCatch e h => e.Quiet w ∧ h.Quiet w
  | .propagate e h => e.Quiet w ∧ h.Quiet w
  | .finally e tds _ => e.Quiet w ∧ tds.Quiet w
/-- The same for teardowns. -/
def Tds.Quiet (w : World) : Tds → Prop
  | .nil => True
  | .always e rest => e.Quiet w ∧ rest.Quiet w
  | .byTag _ e rest => e.Quiet w ∧ rest.Quiet w
end

mutual
/-- No teardown ever throws. -/
def E.Calm (w : World) : E → Prop
  | .skip | .activates _ | .act .. | .throw | .ret _ => True
  | .seq a b => a.Calm w ∧ b.Calm w
  | .branch _ a b => a.Calm w ∧ b.Calm w
  | .loop p _ b o => p.Calm w ∧ b.Calm w ∧ o.Calm w
  | .tryCatch e h => e.Calm w ∧ h.Calm w
  | .propagate e h => e.Calm w ∧ h.Calm w
  | .finally e tds _ => e.Calm w ∧ tds.Calm w
/-- The same for teardowns. -/
def Tds.Calm (w : World) : Tds → Prop
  | .nil => True
  | .always e rest => e.Quiet w ∧ e.Calm w ∧ rest.Calm w
  | .byTag _ e rest => e.Quiet w ∧ e.Calm w ∧ rest.Calm w
end

end Verif.Native
