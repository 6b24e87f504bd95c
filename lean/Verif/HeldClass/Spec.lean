/-
An instance as its user sees it: for each member, its value or "not initialised".
-/
namespace Verif.HeldClass.Spec

/-- The attributes of an instance. -/
abbrev Attrs := Nat → Option Nat

/-- The effect of `x.k = v`. -/
def put (a : Attrs) (k v : Nat) : Attrs := fun j => if j = k then some v else a j

/-- The effect of `del x.k`. -/
def drop (a : Attrs) (k : Nat) : Attrs := fun j => if j = k then none else a j

end Verif.HeldClass.Spec
