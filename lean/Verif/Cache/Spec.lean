import Verif.Cache.Model
/-
What is to be expected of the cache, in terms of the directories on disk.
-/
namespace Verif.Cache

/-- A module that a new process can see: it has its name, it is not marked, and so for all modules that
it was linked with. -/
inductive Clean (d : Disk) : Hash → Prop
  | mk (h : Hash) : isNamed d h = true → isMarked d h = false →
      (∀ s ∈ (modOf d h).subs, Clean d s) → Clean d h

/-- All files of a module are there. -/
def Whole (d : Disk) (h : Hash) : Prop := ∀ f : File, canOpen d h f = true

/-- What can be used of a module includes the modules it was linked with. -/
def Closed (d : Disk) (env : Hash → Bool) : Prop :=
  ∀ h : Hash, isNamed d h = true → env h = true → ∀ s ∈ (modOf d h).subs, env s = true

/-- A step that a compiler may ask for: the functions it adds are different functions, and the table of
global variables, that every module has, is not among them and is not called. -/
def Step.Fine : Step → Prop
  | .add _ defs _ calls => defs.Nodup ∧ globalsName ∉ defs ∧ globalsName ∉ calls
  | _ => True

end Verif.Cache
