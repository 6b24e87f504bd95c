import Verif.DeepCopy.Model
/-
What a deep copy is, stated on heaps only.
-/
namespace Verif.DeepCopy.Spec
open Verif.DeepCopy

/-- `a` can be reached from the value `v`. -/
inductive Reach (h : Heap) (v : List Slot) : Nat → Prop
  | root {a} : Slot.ref a ∈ v → Reach h v a
  | step {a b o} : Reach h v a → h a = some o → Slot.ref b ∈ o.slots → Reach h v b

/-- A slot of the copy stands for a slot of the original: the same data, the corresponding object. -/
def mapSlot (m : Nat → Nat) : Slot → Slot
  | .ref a => .ref (m a)
  | s => s

/-- `h2, v2` is an isomorphic copy of `h, v`: there is a one-to-one map of the reachable objects to new objects which
preserves kinds, contents and all references (so sharing is preserved exactly), and nothing else is in `h2`. -/
def IsCopy (h : Heap) (v : List Slot) (h2 : Heap) (v2 : List Slot) : Prop :=
  ∃ m : Nat → Nat,
    (∀ a b, Reach h v a → Reach h v b → m a = m b → a = b) ∧
    v2 = v.map (mapSlot m) ∧
    (∀ a, Reach h v a → ∃ o o2, h a = some o ∧ h2 (m a) = some o2 ∧ o2.kind = o.kind ∧ o2.payload = o.payload ∧
      o2.slots = o.slots.map (mapSlot m)) ∧
    (∀ d o2, h2 d = some o2 → ∃ a, Reach h v a ∧ m a = d)

/-- A place that holds a reference: a slot of the value itself or of a heap object. -/
inductive Site
  | root (i : Nat)
  | field (p i : Nat)

/-- The place is part of the value and holds a reference to `x`. -/
def Holds (h : Heap) (v : List Slot) (x : Nat) : Site → Prop
  | .root i => v[i]? = some (Slot.ref x)
  | .field p i => ∃ o, Reach h v p ∧ h p = some o ∧ o.slots[i]? = some (Slot.ref x)

/-- Reference counts do not understate: an object whose count is 1 is held in at most one place. -/
def HonestCounts (h : Heap) (v : List Slot) : Prop :=
  ∀ x o, Reach h v x → h x = some o → o.refcount = 1 → ∀ s1 s2, Holds h v x s1 → Holds h v x s2 → s1 = s2

/-- No reference leads back to where it started: there is a height that drops along every reference. -/
def Acyclic (h : Heap) (v : List Slot) (height : Nat → Nat) : Prop :=
  ∀ a o b, Reach h v a → h a = some o → Slot.ref b ∈ o.slots → height b < height a

/-- Every reference leads to an object. -/
def Closed (h : Heap) (v : List Slot) : Prop := ∀ a, Reach h v a → ∃ o, h a = some o

/-- Strings and bytes contain characters only. -/
def PlainStrings (h : Heap) (v : List Slot) : Prop :=
  ∀ a o, Reach h v a → h a = some o →
    ((∃ n w, o.kind = .str n w) ∨ (∃ n, o.kind = .bytes n)) → o.slots = []

/-- The value holds no `TypedCell`. -/
def NoCells (h : Heap) (v : List Slot) : Prop := ∀ a o, Reach h v a → h a = some o → ∀ b, o.kind ≠ .cell b

/-- Every class member in the value has been initialised. -/
def Initialised (h : Heap) (v : List Slot) : Prop :=
  (∀ w, Slot.uninit w ∉ v) ∧ ∀ a o, Reach h v a → h a = some o → ∀ w, Slot.uninit w ∉ o.slots

/-- The number of references to `d` inside the copy: from the value and from the copied objects listed in `ds`. -/
def references (h2 : Heap) (v2 : List Slot) (ds : List Nat) (d : Nat) : Nat :=
  v2.count (Slot.ref d) + (ds.map (fun x => ((h2 x).map (fun o => o.slots.count (Slot.ref d))).getD 0)).sum

end Verif.DeepCopy.Spec
