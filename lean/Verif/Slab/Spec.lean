/-
What a user of a slab relies on, stated on the extents handed out and without the allocator.
-/
namespace Verif.Slab.Spec

/-- An extent of memory: first byte and number of bytes. -/
structure Extent where
  start : Nat
  len : Nat

/-- Two extents share no byte. -/
def Disjoint (a b : Extent) : Prop := ∀ x, ¬ (a.start ≤ x ∧ x < a.start + a.len ∧ b.start ≤ x ∧ x < b.start + b.len)

/-- Every byte of the extent lies in a region of `size` bytes starting at 0. -/
def Inside (size : Nat) (a : Extent) : Prop := a.start + a.len ≤ size

/-- The least multiple of `A` that is at least `n`, plus one header of `A` bytes; nothing for an empty request. -/
def Footprint (A n r : Nat) : Prop :=
  (n = 0 ∧ r = 0) ∨ (0 < n ∧ ∃ m, A ∣ m ∧ n ≤ m ∧ (∀ k, A ∣ k → n ≤ k → m ≤ k) ∧ r = m + A)

/-- Bytes the free store holds for a list of live block sizes, one header of `A` bytes each. -/
def liveBytes (A : Nat) (sizes : List Nat) : Int := (sizes.map (fun n => ((n + A : Nat) : Int))).sum

end Verif.Slab.Spec
