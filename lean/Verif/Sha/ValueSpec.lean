import Verif.Sha.Hashes
/-
What it means that hashes tell values apart.
-/
namespace Verif.Sha

/-- Two of the messages that were hashed, one in each list, are a collision of SHA-1. -/
def Collision (a b : List (List Byte)) : Prop := ∃ x ∈ a, ∃ y ∈ b, x ≠ y ∧ sha1 x = sha1 y

/-- One of the messages that were hashed has the digest `d`. -/
def Hits (a : List (List Byte)) (d : List Byte) : Prop := ∃ x ∈ a, sha1 x = d

/-- Types of Python values. -/
inductive Ty where
  | none | bool | int | float | str | bytes | other
  | tupleOf (t : Ty)

/-- Values of a type. -/
def Has : Ty → Val → Prop
  | .none, v => v = .none
  | .bool, v => ∃ b, v = .bool b
  | .int, v => ∃ i, v = .int i
  | .float, v => ∃ b, v = .float b
  | .str, v => ∃ u, v = .str u
  | .bytes, v => ∃ b, v = .bytes b
  | .other, v => ∃ s, v = .other s
  | .tupleOf t, v => ∃ vs, v = .tuple vs ∧ ∀ x ∈ vs, Has t x

end Verif.Sha
