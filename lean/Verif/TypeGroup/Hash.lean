import Verif.TypeGroup.Model
import Mathlib.Data.List.Lex
/-
Hashes without collisions, and one of them.
-/
namespace Verif.TypeGroup

open HashOps

/-- What is assumed of the hash where two objects are told apart: no collisions.  `raw1 t` is `raw2 t 0`
(ShaHash.hpp:31-47) and the digest of nothing is `zero` (ShaHash.hpp:159-167), so nothing is assumed about
these. -/
structure Ideal (H : Type) [HashOps H] : Prop where
  raw1_inj : ∀ a b : Nat, (raw1 a : H) = raw1 b → a = b
  raw2_inj : ∀ a b c d : Nat, (raw2 a b : H) = raw2 c d → a = c ∧ b = d
  raw1_raw2 : ∀ a b c : Nat, (raw1 a : H) = raw2 b c → a = b
  sha_inj : ∀ s t : String, (sha s : H) = sha t → s = t
  add_inj : ∀ a b c d : H, add a b = add c d → add a b ≠ poison → a = c ∧ b = d
  add_zero_ne : ∀ a b : H, add a b ≠ zero
  add_raw1_ne : ∀ (a b : H) (n : Nat), add a b ≠ raw1 n
  add_raw2_ne : ∀ (a b : H) (n m : Nat), add a b ≠ raw2 n m
  raw1_ne_poison : ∀ n : Nat, (raw1 n : H) ≠ poison
  add_ne_poison : ∀ a b : H, a ≠ poison → b ≠ poison → add a b ≠ poison

/-- A hash without collisions: what was hashed.  `[5]` is poison. -/
abbrev Text := List Nat

instance : HashOps Text where
  zero := [2, 0, 0]
  raw1 a := [2, a, 0]
  raw2 a b := [2, a, b]
  sha s := if s = "" then [2, 0, 0] else 3 :: s.toList.map Char.toNat
  add a b := if a = [5] ∨ b = [5] then [5] else 4 :: a.length :: (a ++ b)
  poison := [5]
  add_poison h := by simp
  poison_add h := by simp

theorem text_ideal : Ideal Text where
  raw1_inj a b h := by simpa [raw1] using h
  raw2_inj a b c d h := by simpa [raw2] using h
  raw1_raw2 a b c h := by
    have h : ([2, a, 0] : List Nat) = [2, b, c] := h
    simp only [List.cons.injEq] at h
    exact h.2.1
  sha_inj s t h := by
    have h : (if s = "" then [2, 0, 0] else 3 :: s.toList.map Char.toNat)
      = (if t = "" then [2, 0, 0] else 3 :: t.toList.map Char.toNat) := h
    split at h <;> split at h <;> rename_i h1 h2
    · rw [h1, h2]
    · simp at h
    · simp at h
    · simp only [List.cons.injEq, true_and] at h
      have : s.toList = t.toList := List.map_injective_iff.2 (fun a b e => Char.ext (UInt32.toNat_inj.1 e)) h
      exact String.toList_inj.1 this
  add_inj a b c d h hp := by
    have h : (if a = [5] ∨ b = [5] then [5] else 4 :: a.length :: (a ++ b))
      = (if c = [5] ∨ d = [5] then [5] else 4 :: c.length :: (c ++ d)) := h
    have hp : ¬ (if a = [5] ∨ b = [5] then [5] else 4 :: a.length :: (a ++ b)) = [5] := hp
    by_cases h1 : a = [5] ∨ b = [5]
    · rw [if_pos h1] at hp; exact absurd rfl hp
    · rw [if_neg h1] at h
      by_cases h2 : c = [5] ∨ d = [5]
      · rw [if_pos h2] at h; simp at h
      · rw [if_neg h2] at h
        simp only [List.cons.injEq, true_and] at h
        exact List.append_inj h.2 h.1
  add_zero_ne a b := by
    show ¬ (if a = [5] ∨ b = [5] then [5] else 4 :: a.length :: (a ++ b)) = [2, 0, 0]
    split <;> simp
  add_raw1_ne a b n := by
    show ¬ (if a = [5] ∨ b = [5] then [5] else 4 :: a.length :: (a ++ b)) = [2, n, 0]
    split <;> simp
  add_raw2_ne a b n m := by
    show ¬ (if a = [5] ∨ b = [5] then [5] else 4 :: a.length :: (a ++ b)) = [2, n, m]
    split <;> simp
  raw1_ne_poison n := by
    show ¬ [2, n, 0] = [5]
    simp
  add_ne_poison a b ha hb := by
    have ha : ¬ a = [5] := ha
    have hb : ¬ b = [5] := hb
    show ¬ (if a = [5] ∨ b = [5] then [5] else 4 :: a.length :: (a ++ b)) = [5]
    simp [ha, hb]

end Verif.TypeGroup
