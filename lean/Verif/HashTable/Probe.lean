import Verif.HashTable.Model
import Mathlib.Data.Fintype.EquivFin
import Mathlib.Data.Nat.Prime.Basic
import Mathlib.Data.Nat.ModEq
import Mathlib.Tactic.Ring
import Mathlib.Tactic.Linarith

/-!
# The probe sequence reaches every index

`x ↦ 5x + 1` modulo a power of two is a single cycle, and the perturbation has become zero after 13 steps.
-/

namespace Verif.HashTable

/-- `1 + 5 + … + 5^(n-1)`. -/
def S : Nat → Nat
  | 0 => 0
  | n + 1 => 5 * S n + 1

/-- `n` steps of `x ↦ 5x + 1`. -/
def it5 (a : Nat) : Nat → Nat
  | 0 => a
  | n + 1 => 5 * it5 a n + 1

theorem four_S (n : Nat) : 4 * S n + 1 = 5 ^ n := by
  induction n with
  | zero => rfl
  | succ n ih => simp only [S]; rw [Nat.pow_succ]; omega

theorem S_add (m n : Nat) : S (m + n) = 5 ^ m * S n + S m := by
  have a := four_S (m + n)
  have b := four_S m
  have c := four_S n
  have : 4 * S (m + n) = 4 * (5 ^ m * S n + S m) := by
    rw [pow_add] at a
    have : 5 ^ m * 5 ^ n = 5 ^ m * (4 * S n + 1) := by rw [c]
    nlinarith
  omega

theorem it5_eq (a n : Nat) : it5 a n = 5 ^ n * a + S n := by
  induction n with
  | zero => simp [it5, S]
  | succ n ih => simp only [it5, S, ih, Nat.pow_succ]; ring

theorem S_mod_two (n : Nat) : S n % 2 = n % 2 := by
  induction n with
  | zero => rfl
  | succ n ih => simp only [S]; omega

theorem S_double (m : Nat) : S (m + m) = S m * (2 * (2 * S m + 1)) := by
  rw [S_add, ← four_S m]; ring

theorem dvd_of_dvd_S : ∀ (p d : Nat), 2 ^ p ∣ S d → 2 ^ p ∣ d := by
  intro p
  induction p with
  | zero => intro d _; simp
  | succ p ih =>
    intro d h
    have h2 : 2 ∣ S d := Nat.dvd_trans (by rw [Nat.pow_succ]; exact Nat.dvd_mul_left _ _) h
    have hd : d % 2 = 0 := by have := S_mod_two d; omega
    obtain ⟨m, rfl⟩ : ∃ m, d = m + m := ⟨d / 2, by omega⟩
    rw [S_double, Nat.pow_succ] at h
    have h3 : 2 ^ p * 2 ∣ (S m * (2 * S m + 1)) * 2 := by
      have e : S m * (2 * (2 * S m + 1)) = (S m * (2 * S m + 1)) * 2 := by ring
      rwa [e] at h
    have h4 : 2 ^ p ∣ S m * (2 * S m + 1) := Nat.dvd_of_mul_dvd_mul_right (by decide) h3
    have co : Nat.Coprime (2 ^ p) (2 * S m + 1) := by
      apply Nat.Coprime.pow_left
      rw [Nat.coprime_two_left]; exact ⟨S m, rfl⟩
    have h5 := ih m (co.dvd_of_dvd_mul_right h4)
    have : m + m = m * 2 := by omega
    rw [this, Nat.pow_succ]
    exact Nat.mul_dvd_mul_right h5 2

theorem it5_inj (p a m d : Nat) (h : it5 a (m + d) % 2 ^ p = it5 a m % 2 ^ p) : 2 ^ p ∣ d := by
  have e : it5 a (m + d) = it5 a m + 5 ^ m * (S d * (4 * a + 1)) := by
    rw [it5_eq, it5_eq, S_add, pow_add, ← four_S d]; ring
  rw [e] at h
  have h1 : 2 ^ p ∣ 5 ^ m * (S d * (4 * a + 1)) := by
    have : it5 a m + 5 ^ m * (S d * (4 * a + 1)) ≡ it5 a m + 0 [MOD 2 ^ p] := h
    exact (Nat.modEq_zero_iff_dvd).1 (Nat.ModEq.add_left_cancel' _ this)
  have co : Nat.Coprime (2 ^ p) (5 ^ m) := by
    apply Nat.Coprime.pow_left; apply Nat.Coprime.pow_right; decide
  have co2 : Nat.Coprime (2 ^ p) (4 * a + 1) := by
    apply Nat.Coprime.pow_left
    rw [Nat.coprime_two_left]; exact ⟨2 * a, by omega⟩
  exact dvd_of_dvd_S p d (co2.dvd_of_dvd_mul_right (co.dvd_of_dvd_mul_left h1))

/-- Every residue is met within one period. -/
theorem it5_cover (p a i : Nat) (hi : i < 2 ^ p) : ∃ m, m < 2 ^ p ∧ it5 a m % 2 ^ p = i := by
  let F : Fin (2 ^ p) → Fin (2 ^ p) := fun m => ⟨it5 a m % 2 ^ p, Nat.mod_lt _ (Nat.two_pow_pos p)⟩
  have key : ∀ m n : Nat, m < n → n < 2 ^ p → it5 a n % 2 ^ p ≠ it5 a m % 2 ^ p := by
    intro m n hmn hn h
    have e : n = m + (n - m) := by omega
    rw [e] at h
    have := Nat.le_of_dvd (by omega) (it5_inj p a m (n - m) h)
    omega
  have inj : Function.Injective F := by
    intro x y h
    have h' : it5 a x % 2 ^ p = it5 a y % 2 ^ p := congrArg Fin.val h
    rcases Nat.lt_trichotomy x.1 y.1 with c | c | c
    · exact absurd h'.symm (key _ _ c y.2)
    · exact Fin.ext c
    · exact absurd h' (key _ _ c x.2)
  obtain ⟨m, hm⟩ := Finite.surjective_of_injective inj ⟨i, hi⟩
  exact ⟨m.1, m.2, congrArg Fin.val hm⟩

/-- The state of the probe loop after `n` steps. -/
def off (h : Nat) : Nat → Nat × Nat
  | 0 => (h, h)
  | n + 1 => (nextOffset (off h n).1 (off h n).2, nextPerturb (off h n).2)

/-- The index probed after `n` steps. -/
def idx (size h n : Nat) : Nat := (off h n).1 &&& (size - 1)

theorem off_snd (h n : Nat) : (off h n).2 = h / 32 ^ n := by
  induction n with
  | zero => simp [off]
  | succ n ih => simp only [off, nextPerturb, ih, Nat.pow_succ, Nat.div_div_eq_div_mul]

theorem idx_pow (p h n : Nat) : idx (2 ^ p) h n = (off h n).1 % 2 ^ p := by
  rw [idx, Nat.and_two_pow_sub_one_eq_mod]

theorem idx_lt (p h n : Nat) : idx (2 ^ p) h n < 2 ^ p := by
  rw [idx_pow]; exact Nat.mod_lt _ (Nat.two_pow_pos p)

theorem off_tail (h : Nat) (hh : h < 2 ^ 64) (a : Nat) (ha : (off h 13).1 = a) (n : Nat) :
    (off h (13 + n)).1 % 2 ^ 64 = it5 a n % 2 ^ 64 := by
  induction n with
  | zero => rw [Nat.add_zero, ha]; rfl
  | succ n ih =>
    have e : 13 + (n + 1) = (13 + n) + 1 := by omega
    have z : (off h (13 + n)).2 = 0 := by
      rw [off_snd]
      apply Nat.div_eq_of_lt
      have : 32 ^ 13 ≤ 32 ^ (13 + n) := Nat.pow_le_pow_right (by decide) (by omega)
      have : (2 : Nat) ^ 64 < 32 ^ 13 := by decide
      omega
    rw [e, off.eq_2, it5.eq_2]
    simp only [nextOffset, z]
    omega

/-- Within `size + 13` probes every index has been looked at. -/
theorem idx_cover (p h i : Nat) (hp : p ≤ 64) (hh : h < 2 ^ 64) (hi : i < 2 ^ p) :
    ∃ n, n < 2 ^ p + 13 ∧ idx (2 ^ p) h n = i := by
  obtain ⟨m, hm, e⟩ := it5_cover p (off h 13).1 i hi
  refine ⟨13 + m, by omega, ?_⟩
  rw [idx_pow, ← e]
  have d : 2 ^ p ∣ 2 ^ 64 := Nat.pow_dvd_pow 2 hp
  rw [← Nat.mod_mod_of_dvd _ d, off_tail h hh _ rfl, Nat.mod_mod_of_dvd _ d]

theorem u64_lt (x : Int) : u64 x < 2 ^ 64 := by
  unfold u64
  omega

end Verif.HashTable
