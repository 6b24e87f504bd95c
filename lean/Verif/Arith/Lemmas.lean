import Verif.Arith.Spec
import Mathlib.Tactic.Ring
import Mathlib.Tactic.Linarith
import Mathlib.Tactic.NormNum

namespace Verif.Arith
open Spec

/-! ### Wrap-around -/

theorem w64_id {x : Int} (h0 : -9223372036854775808 ≤ x) (h1 : x < 9223372036854775808) : w64 x = x := by
  unfold w64
  rw [Int.bmod_eq_of_le] <;> omega

theorem w64_spec (x : Int) :
    ∃ k, w64 x = x + 18446744073709551616 * k ∧ -9223372036854775808 ≤ w64 x ∧ w64 x < 9223372036854775808 := by
  refine ⟨(w64 x - x) / 18446744073709551616, ?_, ?_, ?_⟩
  · have h : (18446744073709551616 : Int) ∣ w64 x - x := by
      unfold w64
      exact Int.dvd_bmod_sub_self
    have := Int.mul_ediv_cancel' h
    omega
  · unfold w64
    have := @Int.le_bmod x (2^64) (by omega)
    omega
  · unfold w64
    have := @Int.bmod_lt x (2^64) (by omega)
    omega

theorem w64_neg_min : w64 (-(-9223372036854775808)) = -9223372036854775808 := by decide

/-- Values of 64-bit signed integers. -/
def I64 (x : Int) : Prop := -9223372036854775808 ≤ x ∧ x < 9223372036854775808
/-- Values of 64-bit unsigned integers. -/
def U64 (x : Int) : Prop := 0 ≤ x ∧ x < 18446744073709551616

theorem inRange_signed {t : ITy} (ht : IntType t) (hs : t.signed = true) {x : Int} (h : InRange t x) : I64 x := by
  obtain ⟨s, b⟩ := t
  simp only at hs; subst hs
  unfold IntType at ht; unfold InRange at h
  simp only [if_true] at *
  unfold I64
  rcases ht with rfl | rfl | rfl | rfl <;> norm_num at h <;> omega

theorem inRange_unsigned {t : ITy} (ht : IntType t) (hs : t.signed = false) {x : Int} (h : InRange t x) : U64 x := by
  obtain ⟨s, b⟩ := t
  simp only at hs; subst hs
  unfold IntType at ht; unfold InRange at h
  simp only [Bool.false_eq_true, if_false] at *
  unfold U64
  rcases ht with rfl | rfl | rfl | rfl <;> norm_num at h <;> omega

theorem wrap_id {t : ITy} (ht : IntType t) {x : Int} (h : InRange t x) : wrap t x = x := by
  obtain ⟨s, b⟩ := t
  unfold IntType at ht; unfold InRange at h; unfold wrap
  cases s
  · simp only [Bool.false_eq_true, if_false] at *
    rcases ht with rfl | rfl | rfl | rfl <;> norm_num at h ⊢ <;> omega
  · simp only [if_true] at *
    rcases ht with rfl | rfl | rfl | rfl <;> norm_num at h <;> rw [Int.bmod_eq_of_le] <;> omega

theorem wrap_inRange {t : ITy} (ht : IntType t) (x : Int) : InRange t (wrap t x) := by
  obtain ⟨s, b⟩ := t
  unfold IntType at ht; unfold InRange; unfold wrap
  cases s
  · simp only [Bool.false_eq_true, if_false] at *
    rcases ht with rfl | rfl | rfl | rfl <;> norm_num <;> omega
  · simp only [if_true] at *
    rcases ht with rfl | rfl | rfl | rfl
    · have h1 := @Int.le_bmod x (2^8) (by omega)
      have h2 := @Int.bmod_lt x (2^8) (by omega)
      norm_num at *; omega
    · have h1 := @Int.le_bmod x (2^16) (by omega)
      have h2 := @Int.bmod_lt x (2^16) (by omega)
      norm_num at *; omega
    · have h1 := @Int.le_bmod x (2^32) (by omega)
      have h2 := @Int.bmod_lt x (2^32) (by omega)
      norm_num at *; omega
    · have h1 := @Int.le_bmod x (2^64) (by omega)
      have h2 := @Int.bmod_lt x (2^64) (by omega)
      norm_num at *; omega

theorem wrap_congr (t : ITy) (x : Int) : Congruent t (wrap t x) x := by
  unfold Congruent wrap
  split
  · exact_mod_cast (Int.dvd_bmod_sub_self : ((2 ^ t.bits : Nat) : Int) ∣ _)
  · have h := @Int.dvd_self_sub_emod x ((2 ^ t.bits : Nat) : Int)
    have := (Int.dvd_neg).mpr h
    rw [Int.neg_sub] at this
    exact_mod_cast this

/-- Wrap-around only depends on the residue: a value wrapped at 64 bits first changes nothing. -/
theorem wrap_of_congr {t : ITy} {x y : Int} (h : Congruent t x y) : wrap t x = wrap t y := by
  unfold Congruent at h
  unfold wrap
  have h' : x % ((2 ^ t.bits : Nat) : Int) = y % ((2 ^ t.bits : Nat) : Int) := by
    exact Int.emod_eq_emod_iff_emod_sub_eq_zero.mpr
        (Int.emod_eq_zero_of_dvd (by exact_mod_cast h))
  split
  · unfold Int.bmod; rw [h']
  · exact h'

/-! ### Division facts -/

theorem emod_unique {x r y : Int} (k : Int) (h0 : 0 ≤ y) (h1 : y < r) (h : x = y + r * k) : x % r = y := by
  rw [h, Int.add_mul_emod_self_left, Int.emod_eq_of_lt h0 h1]

theorem tmod_pos {a b : Int} (ha : 0 ≤ a) : Int.tmod a b = a % b := Int.tmod_eq_emod_of_nonneg ha

theorem tmod_neg' {a b : Int} (ha : a ≤ 0) : Int.tmod a b = -((-a) % b) := by
  have : Int.tmod a b = Int.tmod (-(-a)) b := by rw [Int.neg_neg]
  rw [this, Int.neg_tmod, tmod_pos (by omega)]

theorem tdiv_pos {a b : Int} (ha : 0 ≤ a) : Int.tdiv a b = a / b := Int.tdiv_eq_ediv_of_nonneg ha

theorem fmod_pos {a b : Int} (hb : 0 < b) : Int.fmod a b = a % b := Int.fmod_eq_emod_of_nonneg a (by omega)

theorem fmod_neg' {a b : Int} (hb : b < 0) : Int.fmod a b = -((-a) % (-b)) := by
  have h : Int.fmod (-(-a)) (-(-b)) = - Int.fmod (-a) (-b) := Int.neg_fmod_neg ..
  rw [Int.neg_neg, Int.neg_neg] at h
  rw [h, fmod_pos (by omega)]

theorem fdiv_mul_add {a b : Int} : Int.fdiv a b * b + Int.fmod a b = a := Int.fdiv_mul_add_fmod a b


/-! ### The 64-bit functions -/

theorem w64_neg (r : Int) (h : I64 r) : w64 (-r) = -r ∨ (r = -9223372036854775808 ∧ w64 (-r) = r) := by
  unfold I64 at h
  by_cases hr : r = -9223372036854775808
  · right; subst hr; exact ⟨rfl, by decide⟩
  · left; exact w64_id (by omega) (by omega)

theorem crem_negr_nonneg {x r : Int} (hx : 0 ≤ x) (h : I64 r) : crem x (w64 (-r)) = x % (-r) := by
  unfold crem
  rw [tmod_pos hx]
  rcases w64_neg r h with h | ⟨_, h⟩
  · rw [h]
  · rw [h, Int.emod_neg]

theorem crem_negr_nonpos {x r : Int} (hx : x ≤ 0) (h : I64 r) : crem x (w64 (-r)) = -((-x) % (-r)) := by
  unfold crem
  rw [tmod_neg' hx]
  rcases w64_neg r h with h | ⟨_, h⟩
  · rw [h]
  · rw [h, Int.emod_neg]

theorem emod_neg_succ {x m : Int} (hm : 0 < m) : (-x) % m = m - ((x - 1) % m + 1) := by
  have h1 := Int.emod_add_mul_ediv (x - 1) m
  have h2 := Int.emod_nonneg (x - 1) (show m ≠ 0 by omega)
  have h3 := Int.emod_lt_of_pos (x - 1) hm
  apply emod_unique (-((x - 1) / m) - 1) (by omega) (by omega)
  have : m * (-((x - 1) / m) - 1) = -(m * ((x - 1) / m)) - m := by ring
  omega

theorem emod_le_self' {x m : Int} (hx : 0 ≤ x) (hm : 0 < m) : x % m ≤ x := by
  have h1 := Int.emod_add_mul_ediv x m
  have h2 : 0 ≤ m * (x / m) := Int.mul_nonneg (by omega) (Int.ediv_nonneg hx (by omega))
  omega

theorem w64_negr_sub {r x : Int} (hr : I64 r) (h1 : 1 ≤ x) (h2 : x ≤ -r) : w64 (w64 (-r) - x) = -r - x := by
  have hr' := hr
  unfold I64 at hr'
  rcases w64_neg r hr with h | ⟨h', h⟩
  · rw [h]; exact w64_id (by omega) (by omega)
  · rw [h]
    obtain ⟨k, hk, a1, a2⟩ := w64_spec (r - x)
    omega

theorem w64_negl_pred {l : Int} (hl : I64 l) (h1 : l < 0) : w64 (w64 (-l) - 1) = -l - 1 := by
  have hl' := hl
  unfold I64 at hl'
  rcases w64_neg l hl with h | ⟨h', h⟩
  · rw [h]; exact w64_id (by omega) (by omega)
  · rw [h]
    obtain ⟨k, hk, a1, a2⟩ := w64_spec (l - 1)
    omega

theorem rtModI_eq {l r : Int} (hl : I64 l) (hr : I64 r) (h0 : r ≠ 0)
    (hmin : ¬ (l = int64Min ∧ r < 0)) : rtModI l r = Int.fmod l r := by
  have hmin' : ¬ (l = -9223372036854775808 ∧ r < 0) := hmin
  unfold rtModI
  split
  · rename_i h
    rcases h with rfl | rfl | rfl | rfl
    · rw [fmod_pos (by omega)]; omega
    · rw [fmod_neg' (by omega)]; simp
    · omega
    · simp
  rename_i hne
  have hr' := hr
  unfold I64 at hl hr'
  by_cases r0 : r < 0
  · rw [if_pos r0, fmod_neg' r0]
    by_cases l0 : l < 0
    · rw [if_pos l0, w64_id (x := -l) (by omega) (by omega), crem_negr_nonneg (by omega) hr]
      have h2 := Int.emod_nonneg (-l) (show -r ≠ 0 by omega)
      have h3 := Int.emod_lt_of_pos (-l) (show 0 < -r by omega)
      rw [w64_id (by omega) (by omega)]
    · rw [if_neg l0, w64_id (x := l - 1) (by omega) (by omega), crem_negr_nonneg (by omega) hr]
      have h2 := Int.emod_nonneg (l-1) (show -r ≠ 0 by omega)
      have h3 := Int.emod_lt_of_pos (l-1) (show 0 < -r by omega)
      have h4 : (l - 1) % (-r) ≤ l - 1 := emod_le_self' (by omega) (by omega)
      rw [w64_id (x := (l - 1) % -r + 1) (by omega) (by omega)]
      rw [emod_neg_succ (show 0 < -r by omega)]
      generalize (l - 1) % -r = c at *
      have h5 : w64 (w64 (-r) - (c + 1)) = -r - (c + 1) := w64_negr_sub hr (by omega) (by omega)
      rw [h5, w64_id (by omega) (by omega)]
  · rw [if_neg r0, fmod_pos (by omega)]
    by_cases l0 : l < 0
    · rw [if_pos l0]
      have h5 : w64 (w64 (-l) - 1) = -l - 1 := w64_negl_pred (by unfold I64; omega) l0
      have h6 : crem (-l - 1) r = (-l - 1) % r := tmod_pos (by omega)
      have h2 := Int.emod_nonneg (-l-1) (show r ≠ 0 by omega)
      have h3 := Int.emod_lt_of_pos (-l-1) (show 0 < r by omega)
      rw [h5, h6, w64_id (x := _ + 1) (by omega) (by omega), w64_id (by omega) (by omega)]
      have := emod_neg_succ (x := -l) (show 0 < r by omega)
      rw [Int.neg_neg] at this
      rw [this]
    · rw [if_neg l0]
      exact tmod_pos (by omega)

/-- The remaining case: the remainder has the wrong sign. -/
theorem rtModI_min {r : Int} (hr : I64 r) (h0 : r < 0) : rtModI int64Min r = -(Int.fmod int64Min r) := by
  have e : int64Min = -9223372036854775808 := rfl
  rw [e]
  rw [fmod_neg' h0]
  unfold rtModI
  split
  · rename_i h
    rcases h with rfl | rfl | rfl | h
    · omega
    · simp
    · omega
    · omega
  rw [if_pos (by omega), w64_neg_min, crem_negr_nonpos (by omega) hr]
  have hr' := hr
  unfold I64 at hr'
  have h2 := Int.emod_nonneg (9223372036854775808) (show -r ≠ 0 by omega)
  have h3 := Int.emod_lt_of_pos (9223372036854775808) (show 0 < -r by omega)
  simp only [Int.neg_neg]
  by_cases h : r = -9223372036854775808
  · subst h; decide
  · rw [w64_id (by omega) (by omega)]

theorem pyModI_eq {l r : Int} (hl : I64 l) (hr : I64 r) (h0 : r ≠ 0) : pyModI l r = .ok (rtModI l r) := by
  unfold pyModI rtModI
  by_cases c : r = 1 ∨ r = -1 ∨ l = 0
  · rw [if_pos c, if_pos (by omega)]
  rw [if_neg c, if_neg h0, if_neg (show ¬ (r = 1 ∨ r = -1 ∨ r = 0 ∨ l = 0) by omega)]
  have hl' := hl
  have hr' := hr
  unfold I64 at hl hr'
  by_cases r0 : r < 0
  · rw [if_pos r0, if_pos r0]
    by_cases l0 : l < 0
    · rw [if_pos l0, if_pos l0]
    · rw [if_neg l0, if_neg l0]
      congr 2
      rw [w64_id (x := l - 1) (by omega) (by omega), crem_negr_nonneg (x := l - 1) (by omega) hr]
      rw [w64_id (x := -l) (by omega) (by omega), crem_negr_nonpos (x := -l) (by omega) hr]
      rw [Int.neg_neg]
      have g2 := Int.emod_nonneg l (show -r ≠ 0 by omega)
      have g3 := Int.emod_lt_of_pos l (show 0 < -r by omega)
      have g4 : l % (-r) ≤ l := emod_le_self' (by omega) (by omega)
      have h2 := Int.emod_nonneg (l-1) (show -r ≠ 0 by omega)
      have h3 := Int.emod_lt_of_pos (l-1) (show 0 < -r by omega)
      have h4 : (l - 1) % (-r) ≤ l - 1 := emod_le_self' (by omega) (by omega)
      rw [w64_id (x := (l - 1) % -r + 1) (by omega) (by omega)]
      have h5 : w64 (w64 (-r) - ((l - 1) % -r + 1)) = -r - ((l - 1) % -r + 1) := w64_negr_sub hr (by omega) (by omega)
      rw [h5]
      have key := emod_neg_succ (x := l) (show 0 < -r by omega)
      rw [← key]
      have m1 : (-l) % (-r) = if l % (-r) = 0 then 0 else -r - l % (-r) := by
        have h1 := Int.emod_add_mul_ediv l (-r)
        split
        · apply emod_unique (-(l / -r)) (by omega) (by omega)
          have : -r * (-(l / -r)) = -(-r * (l / -r)) := by ring
          omega
        · apply emod_unique (-(l / -r) - 1) (by omega) (by omega)
          have : -r * (-(l / -r) - 1) = -(-r * (l / -r)) + r := by ring
          omega
      rw [m1]
      by_cases z : l % (-r) = 0
      · rw [z, if_pos rfl]
        rcases w64_neg r hr with h | ⟨h', h⟩
        · rw [h]
          rw [w64_id (by omega) (by omega)]
          unfold crem; simp
        · subst h'; decide
      · rw [if_neg z]
        have h7 : w64 (w64 (-r) + -(l % -r)) = -r - l % -r := by
          rw [← sub_eq_add_neg]; exact w64_negr_sub hr (by omega) (by omega)
        rw [h7, crem_negr_nonneg (by omega) hr, Int.emod_eq_of_lt (by omega) (by omega)]
  · rw [if_neg r0, if_neg r0]
    by_cases l0 : l < 0
    · rw [if_pos l0, if_pos l0]
      have e : rtModI l r = Int.fmod l r := rtModI_eq hl' hr h0 (by rintro ⟨_, h⟩; omega)
      unfold rtModI at e
      rw [if_neg (show ¬ (r = 1 ∨ r = -1 ∨ r = 0 ∨ l = 0) by omega), if_neg r0, if_pos l0] at e
      rw [e, fmod_pos (by omega)]
      congr 1
      unfold crem
      rw [tmod_neg' (a := l) (by omega)]
      have g2 := Int.emod_nonneg (-l) (show r ≠ 0 by omega)
      have g3 := Int.emod_lt_of_pos (-l) (show 0 < r by omega)
      rw [w64_id (by omega) (by omega), tmod_pos (by omega)]
      apply Int.emod_eq_emod_iff_emod_sub_eq_zero.mpr
      apply Int.emod_eq_zero_of_dvd
      refine ⟨1 + (-l) / r, ?_⟩
      have h1 := Int.emod_add_mul_ediv (-l) r
      have : r * (1 + (-l) / r) = r + r * ((-l) / r) := by ring
      omega
    · rw [if_neg l0, if_neg l0]

theorem cdiv_ok {l r : Int} (h : ¬ (l = int64Min ∧ r = -1)) : cdiv l r = .ok (Int.tdiv l r) := by
  unfold cdiv; rw [if_neg h]

theorem fdiv_unique {l r q m : Int} (h : l = m + r * q) (h0 : (0 < r ∧ 0 ≤ m ∧ m < r) ∨ (r < m ∧ m ≤ 0)) :
    Int.fdiv l r = q := by
  have e := @fdiv_mul_add l r
  have hm : Int.fmod l r = m := by
    rcases h0 with ⟨a, b, c⟩ | ⟨a, b⟩
    · rw [fmod_pos a]; exact emod_unique q b c h
    · rw [fmod_neg' (by omega)]
      have : (-l) % (-r) = -m := by
        apply emod_unique q (by omega) (by omega)
        rw [h]; ring
      omega
  rw [hm, h] at e
  have hr : r ≠ 0 := by omega
  have e2 : r * (Int.fdiv (m + r * q) r) = r * q := by
    have : (m + r * q).fdiv r * r = r * ((m + r * q).fdiv r) := by ring
    omega
  rw [h]
  exact Int.eq_of_mul_eq_mul_left hr e2

/-- Truncating quotient and remainder, with the sign of the remainder. -/
theorem tdiv_tmod_facts (l r : Int) (h : r ≠ 0) :
    l = Int.tmod l r + r * Int.tdiv l r ∧ (0 ≤ l → 0 ≤ Int.tmod l r) ∧ (l ≤ 0 → Int.tmod l r ≤ 0) ∧
    (0 < r → -r < Int.tmod l r ∧ Int.tmod l r < r) ∧ (r < 0 → r < Int.tmod l r ∧ Int.tmod l r < -r) := by
  refine ⟨?_, ?_, ?_, ?_, ?_⟩
  · rw [Int.tmod_add_mul_tdiv]
  · intro hl; rw [tmod_pos hl]; exact Int.emod_nonneg _ h
  · intro hl; rw [tmod_neg' hl]; have := Int.emod_nonneg (-l) h; omega
  · intro hr
    by_cases hl : 0 ≤ l
    · rw [tmod_pos hl]; have := Int.emod_nonneg l h; have := Int.emod_lt_of_pos l hr; omega
    · rw [tmod_neg' (by omega)]; have := Int.emod_nonneg (-l) h; have := Int.emod_lt_of_pos (-l) hr; omega
  · intro hr
    have hr' : 0 < -r := by omega
    have h' : -r ≠ 0 := by omega
    by_cases hl : 0 ≤ l
    · rw [tmod_pos hl, ← Int.emod_neg]; have := Int.emod_nonneg l h'; have := Int.emod_lt_of_pos l hr'; omega
    · rw [tmod_neg' (by omega), ← Int.emod_neg]
      have := Int.emod_nonneg (-l) h'; have := Int.emod_lt_of_pos (-l) hr'; omega

theorem same_sign_fdiv {l r : Int} (h0 : r ≠ 0) (h : (l > 0 ∧ r > 0) ∨ (l < 0 ∧ r < 0)) :
    Int.tdiv l r = Int.fdiv l r := by
  obtain ⟨a, b, c, d, e⟩ := tdiv_tmod_facts l r h0
  symm
  apply fdiv_unique a
  omega

theorem opp_sign_fdiv {l r : Int} (h0 : r ≠ 0) (h : ¬ ((l > 0 ∧ r > 0) ∨ (l < 0 ∧ r < 0))) :
    (if crem l r ≠ 0 then Int.tdiv l r - 1 else Int.tdiv l r) = Int.fdiv l r := by
  obtain ⟨a, b, c, d, e⟩ := tdiv_tmod_facts l r h0
  unfold crem
  split
  · rename_i hc
    symm
    apply fdiv_unique (m := Int.tmod l r + r)
    · have : r * (Int.tdiv l r - 1) = r * Int.tdiv l r - r := by ring
      omega
    · omega
  · rename_i hc
    symm
    apply fdiv_unique a
    omega

theorem fdiv_bounds {l r : Int} (hl : I64 l) (h0 : r ≠ 0) (hmin : ¬ (l = int64Min ∧ r = -1)) :
    I64 (Int.fdiv l r) := by
  have e := @fdiv_mul_add l r
  have hmin' : ¬ (l = -9223372036854775808 ∧ r = -1) := hmin
  unfold I64 at *
  rcases lt_or_gt_of_ne h0 with h | h
  · have h1 : r < Int.fmod l r ∧ Int.fmod l r ≤ 0 := by
      rw [fmod_neg' h]
      have := Int.emod_nonneg (-l) (show -r ≠ 0 by omega)
      have := Int.emod_lt_of_pos (-l) (show 0 < -r by omega); omega
    generalize Int.fmod l r = m at *
    generalize Int.fdiv l r = q at *
    by_cases r1 : r = -1
    · subst r1; omega
    have r2 : r ≤ -2 := by omega
    constructor <;> nlinarith
  · have h1 : 0 ≤ Int.fmod l r ∧ Int.fmod l r < r := by
      rw [fmod_pos h]
      have := Int.emod_nonneg l (show r ≠ 0 by omega)
      have := Int.emod_lt_of_pos l h; omega
    generalize Int.fmod l r = m at *
    generalize Int.fdiv l r = q at *
    constructor <;> nlinarith

theorem floorDivI_branch {l : Int} (hl : I64 l) {r : Int} :
    (l < 0 ∧ l = w64 (-l) ∧ r = -1) ↔ (l = int64Min ∧ r = -1) := by
  have : int64Min = -9223372036854775808 := rfl
  rw [this]
  rcases w64_neg l hl with h | ⟨h, h'⟩
  · rw [h]
    constructor
    · omega
    · rintro ⟨rfl, rfl⟩; exact absurd h (by decide)
  · rw [h', h]; simp

theorem rtFloorDivI_eq {l r : Int} (hl : I64 l) (h0 : r ≠ 0) (hmin : ¬ (l = int64Min ∧ r = -1)) :
    rtFloorDivI l r = .ok (Int.fdiv l r) := by
  have hb := fdiv_bounds hl h0 hmin
  unfold rtFloorDivI
  rw [if_neg h0, if_neg (by rw [floorDivI_branch hl]; exact hmin)]
  by_cases hs : (l > 0 ∧ r > 0) ∨ (l < 0 ∧ r < 0)
  · rw [if_pos hs, cdiv_ok hmin, same_sign_fdiv h0 hs]
  · rw [if_neg hs, cdiv_ok hmin]
    simp only [bind, Except.bind]
    have := opp_sign_fdiv h0 hs
    split
    · rename_i hc; rw [if_pos hc] at this; rw [this, w64_id hb.1 hb.2]
    · rename_i hc; rw [if_neg hc] at this; rw [this]

theorem pyFloorDivI_eq {l r : Int} (hmin : ¬ (l < 0 ∧ l = w64 (-l) ∧ r = -1)) :
    pyFloorDivI l r = rtFloorDivI l r := by
  unfold pyFloorDivI rtFloorDivI
  rw [if_neg hmin, if_neg hmin]

/-! ### Shifts -/

theorem w64_eq_wrap (x : Int) : w64 x = wrap int64 x := rfl
theorem u64_eq_wrap (x : Int) : u64 x = wrap ⟨false, 64⟩ x := rfl

theorem w64_congr {x y : Int} (h : (18446744073709551616 : Int) ∣ x - y) : w64 x = w64 y := by
  rw [w64_eq_wrap, w64_eq_wrap]
  exact wrap_of_congr (by unfold Congruent int64; exact h)

theorem w64_neg_mul (l : Int) (p : Int) : w64 (-(w64 (w64 (-l) * p))) = w64 (l * p) := by
  apply w64_congr
  obtain ⟨k, hk, -, -⟩ := w64_spec (-l)
  obtain ⟨j, hj, -, -⟩ := w64_spec (w64 (-l) * p)
  rw [hj, hk]
  exact ⟨-k * p - j, by ring⟩

theorem cshl_ok (w : Int → Int) (l : Int) {r : Int} (h : r < 64) : cshl w l r = .ok (w (l * 2 ^ r.toNat)) := by
  unfold cshl; rw [if_neg (by omega)]

theorem cshr_ok (l : Int) {r : Int} (h : r < 64) : cshr l r = .ok (l / 2 ^ r.toNat) := by
  unfold cshr; rw [if_neg (by omega)]

theorem rtLshiftI_eq {l r : Int} (h0 : 0 ≤ r) (h1 : r < 64) : rtLshiftI l r = .ok (w64 (l * 2 ^ r.toNat)) := by
  unfold rtLshiftI
  rw [if_neg (by omega)]
  by_cases hl : l = 0
  · subst hl; simp; decide
  rw [if_neg hl, if_neg (by omega)]
  rw [cshl_ok _ _ h1, cshl_ok _ _ h1]
  split
  · rfl
  · simp only [bind, Except.bind]
    rw [w64_neg_mul]

theorem pyLshiftI_eq {l r : Int} (h0 : 0 ≤ r) (h1 : r < 64) : pyLshiftI l r = .ok (w64 (l * 2 ^ r.toNat)) := by
  unfold pyLshiftI
  have : ssizeMax = 9223372036854775807 := rfl
  rw [if_neg (by omega), if_neg (by omega)]
  rw [cshl_ok _ _ h1, cshl_ok _ _ h1]
  split
  · rfl
  · simp only [bind, Except.bind]
    rw [w64_neg_mul]

/-- What the signed right shift returns, for every operand and every defined count. -/
theorem rtRshiftI_eq {l r : Int} (hl : I64 l) (h0 : 0 ≤ r) (h1 : r < 64) :
    rtRshiftI l r = .ok (if 0 ≤ l ∨ l = int64Min then l / 2 ^ r.toNat
      else if -l < 2 ^ r.toNat then -1 else -((-l) / 2 ^ r.toNat)) := by
  have e : int64Min = -9223372036854775808 := rfl
  have e' : ssizeMax = 9223372036854775807 := rfl
  have hl' := hl
  unfold I64 at hl'
  unfold rtRshiftI
  rw [if_neg (by omega), if_neg (by omega)]
  by_cases r0 : r = 0
  · subst r0
    rw [if_pos rfl]
    simp only [Int.toNat_zero, pow_zero, Int.ediv_one]
    congr 1
    split
    · rfl
    · rw [if_neg (by omega)]; omega
  rw [if_neg r0]
  rw [cshr_ok _ h1, cshr_ok _ h1]
  have hp : (0 : Int) < 2 ^ r.toNat := by positivity
  have hp2 : (2 : Int) ^ r.toNat ≤ 9223372036854775808 := by
    have : (2 : Int) ^ r.toNat ≤ 2 ^ 63 := pow_le_pow_right₀ (by norm_num) (by omega)
    simpa using this
  generalize (2 : Int) ^ r.toNat = p at *
  split
  · rw [if_pos (by omega)]
  rename_i l0
  simp only [bind, Except.bind]
  rcases w64_neg l hl with h | ⟨h', h⟩
  · have hm : l ≠ -9223372036854775808 := by
      rintro rfl; exact absurd h (by decide)
    rw [h, if_neg (show ¬ (0 ≤ l ∨ l = int64Min) by omega)]
    have hz : (-l) / p = 0 ↔ -l < p := by
      constructor
      · intro hz
        by_contra hc
        have := Int.le_ediv_of_mul_le hp (show 1 * p ≤ -l by omega)
        omega
      · intro hz; exact Int.ediv_eq_zero_of_lt (by omega) hz
    have hnn : 0 ≤ (-l) / p := Int.ediv_nonneg (by omega) (by omega)
    have hle : (-l) / p ≤ -l := Int.ediv_le_self _ (by omega)
    split
    · rename_i hq; rw [if_pos (hz.mp hq)]
    · rename_i hq
      rw [if_neg (by omega), if_neg (fun hc => hq (hz.mpr hc)), w64_id (by omega) (by omega)]
  · have hn : l / p < 0 := Int.ediv_neg_of_neg_of_pos (by omega) hp
    rw [h, if_neg (by omega), if_pos rfl, if_pos (by omega)]

theorem agree_self (x : Except Err Int) : Agree x x := by
  cases x <;> simp [Agree]

theorem pyRshiftI_err (l r : Int) : Agree (rtRshiftI l r) (pyRshiftI l r) := by
  unfold rtRshiftI pyRshiftI
  by_cases h0 : r < 0
  · rw [if_pos h0, if_pos h0]; trivial
  rw [if_neg h0, if_neg h0]
  by_cases h1 : r > ssizeMax
  · rw [if_pos h1, if_pos h1]; trivial
  rw [if_neg h1, if_neg h1]
  exact agree_self _

/-- Division is the floor exactly when the operand is a multiple or small. -/
theorem neg_ediv_eq {x p : Int} (hx : 0 ≤ x) (hp : 0 < p) : -(x / p) = (-x) / p ↔ p ∣ x := by
  constructor
  · intro h
    have h1 := Int.emod_add_mul_ediv x p
    have h2 := Int.emod_add_mul_ediv (-x) p
    have h3 := Int.emod_nonneg x (show p ≠ 0 by omega)
    have h4 := Int.emod_nonneg (-x) (show p ≠ 0 by omega)
    rw [← h] at h2
    have : p * -(x / p) = -(p * (x / p)) := by ring
    exact Int.dvd_of_emod_eq_zero (by omega)
  · rintro ⟨k, rfl⟩
    rw [Int.mul_ediv_cancel_left _ (by omega)]
    have : -(p * k) = p * (-k) := by ring
    rw [this, Int.mul_ediv_cancel_left _ (by omega)]

theorem inRange_between {t : ITy} {lo hi x : Int} (h0 : InRange t lo) (h1 : InRange t hi)
    (h2 : lo ≤ x) (h3 : x ≤ hi) : InRange t x := by
  unfold InRange at *
  split at h0
  · rw [if_pos (by assumption)] at *; omega
  · rw [if_neg (by assumption)] at *; omega

theorem inRange_zero (t : ITy) : InRange t 0 := by
  unfold InRange
  have h1 : (0 : Int) < 2 ^ (t.bits - 1) := by positivity
  have h2 : (0 : Int) < 2 ^ t.bits := by positivity
  split <;> omega

theorem fmod_between (a b : Int) (hb : b ≠ 0) :
    (0 ≤ Int.fmod a b ∧ Int.fmod a b ≤ b) ∨ (b ≤ Int.fmod a b ∧ Int.fmod a b ≤ 0) := by
  rcases lt_or_gt_of_ne hb with h | h
  · right
    rw [fmod_neg' h]
    have := Int.emod_nonneg (-a) (show -b ≠ 0 by omega)
    have := Int.emod_lt_of_pos (-a) (show 0 < -b by omega); omega
  · left
    rw [fmod_pos h]
    have := Int.emod_nonneg a (show b ≠ 0 by omega)
    have := Int.emod_lt_of_pos a h; omega

theorem fmod_inRange {t : ITy} {a b : Int} (hb : b ≠ 0) (h : InRange t b) : InRange t (Int.fmod a b) := by
  rcases fmod_between a b hb with ⟨h0, h1⟩ | ⟨h0, h1⟩
  · exact inRange_between (inRange_zero t) h h0 h1
  · exact inRange_between h (inRange_zero t) h0 h1

theorem rtModU_eq {l r : Int} (hl : 0 ≤ l) (hr : 0 < r) : rtModU l r = Int.fmod l r := by
  unfold rtModU
  rw [fmod_pos hr]
  split
  · rename_i h
    rcases h with rfl | h | rfl
    · omega
    · omega
    · simp
  · exact tmod_pos hl

theorem pyModU_eq {l r : Int} (hl : 0 ≤ l) (hr : 0 < r) : pyModU l r = .ok (Int.fmod l r) := by
  unfold pyModU crem
  rw [if_neg (by omega), fmod_pos hr, tmod_pos hl]

end Verif.Arith
