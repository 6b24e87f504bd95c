import Verif.Chrono.DateModel
import Verif.Chrono.Lemmas
namespace Verif.Chrono
open Spec

/-- Dates the API can hold through valid construction: existing dates of year 0 or later. -/
def Ok (c : Civil) : Prop := Valid c ∧ 0 ≤ c.year

instance (c : Civil) : Decidable (Ok c) := by unfold Ok; infer_instance

theorem isValidDate_iff (y m d : Int) (hm : 0 ≤ m) (hd : 0 ≤ d) :
    isValidDate y m d = true ↔ Ok ⟨y, m, d⟩ := by
  have hleap : ((y % 4 == 0 && y % 100 != 0) || y % 400 == 0) = decide (Leap y) := by
    unfold Leap; by_cases h1 : y % 4 = 0 <;> by_cases h2 : y % 100 = 0 <;> by_cases h3 : y % 400 = 0 <;> simp [*]
  unfold isValidDate Ok Valid monthLen
  rw [hleap]
  by_cases hy : y > -1
  · have hm' : m > -1 := by omega
    have hd' : d > -1 := by omega
    simp only [hy, hm', hd', decide_true, Bool.not_true, Bool.and_false, Bool.false_eq_true, if_false,
      Bool.true_and, if_true]
    by_cases h1 : m < 1 ∨ m > 12
    · simp [h1]; omega
    · have : m = 1 ∨ m = 2 ∨ m = 3 ∨ m = 4 ∨ m = 5 ∨ m = 6 ∨ m = 7 ∨ m = 8 ∨ m = 9 ∨ m = 10 ∨ m = 11 ∨ m = 12 := by
        omega
      by_cases hl : Leap y <;> simp only [hl] <;>
      rcases this with h | h | h | h | h | h | h | h | h | h | h | h <;> subst h <;> simp <;> omega
  · simp [hy]; omega

theorem mkDate_ok {c : Civil} (h : Ok c) : mkDate c.year c.month c.day = .ok c := by
  unfold mkDate
  obtain ⟨h1, h2⟩ := h
  have := (isValidDate_iff c.year c.month c.day (by have := h1.1; omega) (by have := h1.2.2.1; omega)).2 ⟨h1, h2⟩
  simp [this]

theorem mkDate_year_neg {y m d : Int} (h : y < 0) : mkDate y m d = .error .nonexistentDate := by
  unfold mkDate isValidDate
  have : ¬ y > -1 := by omega
  simp [this]

/-- The day number of 1 January of year 0. -/
theorem F_neg {y : Int} (h : y < 0) : F (y + 1) ≤ 0 := by
  have := F_mono (a := y + 1) (b := 0) (by omega)
  have h0 : F 0 = 0 := by decide
  omega

theorem days_lower {c : Civil} (h : Ok c) : -719528 ≤ daysSinceEpoch c := by
  obtain ⟨⟨h1, h2, h3, h4⟩, h5⟩ := h
  unfold daysSinceEpoch
  rw [daysFromCivil_eq]
  have hF : F (-1) = -366 := by decide
  unfold marchYear marchMonth
  by_cases h : c.month ≤ 2
  · have := F_mono (a := -1) (b := c.year - 1) (by omega)
    have hm : ¬ c.month > 2 := by omega
    simp only [h, hm, if_true, if_false]
    omega
  · have := F_mono (a := -1) (b := c.year) (by omega)
    have hm : c.month > 2 := by omega
    simp only [h, hm, if_true, if_false]
    omega

theorem civil_year_nonneg {n : Int} (h : -719528 ≤ n) : 0 ≤ (civilFromDays n).year := by
  obtain ⟨y, doy, h1, h2, h3, h4⟩ := civilFromDays_eq n
  have hF0 : F 0 = 0 := by decide
  have hF1 : F (-1) = -366 := by decide
  have hy : -1 ≤ y := by
    rcases Int.lt_or_le y (-1) with h | h
    · have := F_mono (a := y + 1) (b := -1) (by omega); omega
    · exact h
  rw [h4]
  simp only
  by_cases h0 : y = -1
  · subst h0
    rw [hF1] at h3
    simp only [show (-1 : Int) + 1 = 0 from rfl, hF0] at h2
    have : (5 * doy + 2) / 153 ≥ 10 := by omega
    have h9 : ¬ (5 * doy + 2) / 153 < 10 := by omega
    simp only [h9, if_false]
    split <;> omega
  · split <;> omega

theorem civil_ok {n : Int} (h : -719528 ≤ n) : Ok (civilFromDays n) := ⟨civil_valid n, civil_year_nonneg h⟩

theorem civil_year_neg {n : Int} (h : n < -719528) : (civilFromDays n).year < 0 := by
  rcases Int.lt_or_le (civilFromDays n).year 0 with h1 | h1
  · exact h1
  · have := days_lower (c := civilFromDays n) ⟨civil_valid n, h1⟩
    unfold daysSinceEpoch at this
    rw [days_civil] at this
    omega

theorem fromDays_ok {n : Int} (h : -719528 ≤ n) : fromDaysSinceEpoch n = .ok (civilFromDays n) :=
  mkDate_ok (civil_ok h)

theorem fromDays_err {n : Int} (h : n < -719528) : fromDaysSinceEpoch n = .error .nonexistentDate :=
  mkDate_year_neg (civil_year_neg h)

theorem daysSince_civil (n : Int) : daysSinceEpoch (civilFromDays n) = n := days_civil n

theorem civil_daysSince {c : Civil} (h : Valid c) : civilFromDays (daysSinceEpoch c) = c := civil_days c h

theorem days_inj {a b : Civil} (ha : Valid a) (hb : Valid b) (h : daysSinceEpoch a = daysSinceEpoch b) : a = b := by
  rw [← civil_daysSince ha, ← civil_daysSince hb, h]

theorem next_valid {c : Civil} (h : Valid c) : Valid (next c) := by
  obtain ⟨h1, h2, h3, h4⟩ := h
  unfold next
  have hb := monthLen_bounds c.year (c.month + 1)
  have hb' := monthLen_bounds (c.year + 1) 1
  split
  · exact ⟨h1, h2, by simp; omega, by simp; omega⟩
  · split
    · exact ⟨by simp; omega, by simp; omega, by simp, by simp; omega⟩
    · exact ⟨by simp, by simp, by simp, by simp; omega⟩

theorem next_days {c : Civil} (h : Valid c) : daysSinceEpoch (next c) = daysSinceEpoch c + 1 := days_next c h

theorem after_valid (n : Nat) {c : Civil} (h : Valid c) : Valid (after n c) := by
  induction n generalizing c with
  | zero => exact h
  | succ n ih => exact ih (next_valid h)

theorem after_days (n : Nat) {c : Civil} (h : Valid c) : daysSinceEpoch (after n c) = daysSinceEpoch c + n := by
  induction n generalizing c with
  | zero => simp [after]
  | succ n ih =>
    show daysSinceEpoch (after n (next c)) = _
    rw [ih (next_valid h), next_days h]
    omega

theorem epoch_valid : Valid epoch := by decide
theorem epoch_days : daysSinceEpoch epoch = 0 := by decide

/-- The order on valid dates is the order on day numbers. -/
theorem before_iff {a b : Civil} (ha : Valid a) (hb : Valid b) :
    Before a b ↔ daysSinceEpoch a < daysSinceEpoch b := by
  have key : ∀ {a b : Civil}, Valid a → Valid b → Before a b → daysSinceEpoch a < daysSinceEpoch b := by
    clear ha hb a b
    intro a b ha hb hab
    obtain ⟨ya, ma, da⟩ := a
    obtain ⟨yb, mb, db⟩ := b
    obtain ⟨a1, a2, a3, a4⟩ := ha
    obtain ⟨b1, b2, b3, b4⟩ := hb
    unfold Before at hab
    unfold daysSinceEpoch
    simp only [daysFromCivil_eq] at *
    have la : ∀ y m d : Int, 1 ≤ m → m ≤ 12 → 1 ≤ d → d ≤ monthLen y m →
        (m > 2 → (153 * marchMonth m + 2) / 5 + d - 1 ≤ 305) ∧
        (m ≤ 2 → 306 ≤ (153 * marchMonth m + 2) / 5 + d - 1 ∧
          (153 * marchMonth m + 2) / 5 + d - 1 ≤ 364 + (if Leap y then 1 else 0)) ∧
          0 ≤ (153 * marchMonth m + 2) / 5 + d - 1 := by
      intro y m d h1 h2 h3 h4
      have : m = 1 ∨ m = 2 ∨ m = 3 ∨ m = 4 ∨ m = 5 ∨ m = 6 ∨ m = 7 ∨ m = 8 ∨ m = 9 ∨ m = 10 ∨ m = 11 ∨ m = 12 := by
        omega
      unfold marchMonth
      unfold monthLen at h4
      rcases this with h | h | h | h | h | h | h | h | h | h | h | h <;> subst h <;> simp at h4 ⊢ <;>
        (try split at h4) <;> (try split) <;> omega
    have ga := la ya ma da a1 a2 a3 a4
    have gb := la yb mb db b1 b2 b3 b4
    have sa := F_succ (ya - 1)
    have sb := F_succ (yb - 1)
    simp only [Int.sub_add_cancel] at sa sb
    rcases hab with h | ⟨h, h'⟩
    · have hm : marchYear ya ma ≤ marchYear yb mb := by unfold marchYear; split <;> split <;> omega
      rcases Int.lt_or_le (marchYear ya ma) (marchYear yb mb) with hlt | hle
      · have hmono := F_mono (a := marchYear ya ma + 1) (b := marchYear yb mb) (by omega)
        have s := F_succ (marchYear ya ma)
        by_cases hma : ma > 2
        · have := ga.1 hma; split at s <;> omega
        · have h2 := ga.2.1 (by omega)
          have e : marchYear ya ma + 1 = ya := by unfold marchYear; split <;> omega
          rw [e] at s hmono
          split at s <;> simp only [*, if_true, if_false] at h2 <;> omega
      · have e : marchYear ya ma = marchYear yb mb := by omega
        have : ma > 2 ∧ mb ≤ 2 := by
          unfold marchYear at e; split at e <;> split at e <;> omega
        have := ga.1 this.1
        have := gb.2.1 (by omega)
        rw [e]; omega
    · subst h
      rcases h' with h' | ⟨h', h''⟩
      · by_cases hm : ma ≤ 2
        · by_cases hm' : mb ≤ 2
          · have : ma = 1 := by omega
            have : mb = 2 := by omega
            subst ma mb
            simp only [monthLen] at a4
            simp [marchYear, marchMonth] at *
            omega
          · have : marchYear ya ma = ya - 1 := by unfold marchYear; simp [hm]
            have h2 : marchYear ya mb = ya := by unfold marchYear; simp [hm']
            rw [this, h2]
            have h3 := ga.2.1 hm
            have h4 := gb.2.2
            by_cases hl : Leap ya <;> simp only [hl, if_true, if_false] at sa h3 <;> omega
        · have e1 : marchYear ya ma = ya := by unfold marchYear; simp [hm]
          have hm' : ¬ mb ≤ 2 := by omega
          have e2 : marchYear ya mb = ya := by unfold marchYear; simp [hm']
          rw [e1, e2]
          clear ga gb sa sb la e1 e2
          have h1 : marchMonth ma = ma - 3 := by unfold marchMonth; split <;> omega
          have h2 : marchMonth mb = mb - 3 := by unfold marchMonth; split <;> omega
          rw [h1, h2]
          have : monthLen ya ma ≤ (153 * (ma - 3 + 1) + 2) / 5 - (153 * (ma - 3) + 2) / 5 := by
            have : ma = 3 ∨ ma = 4 ∨ ma = 5 ∨ ma = 6 ∨ ma = 7 ∨ ma = 8 ∨ ma = 9 ∨ ma = 10 ∨ ma = 11 := by
              omega
            unfold monthLen
            rcases this with h | h | h | h | h | h | h | h | h <;> subst h <;> simp
          omega
      · subst h'; omega
  constructor
  · exact key ha hb
  · intro h
    rcases Classical.em (Before a b) with h1 | h1
    · exact h1
    · exfalso
      have h2 : Before b a ∨ a = b := by
        obtain ⟨ya, ma, da⟩ := a
        obtain ⟨yb, mb, db⟩ := b
        unfold Before at *
        simp only [Civil.mk.injEq] at *
        omega
      rcases h2 with h2 | h2
      · have := key hb ha h2; omega
      · subst h2; omega

theorem dateLt_iff (a b : Civil) : dateLt a b = true ↔ Before a b := by
  unfold dateLt Before
  by_cases h1 : a.year = b.year <;> by_cases h2 : a.month = b.month <;> by_cases h3 : a.day = b.day <;>
    simp [h1, h2, h3]

theorem weekdayFromDays_mod (n : Int) : weekdayFromDays n % 7 = (n + 4) % 7 := by
  unfold weekdayFromDays; split <;> omega

theorem weekdayFromDays_pos {n : Int} (h : -5 ≤ n) : weekdayFromDays n = (n + 4) % 7 := by
  unfold weekdayFromDays; split <;> omega

end Verif.Chrono
