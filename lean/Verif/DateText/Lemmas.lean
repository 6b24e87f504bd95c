import Verif.DateText.Model
import Verif.DateText.Spec
import Verif.Chrono.Props
import Verif.Chrono.TzLemmas
/-
Lemmas on digits, names and clock readings.
-/
namespace Verif.DateText
open Verif.Chrono Verif.Chrono.Spec

/-! ### Digits -/

theorem digit_cases (P : Char → Prop) (h : ∀ k : Fin 10, P (Char.ofNat (48 + k.val))) (n : Nat) : P (digit n) :=
  h ⟨n % 10, Nat.mod_lt _ (by decide)⟩

@[simp] theorem isDigit_digit (n : Nat) : isDigit (digit n) = true :=
  digit_cases (fun c => isDigit c = true) (by decide) n

@[simp] theorem isAlpha_digit (n : Nat) : isAlpha (digit n) = false :=
  digit_cases (fun c => isAlpha c = false) (by decide) n

@[simp] theorem isSpace_digit (n : Nat) : isSpace (digit n) = false :=
  digit_cases (fun c => isSpace c = false) (by decide) n

@[simp] theorem isNum_digit (n : Nat) : isNum (digit n) = true :=
  digit_cases (fun c => isNum c = true) (by decide) n

@[simp] theorem isSep_digit (n : Nat) : isSep (digit n) = false :=
  digit_cases (fun c => isSep c = false) (by decide) n

@[simp] theorem lowerC_digit (n : Nat) : lowerC (digit n) = digit n :=
  digit_cases (fun c => lowerC c = c) (by decide) n

/-- A digit is none of these characters. -/
theorem digit_ne (n : Nat) : digit n ≠ ' ' ∧ digit n ≠ '.' ∧ digit n ≠ '+' ∧ digit n ≠ '-' ∧ digit n ≠ 'a' ∧
    digit n ≠ 'p' ∧ digit n ≠ 't' ∧ digit n ≠ '/' ∧ digit n ≠ ':' ∧ digit n ≠ ',' :=
  digit_cases (fun c => c ≠ ' ' ∧ c ≠ '.' ∧ c ≠ '+' ∧ c ≠ '-' ∧ c ≠ 'a' ∧ c ≠ 'p' ∧ c ≠ 't' ∧ c ≠ '/' ∧ c ≠ ':' ∧
    c ≠ ',') (by decide) n

@[simp] theorem digit_ne_space (n : Nat) : (digit n = ' ') = False := by simp [(digit_ne n).1]
@[simp] theorem digit_ne_dot (n : Nat) : (digit n = '.') = False := by simp [(digit_ne n).2.1]
@[simp] theorem digit_ne_plus (n : Nat) : (digit n = '+') = False := by simp [(digit_ne n).2.2.1]
@[simp] theorem digit_ne_dash (n : Nat) : (digit n = '-') = False := by simp [(digit_ne n).2.2.2.1]
@[simp] theorem digit_ne_a (n : Nat) : (digit n = 'a') = False := by simp [(digit_ne n).2.2.2.2.1]
@[simp] theorem digit_ne_p (n : Nat) : (digit n = 'p') = False := by simp [(digit_ne n).2.2.2.2.2.1]
@[simp] theorem digit_ne_t (n : Nat) : (digit n = 't') = False := by simp [(digit_ne n).2.2.2.2.2.2.1]

theorem digit_toNat (n : Nat) : (digit n).toNat = 48 + n % 10 := by
  have h : ∀ k : Fin 10, (Char.ofNat (48 + k.val)).toNat = 48 + k.val := by decide
  exact h ⟨n % 10, Nat.mod_lt _ (by decide)⟩

theorem digitsVal_two (a b : Nat) : digitsVal [digit a, digit b] = 10 * ((a % 10 : Nat) : Int) + ((b % 10 : Nat) : Int) := by
  simp only [digitsVal, List.foldl, digit_toNat]; omega

theorem digitsVal_four (a b c d : Nat) : digitsVal [digit a, digit b, digit c, digit d] =
    1000 * ((a % 10 : Nat) : Int) + 100 * ((b % 10 : Nat) : Int) + 10 * ((c % 10 : Nat) : Int) + ((d % 10 : Nat) : Int) := by
  simp only [digitsVal, List.foldl, digit_toNat]; omega

theorem val_two {n : Int} (h0 : 0 ≤ n) (h1 : n < 100) : digitsVal (two n) = n := by
  unfold two
  rw [digitsVal_two]
  omega

theorem val_four {n : Int} (h0 : 0 ≤ n) (h1 : n < 10000) : digitsVal (four n) = n := by
  unfold four
  rw [digitsVal_four]
  omega

theorem two_digits (n : Int) : allDigits (two n) = true := by simp [two, allDigits]
theorem four_digits (n : Int) : allDigits (four n) = true := by simp [four, allDigits]

theorem pyInt_two {n : Int} (h0 : 0 ≤ n) (h1 : n < 100) : pyInt (two n) = .ok n := by
  unfold pyInt; rw [if_pos (two_digits n), val_two h0 h1]

theorem pyInt_four {n : Int} (h0 : 0 ≤ n) (h1 : n < 10000) : pyInt (four n) = .ok n := by
  unfold pyInt; rw [if_pos (four_digits n), val_four h0 h1]

theorem is2d_two (n : Int) : is2d (two n) = true := by simp [is2d, two, allDigits]
theorem is4d_four (n : Int) : is4d (four n) = true := by simp [is4d, four, allDigits]

theorem pyFloat_two {n : Int} (h0 : 0 ≤ n) (h1 : n < 100) : pyFloat (two n) = .ok n := by
  have e : pyFloat (two n) = unsignedFloat (two n) := by
    unfold pyFloat
    have : (((two n).dropWhile isSpace).reverse.dropWhile isSpace).reverse = two n := by simp [two]
    rw [this]
    unfold two
    split
    · rename_i h; simp at h
    · rename_i h; simp at h
    · rfl
  rw [e]
  unfold unsignedFloat
  have h1 : (two n).takeWhile isDigit = two n := by simp [two, List.takeWhile]
  have h2 : (two n).dropWhile isDigit = [] := by simp [two]
  rw [h1, h2]
  simp only
  rw [if_neg (by simp [two]), val_two h0 (by assumption)]

/-! ### The formatter's numbers -/

theorem natStr_lt {n : Nat} (h : n < 10) : natStr n = [digit n] := by
  rw [natStr, if_pos h, digit, Nat.mod_eq_of_lt h]

theorem natStr_ge {n : Nat} (h : 10 ≤ n) : natStr n = natStr (n / 10) ++ [digit n] := by
  rw [natStr, if_neg (by omega)]
  rfl

theorem pyStr_nat {n : Int} (h : 0 ≤ n) : pyStr n = natStr n.toNat := by
  unfold pyStr; rw [if_neg (by omega)]

theorem digit_zero {n : Nat} (h : n = 0) : digit n = '0' := by subst h; rfl

theorem f2d_two {n : Int} (h0 : 0 ≤ n) (h1 : n < 100) : f2d n = two n := by
  unfold f2d two
  rw [pyStr_nat h0]
  by_cases h : n < 10
  · rw [natStr_lt (by omega), digit_zero (n := (n / 10).toNat) (by omega)]; rfl
  · rw [natStr_ge (by omega), natStr_lt (by omega)]
    have : n.toNat / 10 = (n / 10).toNat := by omega
    rw [this]; rfl

theorem f3d_three {n : Int} (h0 : 0 ≤ n) (h1 : n < 1000) : f3d n = three' n := by
  unfold f3d three'
  rw [pyStr_nat h0]
  by_cases h : n < 10
  · rw [natStr_lt (by omega), digit_zero (n := (n / 10).toNat) (by omega),
      digit_zero (n := (n / 100).toNat) (by omega)]; rfl
  · by_cases h' : n < 100
    · rw [natStr_ge (by omega), natStr_lt (by omega), digit_zero (n := (n / 100).toNat) (by omega)]
      have : n.toNat / 10 = (n / 10).toNat := by omega
      rw [this]; rfl
    · rw [natStr_ge (by omega), natStr_ge (by omega), natStr_lt (by omega)]
      have e1 : n.toNat / 10 = (n / 10).toNat := by omega
      have e2 : (n / 10).toNat / 10 = (n / 100).toNat := by omega
      rw [e1, e2]; rfl

theorem f4d_four {n : Int} (h0 : 0 ≤ n) (h1 : n < 10000) : f4d n = four n := by
  unfold f4d four
  rw [pyStr_nat h0]
  by_cases h : n < 10
  · rw [natStr_lt (by omega), digit_zero (n := (n / 10).toNat) (by omega),
      digit_zero (n := (n / 100).toNat) (by omega), digit_zero (n := (n / 1000).toNat) (by omega)]; rfl
  · by_cases h' : n < 100
    · rw [natStr_ge (by omega), natStr_lt (by omega), digit_zero (n := (n / 100).toNat) (by omega),
        digit_zero (n := (n / 1000).toNat) (by omega)]
      have : n.toNat / 10 = (n / 10).toNat := by omega
      rw [this]; rfl
    · by_cases h'' : n < 1000
      · rw [natStr_ge (by omega), natStr_ge (by omega), natStr_lt (by omega),
          digit_zero (n := (n / 1000).toNat) (by omega)]
        have e1 : n.toNat / 10 = (n / 10).toNat := by omega
        have e2 : (n / 10).toNat / 10 = (n / 100).toNat := by omega
        rw [e1, e2]; rfl
      · rw [natStr_ge (by omega), natStr_ge (by omega), natStr_ge (by omega), natStr_lt (by omega)]
        have e1 : n.toNat / 10 = (n / 10).toNat := by omega
        have e2 : (n / 10).toNat / 10 = (n / 100).toNat := by omega
        have e3 : (n / 100).toNat / 10 = (n / 1000).toNat := by omega
        rw [e1, e2, e3]; rfl

/-! ### Months, weekdays, hours -/

/-- A month number is one of twelve. -/
theorem month_cases {m : Int} (P : Int → Prop) (h1 : 1 ≤ m) (h2 : m ≤ 12)
    (h : ∀ k : Fin 12, P ((k.val : Int) + 1)) : P m := by
  have := h ⟨(m - 1).toNat, by omega⟩
  have e : (((m - 1).toNat : Nat) : Int) + 1 = m := by omega
  simp only [e] at this
  exact this

theorem monthNames_spec {m : Int} (h1 : 1 ≤ m) (h2 : m ≤ 12) : getKey monthNames m = .ok (monthName m) :=
  month_cases (fun m => getKey monthNames m = .ok (monthName m)) h1 h2 (by decide +kernel)

theorem monthAbbrs_spec {m : Int} (h1 : 1 ≤ m) (h2 : m ≤ 12) : getKey monthAbbrs m = .ok ((monthName m).take 3) :=
  month_cases (fun m => getKey monthAbbrs m = .ok ((monthName m).take 3)) h1 h2 (by decide +kernel)

/-- A weekday number is one of seven. -/
theorem day_cases {w : Int} (P : Int → Prop) (h1 : 0 ≤ w) (h2 : w < 7) (h : ∀ k : Fin 7, P (k.val : Int)) : P w := by
  have := h ⟨w.toNat, by omega⟩
  have e : ((w.toNat : Nat) : Int) = w := by omega
  simp only [e] at this
  exact this

theorem dayNames_spec {w : Int} (h1 : 0 ≤ w) (h2 : w < 7) : getKey dayNames w = .ok (dayName w) :=
  day_cases (fun w => getKey dayNames w = .ok (dayName w)) h1 h2 (by decide +kernel)

theorem dayAbbrs_spec {w : Int} (h1 : 0 ≤ w) (h2 : w < 7) : getKey dayAbbrs w = .ok ((dayName w).take 3) :=
  day_cases (fun w => getKey dayAbbrs w = .ok ((dayName w).take 3)) h1 h2 (by decide +kernel)

theorem convertTo12h_spec {h : Int} (h0 : 0 ≤ h) (h1 : h < 24) : convertTo12h h = hour12 h := by
  unfold convertTo12h hour12
  split <;> split <;> (try split) <;> omega

theorem pyStr_digit {n : Int} (h0 : 0 ≤ n) (h1 : n < 10) : pyStr n = [digit n.toNat] := by
  rw [pyStr_nat h0, natStr_lt (by omega)]

theorem weekday_dow {c : Civil} (h : -5 ≤ daysSinceEpoch c) : weekday c = dayOfWeek c := by
  unfold weekday dayOfWeek
  exact weekdayFromDays_pos h

theorem dow_bounds (c : Civil) : 0 ≤ dayOfWeek c ∧ dayOfWeek c < 7 := by unfold dayOfWeek; omega

/-! ### Clock readings -/

/-- What `FixedOffsetTimezone.datetime` returns is an existing date and time. -/
theorem datetime_ok {off ts : Int} {dt : DateTime} (h : FixedZone.datetime ⟨off⟩ ts = .ok dt) :
    DtOk dt ∧ dt = ofLocal (ts + off) := by
  unfold FixedZone.datetime at h
  simp only at h
  by_cases hb : -719528 * 86400 ≤ ts + off
  · rw [datetimeFromTs_ok hb] at h
    cases h
    exact ⟨ofLocal_ok hb, rfl⟩
  · rw [datetimeFromTs_err (by omega)] at h
    cases h

theorem fixedTz_eq (off : Int) (dt : DateTime) : fixedTz off dt = .ok (localSec dt - off) := by
  simp only [fixedTz, FixedZone.timestamp, liftD, tsFrom_local]

/-- `DateTime(y, m, d, h, min, s)` for an existing date and time. -/
theorem mkDateTime_ok {dt : DateTime} (h : DtOk dt) :
    mkDateTime dt.date.year dt.date.month dt.date.day dt.timeOfDay.hour dt.timeOfDay.minute dt.timeOfDay.second
      = .ok dt := by
  unfold mkDateTime
  rw [mkDate_ok h.1]
  simp only [bind, Except.bind]
  rw [mkTime_ok h.2]

theorem isValidDate_ok {c : Civil} (h : Ok c) : isValidDate c.year c.month c.day = true := by
  obtain ⟨h1, h2⟩ := h
  have h1' := h1
  obtain ⟨a, b, c', d⟩ := h1'
  exact (isValidDate_iff c.year c.month c.day (by omega) (by omega)).2 ⟨h1, h2⟩

theorem isValidTime_ok {t : TimeOfDay} (h : TimeOk t) : isValidTime t.hour t.minute t.second = true := by
  obtain ⟨h1, h2, h3, h4, h5, h6⟩ := h
  simp [isValidTime, *]

/-- A date of at most 31 days a month. -/
theorem day_le {c : Civil} (h : Valid c) : 1 ≤ c.day ∧ c.day ≤ 31 := by
  obtain ⟨_, _, h1, h2⟩ := h
  refine ⟨h1, Int.le_trans h2 ?_⟩
  unfold monthLen
  repeat' split
  all_goals omega

end Verif.DateText
