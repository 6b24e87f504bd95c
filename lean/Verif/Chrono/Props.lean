import Verif.Chrono.DateLemmas
/-
Property theorems C32 (calendar bijection), C33 (weekday), C34 (date stepping), C51 (date construction).
-/
namespace Verif.Chrono.Props
open Verif.Chrono Verif.Chrono.Spec

/-! ### C32 -/

/-- C32: converting a day number to a date and back is the identity, for every integer day number, and the date
is one that exists. -/
theorem days_roundtrip (n : Int) :
    Valid (civilFromDays n) ∧ daysSinceEpoch (civilFromDays n) = n :=
  ⟨civil_valid n, days_civil n⟩

/-- C32: converting an existing date to a day number and back is the identity. -/
theorem date_roundtrip (c : Civil) (h : Valid c) : civilFromDays (daysSinceEpoch c) = c := civil_days c h

example : Valid ⟨2000, 2, 29⟩ ∧ civilFromDays (daysSinceEpoch ⟨2000, 2, 29⟩) = ⟨2000, 2, 29⟩ :=
  ⟨by decide, date_roundtrip _ (by decide)⟩
example : Valid ⟨-1, 12, 31⟩ := by decide

/-- C32: day number `n` is the date reached from 1 January 1970 by stepping `n` calendar days forward ... -/
theorem civil_is_nth_day (n : Nat) : civilFromDays n = after n epoch := by
  have := after_days n epoch_valid
  rw [epoch_days] at this
  rw [← civil_daysSince (after_valid n epoch_valid), this]
  simp

/-- ... and day number `-n` is the date from which stepping `n` days forward reaches 1 January 1970. -/
theorem civil_is_nth_day_back (n : Nat) : after n (civilFromDays (-n)) = epoch := by
  have h := after_days n (civil_valid (-(n : Int)))
  rw [daysSince_civil] at h
  apply days_inj (after_valid n (civil_valid _)) epoch_valid
  rw [h, epoch_days]; omega

/-- C32: consecutive dates have consecutive numbers. -/
theorem days_of_next (c : Civil) (h : Valid c) : daysSinceEpoch (next c) = daysSinceEpoch c + 1 := days_next c h

example : next ⟨1900, 2, 28⟩ = ⟨1900, 3, 1⟩ ∧ next ⟨2000, 2, 28⟩ = ⟨2000, 2, 29⟩ := by decide

/-- C32: `Date` comparison and subtraction are chronological. -/
theorem date_order (a b : Civil) (ha : Valid a) (hb : Valid b) :
    (dateLt a b = true ↔ daysSinceEpoch a < daysSinceEpoch b) ∧
    (dateLt a b = true ↔ Before a b) ∧
    (dateGt a b = true ↔ Before b a) ∧
    (dateLe a b = true ↔ (a = b ∨ Before a b)) ∧
    (dateGe a b = true ↔ (a = b ∨ Before b a)) ∧
    (0 < dateSub b a ↔ Before a b) := by
  have gt : dateGt a b = dateLt b a := rfl
  refine ⟨?_, dateLt_iff a b, ?_, ?_, ?_, ?_⟩
  · rw [dateLt_iff, before_iff ha hb]
  · rw [gt, dateLt_iff]
  · unfold dateLe; rw [Bool.or_eq_true, dateLt_iff]; simp
  · unfold dateGe; rw [Bool.or_eq_true, gt, dateLt_iff]; simp
  · rw [before_iff ha hb]; unfold dateSub; omega

example : Valid ⟨1969, 12, 31⟩ ∧ Valid ⟨1970, 1, 1⟩ ∧ Before ⟨1969, 12, 31⟩ ⟨1970, 1, 1⟩ := by
  refine ⟨by decide, by decide, ?_⟩; unfold Before; decide

/-- C32: `dayOfYear` is the position of the date in its year: one more than the days since 1 January. -/
theorem dayOfYear_spec (c : Civil) (h : Valid c) :
    dayOfYear c.year c.month c.day = daysSinceEpoch c - daysSinceEpoch ⟨c.year, 1, 1⟩ + 1 ∧
    1 ≤ dayOfYear c.year c.month c.day ∧
    dayOfYear c.year c.month c.day ≤ (if Leap c.year then 366 else 365) := by
  obtain ⟨y, m, d⟩ := c
  obtain ⟨h1, h2, h3, h4⟩ := h
  simp only at *
  have hs := F_succ (y - 1)
  simp only [Int.sub_add_cancel] at hs
  have hleap : (isLeapYear y = true) ↔ Leap y := by
    unfold isLeapYear Leap
    by_cases h1 : y % 4 = 0 <;> by_cases h2 : y % 100 = 0 <;> by_cases h3 : y % 400 = 0 <;> simp [*]
  have hm : m = 1 ∨ m = 2 ∨ m = 3 ∨ m = 4 ∨ m = 5 ∨ m = 6 ∨ m = 7 ∨ m = 8 ∨ m = 9 ∨ m = 10 ∨ m = 11 ∨ m = 12 := by
    omega
  unfold daysSinceEpoch dayOfYear
  simp only [daysFromCivil_eq, hleap]
  unfold monthLen at h4
  by_cases hl : Leap y <;> simp only [hl, if_true, if_false] at hs h4 ⊢ <;>
  rcases hm with h | h | h | h | h | h | h | h | h | h | h | h <;> subst h <;>
    simp [marchYear, marchMonth] at h4 ⊢ <;> (refine ⟨?_, ?_, ?_⟩) <;> (repeat' split) <;> omega

example : dayOfYear 2020 12 31 = 366 ∧ dayOfYear 2019 3 1 = 60 := by decide

/-! ### C51: construction -/

/-- C51 (partial): for non-negative components, `Date(y, m, d)` succeeds exactly on the existing dates of year 0
or later.  Missing: negative months/days, for which the property is false (see `date_construct_negative`). -/
theorem date_construct_partial (y m d : Int) (hm : 0 ≤ m) (hd : 0 ≤ d) :
    (mkDate y m d = .ok ⟨y, m, d⟩ ↔ (Valid ⟨y, m, d⟩ ∧ 0 ≤ y)) ∧
    (mkDate y m d = .error .nonexistentDate ↔ ¬ (Valid ⟨y, m, d⟩ ∧ 0 ≤ y)) := by
  have := isValidDate_iff y m d hm hd
  unfold Ok at this
  unfold mkDate
  by_cases h : isValidDate y m d = true
  · simp [h, this.1 h]
  · have h' : ¬ (Valid ⟨y, m, d⟩ ∧ 0 ≤ y) := fun h2 => h (this.2 h2)
    simp [h, h']

example : mkDate 2100 2 29 = .error .nonexistentDate ∧ mkDate 2000 2 29 = .ok ⟨2000, 2, 29⟩ := by decide

/-- C51 refuted for negative components: `Date(2000, 5, -3)` and `Date(2000, -1, -1)` are accepted. -/
theorem date_construct_negative :
    mkDate 2000 5 (-3) = .ok ⟨2000, 5, -3⟩ ∧ ¬ Valid ⟨2000, 5, -3⟩ ∧
    mkDate 2000 (-1) (-1) = .ok ⟨2000, -1, -1⟩ ∧ ¬ Valid ⟨2000, -1, -1⟩ := by decide

/-- C32/C51: `Date.fromDaysSinceEpoch` succeeds exactly from 1 January of year 0 on. -/
theorem fromDaysSinceEpoch_spec (n : Int) :
    (-719528 ≤ n → fromDaysSinceEpoch n = .ok (civilFromDays n) ∧ 0 ≤ (civilFromDays n).year) ∧
    (n < -719528 → fromDaysSinceEpoch n = .error .nonexistentDate ∧ (civilFromDays n).year < 0) :=
  ⟨fun h => ⟨fromDays_ok h, civil_year_nonneg h⟩, fun h => ⟨fromDays_err h, civil_year_neg h⟩⟩

/-! ### C33 -/

/-- C33 (partial): from 27 December 1969 on, `weekday()` is in 0..6, and the date `n` days after Thursday
1 January 1970 is `n` weekdays after Thursday. Missing: earlier dates, see `weekday_before_epoch`. -/
theorem weekday_partial (c : Civil) (h : Valid c) (hc : -5 ≤ daysSinceEpoch c) :
    0 ≤ weekday c ∧ weekday c ≤ 6 ∧ weekday epoch = 4 ∧
    weekday (next c) = (weekday c + 1) % 7 := by
  have h1 : weekday c = (daysSinceEpoch c + 4) % 7 := weekdayFromDays_pos hc
  have h2 : weekday (next c) = (daysSinceEpoch (next c) + 4) % 7 := weekdayFromDays_pos (by rw [next_days h]; omega)
  rw [next_days h] at h2
  refine ⟨by omega, by omega, by decide, by omega⟩

theorem weekday_nth_partial (n : Nat) : weekday (after n epoch) = (4 + n) % 7 := by
  have h := after_days n epoch_valid
  rw [epoch_days] at h
  unfold weekday
  rw [weekdayFromDays_pos (by omega), h]
  omega

example : weekday ⟨2024, 2, 29⟩ = 4 := by decide

/-- C33 refuted before the epoch: on 26 December 1969 (a Friday) `weekday()` is 12 and `weekdayString()` raises.
In general every date before 26 December 1969 gets a number ≥ 6, so six weekdays out of seven are wrong. -/
theorem weekday_before_epoch :
    weekday ⟨1969, 12, 26⟩ = 12 ∧ weekdayString ⟨1969, 12, 26⟩ = .error .badWeekday ∧
    (∀ c : Civil, daysSinceEpoch c < -5 → 6 ≤ weekday c) := by
  refine ⟨by decide, by decide, ?_⟩
  intro c h
  unfold weekday weekdayFromDays
  split <;> omega

/-- C33: what does hold for every date: the result is right modulo 7. -/
theorem weekday_mod (c : Civil) (h : Valid c) :
    weekday epoch = 4 ∧ (weekday (next c)) % 7 = (weekday c + 1) % 7 := by
  refine ⟨by decide, ?_⟩
  unfold weekday
  have h1 := weekdayFromDays_mod (daysSinceEpoch c)
  have h2 := weekdayFromDays_mod (daysSinceEpoch (next c))
  rw [next_days h] at h2
  rw [next_days h]
  omega

/-- C33 (partial): from 1970 on, the n-th weekday of a month is a date of that month with that weekday, the
`n`-th such one (its day is in the `n`-th week). Missing: years before 1970, see `nthDow_before_epoch`. -/
theorem nthDow_partial (n dow month year : Int) (hn : 1 ≤ n ∧ n ≤ 4) (hd : 0 ≤ dow ∧ dow ≤ 6)
    (hm : 1 ≤ month ∧ month ≤ 12) (hy : 1970 ≤ year) :
    ∃ day, Valid ⟨year, month, day⟩ ∧ 7 * (n - 1) < day ∧ day ≤ 7 * n ∧
      getNthDowOfMonth n dow month year = .ok (daysSinceEpoch ⟨year, month, day⟩) ∧
      weekday ⟨year, month, day⟩ = dow := by
  have hv : Valid ⟨year, month, 1⟩ := by
    have := monthLen_bounds year month
    exact ⟨hm.1, hm.2, by simp, by simp; omega⟩
  have hpos : 0 ≤ daysFromCivil year month 1 := by
    have := (before_iff (a := epoch) (b := ⟨year, month, 1⟩) epoch_valid hv)
    rw [epoch_days] at this
    by_cases he : (⟨year, month, 1⟩ : Civil) = epoch
    · have : daysSinceEpoch ⟨year, month, 1⟩ = 0 := by rw [he]; decide
      unfold daysSinceEpoch at this; simp only at this; omega
    · have hb : Before epoch ⟨year, month, 1⟩ := by
        unfold Before epoch; unfold epoch at he
        rw [Civil.mk.injEq] at he
        show (1970 : Int) < year ∨ (1970 = year ∧ (1 < month ∨ (1 = month ∧ (1 : Int) < 1)))
        omega
      have := this.1 hb
      exact Int.le_of_lt this
  have hw : weekdayFromDays (daysFromCivil year month 1) = (daysFromCivil year month 1 + 4) % 7 :=
    weekdayFromDays_pos (by omega)
  have hwd : weekdayDifference dow (weekdayFromDays (daysFromCivil year month 1)) =
      (dow - (daysFromCivil year month 1 + 4)) % 7 := by
    rw [hw]; unfold weekdayDifference; simp only; split <;> omega
  refine ⟨weekdayDifference dow (weekdayFromDays (daysFromCivil year month 1)) + 1 + (n - 1) * 7, ?_, ?_, ?_, ?_, ?_⟩
  · have := monthLen_bounds year month
    exact ⟨hm.1, hm.2, by simp; omega, by simp; omega⟩
  · omega
  · omega
  · unfold getNthDowOfMonth
    have c1 : ¬ (n < 1 ∨ n > 4) := by omega
    have c2 : ¬ (dow < 0 ∨ dow > 6) := by omega
    have c3 : ¬ (month < 1 ∨ month > 12) := by omega
    simp only [c1, c2, c3, if_false]
    rfl
  · have e : ∀ k, daysSinceEpoch ⟨year, month, k⟩ = daysFromCivil year month 1 + (k - 1) := by
      intro k; unfold daysSinceEpoch; simp only [daysFromCivil_eq]; omega
    unfold weekday
    rw [e, weekdayFromDays_pos (by omega)]
    omega

/-- C33: out-of-range arguments raise ValueError. -/
theorem nthDow_error (n dow month year : Int) :
    getNthDowOfMonth n dow month year = .error .valueError ↔
      (n < 1 ∨ 4 < n ∨ dow < 0 ∨ 6 < dow ∨ month < 1 ∨ 12 < month) := by
  unfold getNthDowOfMonth
  by_cases c1 : n < 1 ∨ n > 4
  · simp only [c1, if_true, true_iff]; omega
  · by_cases c2 : dow < 0 ∨ dow > 6
    · simp only [c1, c2, if_true, if_false, true_iff]; omega
    · by_cases c3 : month < 1 ∨ month > 12
      · rw [if_neg c1, if_neg c2, if_pos c3]; exact ⟨fun _ => by omega, fun _ => rfl⟩
      · simp only [c1, c2, c3, if_false]
        simp
        omega

example : getNthDowOfMonth 2 0 3 2021 = .ok (daysSinceEpoch ⟨2021, 3, 14⟩) := by decide

/-- C33 refuted before the epoch: the "first Sunday of June 1950" is computed to be a date outside June. -/
theorem nthDow_before_epoch :
    ∃ day, getNthDowOfMonth 1 0 6 1950 = .ok day ∧ (civilFromDays day).month ≠ 6 := by
  refine ⟨_, rfl, ?_⟩
  decide

/-! ### C34 -/

theorem ok_first {y m : Int} (hy : 0 ≤ y) (hm : 1 ≤ m ∧ m ≤ 12) : Ok ⟨y, m, 1⟩ := by
  have := monthLen_bounds y m
  exact ⟨⟨hm.1, hm.2, by simp, by simp; omega⟩, hy⟩

theorem ok_days {c : Civil} (h : Ok c) : -719528 ≤ daysSinceEpoch c := days_lower h

/-- C34: `d.next(k)` for `k ≥ 0` is the date `k` days later. -/
theorem next_spec (c : Civil) (h : Ok c) (k : Nat) : dateNext c k = .ok (after k c) ∧ Ok (after k c) := by
  have h1 := after_days k h.1
  have h2 := ok_days h
  unfold dateNext
  rw [← h1, fromDays_ok (by omega), civil_daysSince (after_valid k h.1)]
  refine ⟨rfl, after_valid k h.1, ?_⟩
  have := civil_year_nonneg (n := daysSinceEpoch (after k c)) (by omega)
  rwa [civil_daysSince (after_valid k h.1)] at this

/-- C34: `d.previous(k)` is the date from which `k` days later is `d`; a negative step raises; dates before year 0
raise NonexistentDate. -/
theorem previous_spec (c : Civil) (h : Ok c) (k : Nat) :
    (datePrevious c k = .error .nonexistentDate ∧ daysSinceEpoch c - k < -719528) ∨
    ∃ r, datePrevious c k = .ok r ∧ Ok r ∧ after k r = c := by
  unfold datePrevious dateNext
  have hk : ¬ ((k : Int) < 0) := by omega
  simp only [hk, if_false]
  rcases Int.lt_or_le (daysSinceEpoch c + -(k : Int)) (-719528) with h1 | h1
  · left; exact ⟨fromDays_err h1, by omega⟩
  · right
    refine ⟨_, fromDays_ok h1, civil_ok h1, ?_⟩
    apply days_inj (after_valid _ (civil_valid _)) h.1
    rw [after_days k (civil_valid _), daysSince_civil]
    omega

example : Ok ⟨2024, 3, 1⟩ ∧ datePrevious ⟨2024, 3, 1⟩ 1 = .ok ⟨2024, 2, 29⟩ := by decide

/-- C34: `d.nextWeekday(w)` is the first date on or after `d` (`k < 7` days later) whose weekday is `w`.
(Stated with the true weekday, i.e. counting days from Thursday 1 January 1970, because `weekday()` itself is wrong
for old dates.) -/
theorem nextWeekday_spec (c : Civil) (h : Ok c) (w : Int) (hw : 0 ≤ w ∧ w ≤ 6) :
    ∃ k : Nat, k < 7 ∧ nextWeekday c w = .ok (after k c) ∧
      (daysSinceEpoch (after k c) + 4) % 7 = w ∧
      ∀ j : Nat, j < k → (daysSinceEpoch (after j c) + 4) % 7 ≠ w := by
  have hm := weekdayFromDays_mod (daysSinceEpoch c)
  obtain ⟨K, hK⟩ : ∃ K : Int, K = (w - weekday c) % 7 := ⟨_, rfl⟩
  have hK0 : 0 ≤ K ∧ K < 7 := by omega
  refine ⟨K.toNat, by omega, ?_, ?_, ?_⟩
  · unfold nextWeekday
    simp only [← hK]
    have := (next_spec c h K.toNat).1
    rwa [Int.toNat_of_nonneg hK0.1] at this
  · rw [after_days _ h.1, Int.toNat_of_nonneg hK0.1]
    unfold weekday at hK; omega
  · intro j hj
    rw [after_days _ h.1]
    unfold weekday at hK; omega

example : nextWeekday ⟨2024, 2, 27⟩ 5 = .ok ⟨2024, 3, 1⟩ := by decide

/-- C34 refuted for `lastWeekday`: asking Wednesday 10 January 2024 for the last Tuesday (w = 2) returns
Thursday 4 January 2024. -/
theorem lastWeekday_wrong :
    lastWeekday ⟨2024, 1, 10⟩ 2 = .ok ⟨2024, 1, 4⟩ ∧ weekday ⟨2024, 1, 4⟩ = 4 := by decide

/-- What `lastWeekday` really does for every date at least six days after 1 January of year 0: it goes back as many
days as `nextWeekday` would go forward, so it lands on weekday `2*weekday(d) - w` (mod 7) and is right only when that
is `w`, i.e. when `d` is already on weekday `w`. -/
theorem lastWeekday_partial (c : Civil) (h : Ok c) (hc : -719522 ≤ daysSinceEpoch c) (w : Int) (hw : 0 ≤ w ∧ w ≤ 6) :
    ∃ r, lastWeekday c w = .ok r ∧ ((daysSinceEpoch r + 4) % 7 = w ↔ (daysSinceEpoch c + 4) % 7 = w) := by
  have hm := weekdayFromDays_mod (daysSinceEpoch c)
  obtain ⟨K, hK⟩ : ∃ K : Int, K = (w - weekday c) % 7 := ⟨_, rfl⟩
  unfold lastWeekday datePrevious dateNext
  simp only [← hK]
  have : ¬ K < 0 := by omega
  simp only [this, if_false]
  refine ⟨_, fromDays_ok (by omega), ?_⟩
  rw [daysSince_civil]
  unfold weekday at hK
  omega

/-- C34: `nextMonthStart(step)` is the first of the month `step` months later. -/
theorem nextMonthStart_spec (c : Civil) (h : Ok c) (step : Int) :
    (∃ r, nextMonthStart c step = .ok r ∧ Ok r ∧ r.day = 1 ∧
      r.year * 12 + (r.month - 1) = c.year * 12 + (c.month - 1) + step) ∨
    (nextMonthStart c step = .error .nonexistentDate ∧ c.year * 12 + (c.month - 1) + step < 0) := by
  unfold nextMonthStart
  simp only
  rcases Int.lt_or_le (c.year + (c.month - 1 + step) / 12) 0 with h1 | h1
  · right; exact ⟨mkDate_year_neg h1, by omega⟩
  · left
    have ho := ok_first (y := c.year + (c.month - 1 + step) / 12) (m := (c.month - 1 + step) % 12 + 1) h1 (by omega)
    refine ⟨_, mkDate_ok ho, ho, rfl, ?_⟩
    simp only
    omega

/-- C34: `lastDayOfMonth()` is the same year and month with the month's length as day. -/
theorem lastDayOfMonth_spec (c : Civil) (h : Ok c) :
    lastDayOfMonth c = .ok { c with day := monthLen c.year c.month } ∧
    Ok { c with day := monthLen c.year c.month } := by
  have hml := monthLen_bounds c.year c.month
  obtain ⟨⟨h1, h2, h3, h4⟩, h5⟩ := h
  have hl : Ok { c with day := monthLen c.year c.month } := ⟨⟨h1, h2, by simp; omega, by simp⟩, h5⟩
  refine ⟨?_, hl⟩
  have hn := next_days hl.1
  have hnv := next_valid hl.1
  have hs : nextMonthStart c 1 = .ok (next { c with day := monthLen c.year c.month }) := by
    have e : next { c with day := monthLen c.year c.month } =
        ⟨c.year + (c.month - 1 + 1) / 12, (c.month - 1 + 1) % 12 + 1, 1⟩ := by
      unfold next
      simp only [Int.lt_irrefl, if_false]
      split <;> rw [Civil.mk.injEq] <;> omega
    rw [e]
    exact mkDate_ok (ok_first (by omega) (by omega))
  unfold lastDayOfMonth
  rw [hs]
  show fromDaysSinceEpoch (daysSinceEpoch (next _) - 1) = _
  rw [hn, Int.add_sub_cancel, fromDays_ok (ok_days hl), civil_daysSince hl.1]

/-- C34: `daysInMonth()` is the calendar length of the month. -/
theorem daysInMonth_spec (c : Civil) (h : Ok c) : daysInMonth c = .ok (monthLen c.year c.month) := by
  unfold daysInMonth
  rw [(lastDayOfMonth_spec c h).1]
  have hf := mkDate_ok (ok_first (y := c.year) (m := c.month) h.2 ⟨h.1.1, h.1.2.1⟩)
  simp only at hf
  simp only [bind, Except.bind]
  rw [hf]
  simp only
  unfold dateSub daysSinceEpoch
  simp only [daysFromCivil_eq]
  congr 1
  omega

/-- C34: `nextMonth(k)` lands `k` months later, on the same day or on the last day of a shorter month. -/
theorem nextMonth_spec (c : Civil) (h : Ok c) (step : Int) (hpos : 0 ≤ c.year * 12 + (c.month - 1) + step) :
    ∃ r, nextMonth c step 0 = .ok r ∧ Ok r ∧
      r.year * 12 + (r.month - 1) = c.year * 12 + (c.month - 1) + step ∧
      r.day = min c.day (monthLen r.year r.month) := by
  rcases nextMonthStart_spec c h step with ⟨s, hs, hso, hs1, hs2⟩ | ⟨_, hneg⟩
  · have hd := daysInMonth_spec s hso
    have hml := monthLen_bounds s.year s.month
    have hr : Ok ⟨s.year, s.month, min (monthLen s.year s.month) c.day⟩ := by
      refine ⟨⟨hso.1.1, hso.1.2.1, ?_, ?_⟩, hso.2⟩
      · have := h.1.2.2.1; simp only; omega
      · simp only; omega
    refine ⟨_, ?_, hr, hs2, ?_⟩
    · unfold nextMonth
      rw [hs]
      simp only [bind, Except.bind]
      rw [hd]
      exact mkDate_ok hr
    · simp only; omega
  · omega

/-- C34: `nextYear(k)` lands `k` years later, 29 February becoming 28 February when needed. -/
theorem nextYear_spec (c : Civil) (h : Ok c) (step : Int) (hpos : 0 ≤ c.year + step) :
    ∃ r, nextYear c step 0 = .ok r ∧ Ok r ∧ r.year = c.year + step ∧ r.month = c.month ∧
      r.day = min c.day (monthLen r.year r.month) := by
  have hf := ok_first (y := c.year + step) (m := c.month) hpos ⟨h.1.1, h.1.2.1⟩
  have hd := daysInMonth_spec _ hf
  have hml := monthLen_bounds (c.year + step) c.month
  have hr : Ok ⟨c.year + step, c.month, min (monthLen (c.year + step) c.month) c.day⟩ := by
    refine ⟨⟨h.1.1, h.1.2.1, ?_, ?_⟩, hpos⟩
    · have := h.1.2.2.1; simp only; omega
    · simp only; omega
  have hfm := mkDate_ok hf
  simp only at hfm hd
  refine ⟨_, ?_, hr, rfl, rfl, ?_⟩
  · unfold nextYear
    simp only [bind, Except.bind]
    rw [hfm]
    simp only
    rw [hd]
    exact mkDate_ok hr
  · simp only; omega

/-- C34: quarter of the year. -/
theorem quarter_spec (c : Civil) (h : Valid c) :
    1 ≤ quarterOfYear c ∧ quarterOfYear c ≤ 4 ∧
      3 * (quarterOfYear c - 1) < c.month ∧ c.month ≤ 3 * quarterOfYear c := by
  obtain ⟨h1, h2, _⟩ := h
  unfold quarterOfYear
  omega

/-- C34: days left in the month and the year. -/
theorem daysUntilEnd_spec (c : Civil) (h : Ok c) :
    daysUntilEndOfMonth c = .ok (monthLen c.year c.month - c.day) ∧
    daysUntilEndOfYear c = .ok ((if Leap c.year then 366 else 365) - dayOfYear c.year c.month c.day) := by
  constructor
  · unfold daysUntilEndOfMonth
    rw [(lastDayOfMonth_spec c h).1]
    simp only [bind, Except.bind]
    unfold dateSub daysSinceEpoch
    simp only [daysFromCivil_eq]
    congr 1
    omega
  · have hl : Ok ⟨c.year, 12, 31⟩ := ⟨⟨by simp, by simp, by simp, by simp [monthLen]⟩, h.2⟩
    unfold daysUntilEndOfYear lastDayOfYear
    have hm := mkDate_ok hl
    simp only at hm
    rw [hm, (dayOfYear_spec c h.1).1]
    simp only [bind, Except.bind]
    have h2 := (dayOfYear_spec _ hl.1).1
    simp only at h2
    have h3 : dayOfYear c.year 12 31 = if Leap c.year then 366 else 365 := by
      have hleap : (isLeapYear c.year = true) ↔ Leap c.year := by
        unfold isLeapYear Leap
        by_cases h1 : c.year % 4 = 0 <;> by_cases h2 : c.year % 100 = 0 <;> by_cases h3 : c.year % 400 = 0 <;>
          simp [*]
      unfold dayOfYear
      simp only [hleap]
      by_cases hy : Leap c.year <;> simp [hy]
    rw [h3] at h2
    unfold dateSub
    congr 1
    omega

example : nextMonth ⟨2023, 1, 31⟩ 1 0 = .ok ⟨2023, 2, 28⟩ ∧ nextYear ⟨2024, 2, 29⟩ 1 0 = .ok ⟨2025, 2, 28⟩ := by decide

end Verif.Chrono.Props
