import Verif.Chrono.TzLemmas
import Verif.Chrono.Props
/-
Property theorems C35 (fixed offset zones), C36 (daylight saving zones).
-/
namespace Verif.Chrono.Props
open Verif.Chrono Verif.Chrono.Spec

/-! ### C35 -/

/-- C35: in every fixed-offset zone, every instant whose local reading is in year 0 or later has a clock reading, and
converting the reading back gives the instant. -/
theorem fixed_roundtrip_ts (z : FixedZone) (ts : Int) (h : -719528 * 86400 ≤ ts + z.offset) (fold : Bool) :
    ∃ d, z.datetime ts = .ok d ∧ DtOk d ∧ z.timestamp d fold = .ok ts := by
  refine ⟨_, datetimeFromTs_ok h, ofLocal_ok h, ?_⟩
  unfold FixedZone.timestamp
  rw [tsFrom_local, local_ofLocal]
  congr 1; omega

/-- C35: every clock reading converts to an instant that reads the same. -/
theorem fixed_roundtrip_dt (z : FixedZone) (d : DateTime) (h : DtOk d) (fold : Bool) :
    ∃ ts, z.timestamp d fold = .ok ts ∧ z.datetime ts = .ok d := by
  refine ⟨_, rfl, ?_⟩
  unfold FixedZone.datetime
  have hl := local_lower h
  rw [tsFrom_local, datetimeFromTs_ok (by omega), show localSec d - z.offset + z.offset = localSec d by omega,
    ofLocal_local h.1.1 h.2]

/-- C35: later instants read later, and equal readings mean equal instants. -/
theorem fixed_monotone (z : FixedZone) (t₁ t₂ : Int) (d₁ d₂ : DateTime) (h₁ : z.datetime t₁ = .ok d₁)
    (h₂ : z.datetime t₂ = .ok d₂) : (dtLt d₁ d₂ = true ↔ t₁ < t₂) ∧ (d₁ = d₂ ↔ t₁ = t₂) := by
  have key : ∀ t d, z.datetime t = .ok d → DtOk d ∧ localSec d = t + z.offset := by
    intro t d h
    unfold FixedZone.datetime at h
    rcases Int.lt_or_le (t + z.offset) (-719528 * 86400) with hl | hl
    · rw [datetimeFromTs_err hl] at h; cases h
    · rw [datetimeFromTs_ok hl] at h
      cases h
      exact ⟨ofLocal_ok hl, local_ofLocal _⟩
  obtain ⟨a1, a2⟩ := key _ _ h₁
  obtain ⟨b1, b2⟩ := key _ _ h₂
  constructor
  · rw [dtLt_iff a1 b1, a2, b2]; omega
  · constructor
    · intro h; rw [h] at a2; omega
    · intro h; apply local_inj a1.1.1 a1.2 b1.1.1 b1.2; omega

example : FixedZone.datetime ⟨-18000⟩ (-1) = .ok (dtLit 1969 12 31 18 59 59) := by decide

/-- C35: `DateTime + seconds` moves the clock by that many seconds, and `-` undoes it. -/
theorem dt_add_sub (d : DateTime) (h : DtOk d) (k : Int) (hk : -719528 * 86400 ≤ localSec d + k) :
    ∃ d', dtAdd d k = .ok d' ∧ DtOk d' ∧ localSec d' = localSec d + k ∧ dtSub d' k = .ok d := by
  have e : tsFromDatetime d 0 + k + 0 = localSec d + k := by rw [tsFrom_local]; omega
  refine ⟨ofLocal (localSec d + k), ?_, ofLocal_ok hk, local_ofLocal _, ?_⟩
  · unfold dtAdd; rw [datetimeFromTs_ok (by omega), e]
  · unfold dtSub
    have hl := local_lower h
    have e2 : tsFromDatetime (ofLocal (localSec d + k)) 0 - k + 0 = localSec d := by
      rw [tsFrom_local, local_ofLocal]; omega
    rw [datetimeFromTs_ok (by omega), e2, ofLocal_local h.1.1 h.2]

/-! ### C36 -/

/-- `last_weekday_of_month` returns the last date of the month with that weekday. -/
theorem lastWeekdayOfMonth_spec (year month w : Int) (hy : 0 ≤ year) (hm : 1 ≤ month ∧ month ≤ 12)
    (hw : 0 ≤ w ∧ w ≤ 6) :
    ∃ day, lastWeekdayOfMonth year month w = .ok ⟨year, month, day⟩ ∧ Ok ⟨year, month, day⟩ ∧
      monthLen year month - 7 < day ∧ day ≤ monthLen year month ∧
      (daysSinceEpoch ⟨year, month, day⟩ + 4) % 7 = w := by
  have hf := ok_first hy hm
  have hml := monthLen_bounds year month
  have hl := lastDayOfMonth_spec _ hf
  simp only at hl
  obtain ⟨k, hk⟩ : ∃ k, k = (weekday ⟨year, month, monthLen year month⟩ - w) % 7 := ⟨_, rfl⟩
  have hk0 : 0 ≤ k ∧ k < 7 := by omega
  have hd : ∀ j, daysSinceEpoch ⟨year, month, j⟩ = daysFromCivil year month 1 + (j - 1) := by
    intro k; unfold daysSinceEpoch; simp only [daysFromCivil_eq]; omega
  have hr : Ok ⟨year, month, monthLen year month - k⟩ :=
    ⟨⟨hm.1, hm.2, by simp only; omega, by simp only; omega⟩, hy⟩
  refine ⟨monthLen year month - k, ?_, hr, by omega, by omega, ?_⟩
  · unfold lastWeekdayOfMonth
    have hfm := mkDate_ok hf
    simp only at hfm
    rw [hfm]
    simp only [bind, Except.bind]
    rw [hl.1]
    simp only
    have e : daysSinceEpoch ⟨year, month, monthLen year month⟩ - k =
        daysSinceEpoch ⟨year, month, monthLen year month - k⟩ := by rw [hd, hd]; omega
    rw [← hk, e, fromDays_ok (days_lower hr), civil_daysSince hr.1]
  · have hm7 := weekdayFromDays_mod (daysSinceEpoch ⟨year, month, monthLen year month⟩)
    unfold weekday at hk
    rw [hd] at hm7 hk ⊢
    omega

theorem atTwo_ok (d : Civil) : atTwo d = .ok ⟨d, ⟨2, 0, 0⟩⟩ := by rfl

/-- A year's boundaries are suitable when both dates exist, are in that year in order, and are not within two days
of New Year. -/
theorem boundsOk_of {y ms ds me de : Int} (hs : Ok ⟨y, ms, ds⟩) (he : Ok ⟨y, me, de⟩)
    (hs' : 1 < ms ∨ 3 ≤ ds) (he' : me < 12) (hse : ms < me) :
    BoundsOk y ⟨⟨y, ms, ds⟩, ⟨2, 0, 0⟩⟩ ⟨⟨y, me, de⟩, ⟨2, 0, 0⟩⟩ := by
  have ht : TimeOk ⟨2, 0, 0⟩ := by decide
  have hm1 := hs.1.1
  have v3 : Valid ⟨y, 1, 3⟩ := ⟨by simp, by simp, by simp, by simp [monthLen]⟩
  have v29 : Valid ⟨y, 12, 28⟩ := ⟨by simp, by simp, by simp, by simp [monthLen]⟩
  have e3 : daysSinceEpoch ⟨y, 1, 3⟩ = jan1 y + 2 := by
    unfold jan1 daysSinceEpoch; simp only [daysFromCivil_eq]; omega
  have e29 : daysSinceEpoch ⟨y, 12, 28⟩ + 4 = jan1 (y + 1) := by
    unfold jan1 daysSinceEpoch; simp only [daysFromCivil_eq]
    simp [marchYear, marchMonth]; omega
  refine ⟨⟨hs, ht⟩, ⟨he, ht⟩, ?_, ?_, ?_, rfl, rfl⟩
  · simp only
    rw [← e3]
    rcases Classical.em ((⟨y, ms, ds⟩ : Civil) = ⟨y, 1, 3⟩) with h | h
    · rw [h]; omega
    · have : Before ⟨y, 1, 3⟩ ⟨y, ms, ds⟩ := by
        simp only at hm1
        rw [Civil.mk.injEq] at h
        show y < y ∨ (y = y ∧ (1 < ms ∨ (1 = ms ∧ 3 < ds)))
        omega
      have := (before_iff v3 hs.1).1 this
      omega
  · exact (before_iff hs.1 he.1).1 (Or.inr ⟨rfl, Or.inl hse⟩)
  · simp only
    have : Before ⟨y, me, de⟩ ⟨y, 12, 28⟩ := Or.inr ⟨rfl, Or.inl he'⟩
    have := (before_iff he.1 v29).1 this
    omega

/-- The rule `UsTimezone` uses in a year from 1946 on. -/
def usRule (year : Int) : Rule :=
  if year ≥ 2007 then .nthWeekday 2 0 3 1 0 11
  else if year ≥ 1987 then .nthToLast 1 0 4 0 10
  else if year = 1975 then .explicit (dtLit 1975 2 23 2 0 0) (dtLit 1975 10 26 2 0 0)
  else if year = 1974 then .explicit (dtLit 1974 1 6 2 0 0) (dtLit 1974 10 27 2 0 0)
  else if year ≥ 1955 then .lastWeekday 0 4 0 10
  else .lastWeekday 0 4 0 9

theorem choose_usRule (st dst : Int) {year : Int} (h : 1946 ≤ year) :
    chooseTimezone st dst year = .dst ⟨dst, st, usRule year⟩ := by
  unfold chooseTimezone usRule
  (repeat' split) <;> first | rfl | omega

theorem nthDate_ok {n w m y : Int} (hn : 1 ≤ n ∧ n ≤ 4) (hw : 0 ≤ w ∧ w ≤ 6) (hm : 1 ≤ m ∧ m ≤ 12) (hy : 1970 ≤ y) :
    ∃ day, nthDate n w m y = .ok ⟨y, m, day⟩ ∧ Ok ⟨y, m, day⟩ := by
  obtain ⟨day, hv, _, _, hg, _⟩ := nthDow_partial n w m y hn hw hm hy
  have hok : Ok ⟨y, m, day⟩ := ⟨hv, by simp only; omega⟩
  refine ⟨day, ?_, hok⟩
  unfold nthDate
  rw [hg]
  show fromDaysSinceEpoch _ = _
  rw [fromDays_ok (days_lower hok), civil_daysSince hv]

/-- Every rule the US zones use from 1946 on yields suitable boundaries. -/
theorem usRule_bounds (y : Int) (hy : 1946 ≤ y) :
    ∃ s e, (usRule y).start y = .ok s ∧ (usRule y).end y = .ok e ∧ BoundsOk y s e := by
  unfold usRule
  split
  · obtain ⟨d1, h1, o1⟩ := nthDate_ok (n := 2) (w := 0) (m := 3) (y := y) (by omega) (by omega) (by omega) (by omega)
    obtain ⟨d2, h2, o2⟩ := nthDate_ok (n := 1) (w := 0) (m := 11) (y := y) (by omega) (by omega) (by omega) (by omega)
    refine ⟨_, _, ?_, ?_, boundsOk_of o1 o2 (by omega) (by omega) (by omega)⟩
    · show (do atTwo (← nthDate 2 0 3 y)) = _
      rw [h1]; rfl
    · show (do atTwo (← nthDate 1 0 11 y)) = _
      rw [h2]; rfl
  · split
    · obtain ⟨d1, h1, o1⟩ := nthDate_ok (n := 1) (w := 0) (m := 4) (y := y) (by omega) (by omega) (by omega) (by omega)
      obtain ⟨d2, h2, o2, _⟩ := lastWeekdayOfMonth_spec y 10 0 (by omega) (by omega) (by omega)
      refine ⟨_, _, ?_, ?_, boundsOk_of o1 o2 (by omega) (by omega) (by omega)⟩
      · show (do atTwo (← nthDate 1 0 4 y)) = _
        rw [h1]; rfl
      · show (do atTwo (← lastWeekdayOfMonth y 10 0)) = _
        rw [h2]; rfl
    · split
      · subst y
        refine ⟨dtLit 1975 2 23 2 0 0, dtLit 1975 10 26 2 0 0, by decide, by decide, ?_⟩
        exact boundsOk_of (by decide) (by decide) (by omega) (by omega) (by omega)
      · split
        · subst y
          refine ⟨dtLit 1974 1 6 2 0 0, dtLit 1974 10 27 2 0 0, by decide, by decide, ?_⟩
          exact boundsOk_of (by decide) (by decide) (by omega) (by omega) (by omega)
        · split
          · obtain ⟨d1, h1, o1, _⟩ := lastWeekdayOfMonth_spec y 4 0 (by omega) (by omega) (by omega)
            obtain ⟨d2, h2, o2, _⟩ := lastWeekdayOfMonth_spec y 10 0 (by omega) (by omega) (by omega)
            refine ⟨_, _, ?_, ?_, boundsOk_of o1 o2 (by omega) (by omega) (by omega)⟩
            · show (do atTwo (← lastWeekdayOfMonth y 4 0)) = _
              rw [h1]; rfl
            · show (do atTwo (← lastWeekdayOfMonth y 10 0)) = _
              rw [h2]; rfl
          · obtain ⟨d1, h1, o1, _⟩ := lastWeekdayOfMonth_spec y 4 0 (by omega) (by omega) (by omega)
            obtain ⟨d2, h2, o2, _⟩ := lastWeekdayOfMonth_spec y 9 0 (by omega) (by omega) (by omega)
            refine ⟨_, _, ?_, ?_, boundsOk_of o1 o2 (by omega) (by omega) (by omega)⟩
            · show (do atTwo (← lastWeekdayOfMonth y 4 0)) = _
              rw [h1]; rfl
            · show (do atTwo (← lastWeekdayOfMonth y 9 0)) = _
              rw [h2]; rfl

/-- The value of a successful outcome (used to turn per-year boundaries into functions of the year). -/
def okOr (d : DateTime) : Except DErr DateTime → DateTime
  | .ok x => x
  | .error _ => d

/-- Round trip for any per-year choice of rule, as long as the boundaries of the years involved are suitable. -/
theorem dst_roundtrip_gen (st ts : Int) (R : Int → Rule) (hst : -86400 < st ∧ st < 82800)
    (y : Int) (hy : y = (civilFromDays (ts / 86400)).year) (hy0 : 1 ≤ y)
    (hR : ∀ y', (y' = y - 1 ∨ y' = y ∨ y' = y + 1) →
      ∃ s e, (R y').start y' = .ok s ∧ (R y').end y' = .ok e ∧ BoundsOk y' s e) :
    ∃ d fold, DstZone.datetime ⟨st + 3600, st, R y⟩ ts = .ok d ∧ DtOk d ∧
      DstZone.timestamp ⟨st + 3600, st, R d.date.year⟩ d fold = .ok ts := by
  let dflt : DateTime := dtLit 1970 1 1 0 0 0
  let S : Int → DateTime := fun y' => okOr dflt ((R y').start y')
  let E : Int → DateTime := fun y' => okOr dflt ((R y').end y')
  have hSE : ∀ y', (y' = y - 1 ∨ y' = y ∨ y' = y + 1) →
      (R y').start y' = .ok (S y') ∧ (R y').end y' = .ok (E y') ∧ BoundsOk y' (S y') (E y') := by
    intro y' h
    obtain ⟨s, e, h1, h2, h3⟩ := hR y' h
    have e1 : S y' = s := by simp only [S, h1, okOr]
    have e2 : E y' = e := by simp only [E, h2, okOr]
    rw [e1, e2]; exact ⟨h1, h2, h3⟩
  obtain ⟨fold, h1, h2, h3⟩ := dst_core st S E ts y hst hy hy0 (fun y' h => (hSE y' h).2.2)
  obtain ⟨hs, he, hB⟩ := hSE y (Or.inr (Or.inl rfl))
  generalize hoff : (if ts < localSec (S y) - st ∨ ts > localSec (E y) - (st + 3600) then st else st + 3600) = off at *
  have hj1 : jan1 1 = -719162 := by decide
  have hyr := (year_iff (civil_valid (ts / 86400)) y).1 hy.symm
  rw [daysSince_civil] at hyr
  have hjy : jan1 1 ≤ jan1 y := by
    rcases Int.lt_or_le 1 y with h | h
    · have : Before ⟨1, 1, 1⟩ ⟨y, 1, 1⟩ := Or.inl h
      have := (before_iff (jan1_valid 1) (jan1_valid y)).1 this
      unfold jan1; omega
    · have : y = 1 := by omega
      rw [this]; omega
  have hoff' : off = st ∨ off = st + 3600 := by rw [← hoff]; split <;> simp
  have hlow : -719528 * 86400 ≤ ts + off := by rcases hoff' with h | h <;> rw [h] <;> omega
  have hdo : DtOk (ofLocal (ts + off)) := ofLocal_ok hlow
  have hday : daysSinceEpoch (ofLocal (ts + off)).date = (ts + off) / 86400 := by
    rw [← local_day hdo, local_ofLocal]
  have hyd : (ofLocal (ts + off)).date.year = y - 1 ∨ (ofLocal (ts + off)).date.year = y ∨
      (ofLocal (ts + off)).date.year = y + 1 := by
    have s1 := jan1_succ (y - 1)
    have s2 := jan1_succ (y + 1)
    simp only [Int.sub_add_cancel] at s1
    have hdr : jan1 y - 1 ≤ (ts + off) / 86400 ∧ (ts + off) / 86400 ≤ jan1 (y + 1) := by
      rcases hoff' with h | h <;> rw [h] <;> omega
    rcases Int.lt_or_le ((ts + off) / 86400) (jan1 y) with h | h
    · left
      refine (year_iff hdo.1.1 (y - 1)).2 ?_
      simp only [Int.sub_add_cancel]; omega
    · rcases Int.lt_or_le ((ts + off) / 86400) (jan1 (y + 1)) with h' | h'
      · right; left; exact (year_iff hdo.1.1 y).2 (by omega)
      · right; right; exact (year_iff hdo.1.1 (y + 1)).2 (by omega)
  obtain ⟨hs', he', hB'⟩ := hSE _ hyd
  refine ⟨ofLocal (ts + off), fold, ?_, hdo, ?_⟩
  · unfold DstZone.datetime
    simp only [← hy, hs, he, bind, Except.bind]
    rw [← datetimeFromTs_ok hlow, ← hoff]
    have e1 : daysSinceEpoch (S y).date * 86400 - st + secondsSinceMidnight (S y).timeOfDay = localSec (S y) - st := by
      unfold localSec; omega
    have e2 : daysSinceEpoch (E y).date * 86400 - (st + 3600) + secondsSinceMidnight (E y).timeOfDay =
      localSec (E y) - (st + 3600) := by
      unfold localSec; omega
    rw [e1, e2]
  · unfold DstZone.timestamp
    simp only [hs', he', bind, Except.bind]
    rw [h1, h2]
    simp only [Bool.false_eq_true, if_false]
    rw [tsFrom_local]
    congr 1

/-- C36 (partial): in a US zone (any standard offset within a day, daylight saving one hour ahead) every instant of
the years 1947 on has a clock reading, and `timestamp` with one of the two fold flags gives the instant back.
Missing: earlier years (`SwitchOffsetTimezone`, see `switch_roundtrip`) and the behaviour at the boundary instants,
refuted below. -/
theorem us_roundtrip_partial (st ts : Int) (hst : -86400 < st ∧ st < 82800)
    (hy : 1947 ≤ (civilFromDays (ts / 86400)).year) :
    ∃ d fold, usDatetime st (st + 3600) ts = .ok d ∧ DtOk d ∧ usTimestamp st (st + 3600) d fold = .ok ts := by
  obtain ⟨y, hyy⟩ : ∃ y, y = (civilFromDays (ts / 86400)).year := ⟨_, rfl⟩
  obtain ⟨d, fold, h1, h2, h3⟩ := dst_roundtrip_gen st ts usRule hst y hyy (by omega)
    (fun y' h => usRule_bounds y' (by omega))
  refine ⟨d, fold, ?_, h2, ?_⟩
  · unfold usDatetime
    rw [← hyy, choose_usRule _ _ (by omega)]
    exact h1
  · have hd : 1946 ≤ d.date.year := by
      -- otherwise the zone would differ; the local year is within one of `y`
      unfold DstZone.datetime at h1
      obtain ⟨s, e, hs, he, hB⟩ := usRule_bounds y (by omega)
      simp only [← hyy, hs, he, bind, Except.bind] at h1
      obtain ⟨off, hoff', h1⟩ : ∃ off, (off = st ∨ off = st + 3600) ∧ datetimeFromTs ts off = .ok d := by
        refine ⟨_, ?_, h1⟩
        split <;> simp
      have hyr := (year_iff (civil_valid (ts / 86400)) y).1 hyy.symm
      rw [daysSince_civil] at hyr
      rcases Int.lt_or_le (ts + off) (-719528 * 86400) with hl | hl
      · rw [datetimeFromTs_err hl] at h1; cases h1
      · rw [datetimeFromTs_ok hl] at h1
        cases h1
        have hday : daysSinceEpoch (ofLocal (ts + off)).date = (ts + off) / 86400 := by
          rw [← local_day h2, local_ofLocal]
        rcases Int.lt_or_le (ofLocal (ts + off)).date.year (y - 1) with h | h
        · exfalso
          have s1 := jan1_succ (y - 1)
          simp only [Int.sub_add_cancel] at s1
          have hb : Before (ofLocal (ts + off)).date ⟨y - 1, 1, 1⟩ := Or.inl h
          have := (before_iff h2.1.1 (jan1_valid (y - 1))).1 hb
          have hj : daysSinceEpoch ⟨y - 1, 1, 1⟩ = jan1 (y - 1) := rfl
          rcases hoff' with h | h <;> omega
        · omega
    unfold usTimestamp
    rw [choose_usRule _ _ hd]
    exact h3

/-- Non-triviality: an instant inside the repeated hour of November 2021 in US Eastern time needs the fold flag. -/
example : usDatetime (-18000) (-14400) 1636266600 = .ok (dtLit 2021 11 7 1 30 0) ∧
    usTimestamp (-18000) (-14400) (dtLit 2021 11 7 1 30 0) true = .ok 1636266600 ∧
    usTimestamp (-18000) (-14400) (dtLit 2021 11 7 1 30 0) false = .ok 1636263000 := by decide

/-- C36 (partial): in a daylight saving zone with suitable boundaries, a valid local time raises NonexistentDateTime
exactly when it lies in the hour skipped by the spring change. -/
theorem nonexistent_iff_partial (z : DstZone) (d : DateTime) (h : DtOk d) (s e : DateTime)
    (hs : z.rule.start d.date.year = .ok s) (he : z.rule.end d.date.year = .ok e) (hB : BoundsOk d.date.year s e) :
    z.timestamp d false = .error .nonexistentDateTime ↔ (localSec s ≤ localSec d ∧ localSec d < localSec s + 3600) := by
  unfold DstZone.timestamp
  simp only [hs, he, bind, Except.bind, Bool.false_and, Bool.false_eq_true, if_false]
  have hh := hour_local h
  have hL := localSec_two hB.sTwo
  have ht := h.2
  unfold TimeOk at ht
  by_cases hc : (d.date == s.date && d.timeOfDay.hour == s.timeOfDay.hour) = true
  · simp only [hc, if_true, true_iff]
    rw [Bool.and_eq_true] at hc
    have h1 : d.date = s.date := by simpa using hc.1
    have h2 : d.timeOfDay.hour = s.timeOfDay.hour := by simpa using hc.2
    rw [hB.sTwo] at h2
    simp only at h2
    rw [h1, h2] at hh
    omega
  · rw [if_neg hc]
    simp only [reduceCtorEq, false_iff]
    intro hx
    apply hc
    have hday : daysSinceEpoch d.date = daysSinceEpoch s.date := by omega
    have h1 := days_inj h.1.1 hB.sOk.1.1 hday
    have h2 : d.timeOfDay.hour = 2 := by rw [hday] at hh; omega
    rw [Bool.and_eq_true, hB.sTwo]
    simp [h1, h2]

example : usTimestamp (-18000) (-14400) (dtLit 2021 3 14 2 30 0) false = .error .nonexistentDateTime := by decide

/-- C36 refuted at the end of daylight saving: at the very instant clocks go back (2021-11-07 06:00 UTC) the code still
shows 02:00 (daylight) instead of 01:00, so 02:00 is shown twice (one hour apart) and 01:00 only once; the local time
01:00 with `afterFold=True` converts to an instant at which the zone shows 02:00. -/
theorem dst_end_off_by_one :
    usDatetime (-18000) (-14400) 1636264800 = .ok (dtLit 2021 11 7 2 0 0) ∧
    usDatetime (-18000) (-14400) (1636264800 + 3600) = .ok (dtLit 2021 11 7 2 0 0) ∧
    usTimestamp (-18000) (-14400) (dtLit 2021 11 7 1 0 0) true = .ok 1636264800 := by decide

/-- C36 refuted: `afterFold=True` is accepted for any time of the change day before 02:00, even one that happens only
once; 00:30 "after the fold" converts to an instant at which the clock shows 01:30. -/
theorem fold_check_too_weak :
    usTimestamp (-18000) (-14400) (dtLit 2021 11 7 0 30 0) true = .ok 1636263000 ∧
    usDatetime (-18000) (-14400) 1636263000 = .ok (dtLit 2021 11 7 1 30 0) := by decide

/-- C36 (partial): zones that switch offset once: every instant at least an hour of local time away from the switch
round-trips without a fold flag. -/
theorem switch_roundtrip_partial (z : SwitchZone) (hz : DtOk z.switch) (ts : Int)
    (hlow : -719528 * 86400 ≤ ts + z.before ∧ -719528 * 86400 ≤ ts + z.after)
    (hfar : ts + z.before < localSec z.switch - 3600 ∨
      (localSec z.switch ≤ ts + z.before ∧ localSec z.switch + 3600 ≤ ts + z.after)) :
    ∃ d, z.datetime ts = .ok d ∧ z.timestamp d false = .ok ts := by
  have e1 : daysSinceEpoch z.switch.date * 86400 - z.before + secondsSinceMidnight z.switch.timeOfDay =
      localSec z.switch - z.before := by unfold localSec; omega
  have hzh := hour_local hz
  by_cases hb : ts < localSec z.switch - z.before
  · refine ⟨ofLocal (ts + z.before), ?_, ?_⟩
    · unfold SwitchZone.datetime
      simp only [e1, hb, if_true]
      exact datetimeFromTs_ok hlow.1
    · have hd := ofLocal_ok hlow.1
      have hl := local_ofLocal (ts + z.before)
      have hh := hour_local hd
      have g : dtGt (ofLocal (ts + z.before)) z.switch = false := by
        rw [← Bool.not_eq_true, dtGt_iff hd hz]; omega
      unfold SwitchZone.timestamp
      simp only [g, Bool.or_self, Bool.false_and, Bool.false_eq_true, if_false]
      rw [if_neg]
      · rw [tsFrom_local, hl]; congr 1; omega
      · simp only [Bool.and_eq_true, not_and, beq_iff_eq]
        intro h1 h2
        rw [h1.2, h2] at hh
        omega
  · refine ⟨ofLocal (ts + z.after), ?_, ?_⟩
    · unfold SwitchZone.datetime
      simp only [e1, hb, if_false]
      exact datetimeFromTs_ok hlow.2
    · have hd := ofLocal_ok hlow.2
      have hl := local_ofLocal (ts + z.after)
      have hh := hour_local hd
      have g : dtGt (ofLocal (ts + z.after)) z.switch = true := by
        rw [dtGt_iff hd hz]; omega
      unfold SwitchZone.timestamp
      simp only [g, Bool.true_or, Bool.false_and, Bool.false_eq_true, if_false, if_true]
      rw [if_neg]
      · rw [tsFrom_local, hl]; congr 1; omega
      · simp only [Bool.and_eq_true, not_and, beq_iff_eq]
        intro h1 h2
        rw [h1.2, h2] at hh
        omega

example : usDatetime (-18000) (-14400) (-880218000) = .ok (dtLit 1942 2 9 3 0 0) ∧
    usTimestamp (-18000) (-14400) (dtLit 1942 2 9 3 0 0) false = .ok (-880218000) := by decide

/-- C36 (partial): asking a once-switching zone for the second occurrence of a local time fails with OneFoldOnlyError
exactly when the zone jumps forward, or the time is on another day than the switch, or is later than the switch.
Missing (false, as in `fold_check_too_weak`): times of that day before the repeated interval are accepted. -/
theorem switch_fold_partial (z : SwitchZone) (hz : DtOk z.switch) (d : DateTime) (hd : DtOk d) :
    z.timestamp d true = .error .oneFoldOnly ↔
      (z.before < z.after ∨ d.date ≠ z.switch.date ∨ localSec z.switch < localSec d) := by
  unfold SwitchZone.timestamp
  simp only [Bool.or_true, Bool.true_and, if_true]
  by_cases h1 : z.before < z.after
  · simp [h1]
  · by_cases h2 : d.date = z.switch.date
    · by_cases h3 : localSec z.switch < localSec d
      · have := (dtGt_iff hd hz).2 h3
        simp [this, h3]
      · have : dtGt d z.switch = false := by rw [← Bool.not_eq_true, dtGt_iff hd hz]; exact h3
        simp [this, h1, h2, h3]
    · simp [h2]

/-- C36 (partial): when it does not fail, the second occurrence is read at the offset after the switch. -/
theorem switch_fold_value (z : SwitchZone) (d : DateTime) (ts : Int) (h : z.timestamp d true = .ok ts) :
    ts = localSec d - z.after := by
  unfold SwitchZone.timestamp at h
  simp only [Bool.or_true, Bool.true_and, if_true] at h
  split at h
  · cases h
  · split at h
    · cases h
    · rw [tsFrom_local] at h; cases h; rfl

/-- C36 (partial): the same for daylight-saving zones: OneFoldOnlyError exactly off the change day or after the change. -/
theorem dst_fold_partial (z : DstZone) (d : DateTime) (hd : DtOk d) (s e : DateTime)
    (hs : z.rule.start d.date.year = .ok s) (he : z.rule.end d.date.year = .ok e) (hB : BoundsOk d.date.year s e) :
    z.timestamp d true = .error .oneFoldOnly ↔ (d.date ≠ e.date ∨ localSec e < localSec d) := by
  unfold DstZone.timestamp
  simp only [hs, he, bind, Except.bind, Bool.true_and]
  by_cases h2 : d.date = e.date
  · by_cases h3 : localSec e < localSec d
    · have := (dtGt_iff hd hB.eOk).2 h3
      simp [this, h3]
    · have : dtGt d e = false := by rw [← Bool.not_eq_true, dtGt_iff hd hB.eOk]; exact h3
      simp only [this, h2, h3]
      simp
      split <;> simp
  · simp [h2]

example : usTimestamp (-18000) (-14400) (dtLit 2021 11 8 1 30 0) true = .error .oneFoldOnly ∧
    usTimestamp (-18000) (-14400) (dtLit 1942 2 9 1 0 0) true = .error .oneFoldOnly := by decide

end Verif.Chrono.Props
