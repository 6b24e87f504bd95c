import Verif.Chrono.TzModel
import Verif.Chrono.DateLemmas
namespace Verif.Chrono
open Spec

/-- A time of day the constructor accepts. -/
def TimeOk (t : TimeOfDay) : Prop :=
  0 ≤ t.hour ∧ t.hour < 24 ∧ 0 ≤ t.minute ∧ t.minute < 60 ∧ 0 ≤ t.second ∧ t.second < 60

instance (t : TimeOfDay) : Decidable (TimeOk t) := by unfold TimeOk; infer_instance

/-- A date and time the constructors accept (with an existing date). -/
def DtOk (d : DateTime) : Prop := Ok d.date ∧ TimeOk d.timeOfDay

instance (t : DateTime) : Decidable (DtOk t) := by unfold DtOk; infer_instance

/-- Seconds from 1970-01-01 00:00:00 to the wall clock reading, ignoring timezones. -/
def localSec (d : DateTime) : Int := daysSinceEpoch d.date * 86400 + secondsSinceMidnight d.timeOfDay

/-- The wall clock reading for a number of local seconds. -/
def ofLocal (n : Int) : DateTime :=
  ⟨civilFromDays (n / 86400), ⟨(n % 86400) / 3600, (n % 86400) % 3600 / 60, (n % 86400) % 3600 % 60⟩⟩

theorem mkTime_ok {t : TimeOfDay} (h : TimeOk t) : mkTime t.hour t.minute t.second = .ok t := by
  unfold mkTime isValidTime
  obtain ⟨h1, h2, h3, h4, h5, h6⟩ := h
  simp [*]

theorem ofLocal_time (n : Int) : TimeOk (ofLocal n).timeOfDay := by
  unfold TimeOk ofLocal; simp only; omega

theorem local_ofLocal (n : Int) : localSec (ofLocal n) = n := by
  unfold localSec ofLocal secondsSinceMidnight
  simp only [daysSince_civil]
  omega

theorem ofLocal_local {d : DateTime} (hd : Valid d.date) (ht : TimeOk d.timeOfDay) : ofLocal (localSec d) = d := by
  obtain ⟨date, ⟨h, m, s⟩⟩ := d
  obtain ⟨h1, h2, h3, h4, h5, h6⟩ := ht
  unfold localSec ofLocal secondsSinceMidnight
  simp only at *
  have e1 : (daysSinceEpoch date * 86400 + (s + m * 60 + h * 3600)) / 86400 = daysSinceEpoch date := by omega
  have e2 : (daysSinceEpoch date * 86400 + (s + m * 60 + h * 3600)) % 86400 = s + m * 60 + h * 3600 := by omega
  rw [e1, e2, civil_daysSince hd]
  congr 2 <;> omega

theorem secs_bounds {t : TimeOfDay} (h : TimeOk t) : 0 ≤ secondsSinceMidnight t ∧ secondsSinceMidnight t < 86400 := by
  obtain ⟨h1, h2, h3, h4, h5, h6⟩ := h
  unfold secondsSinceMidnight; omega

theorem local_lower {d : DateTime} (h : DtOk d) : -719528 * 86400 ≤ localSec d := by
  have := days_lower h.1
  have := secs_bounds h.2
  unfold localSec; omega

theorem ofLocal_ok {n : Int} (h : -719528 * 86400 ≤ n) : DtOk (ofLocal n) := by
  refine ⟨?_, ofLocal_time n⟩
  exact civil_ok (by omega)

theorem datetimeFromTs_ok {ts off : Int} (h : -719528 * 86400 ≤ ts + off) :
    datetimeFromTs ts off = .ok (ofLocal (ts + off)) := by
  have hd := mkDate_ok (ofLocal_ok h).1
  have ht := mkTime_ok (ofLocal_time (ts + off))
  unfold datetimeFromTs mkDateTime
  unfold ofLocal at *
  simp only at *
  rw [hd]
  simp only [bind, Except.bind]
  rw [ht]

theorem datetimeFromTs_err {ts off : Int} (h : ts + off < -719528 * 86400) :
    datetimeFromTs ts off = .error .nonexistentDate := by
  have hd := mkDate_year_neg (m := (civilFromDays ((ts + off) / 86400)).month)
    (d := (civilFromDays ((ts + off) / 86400)).day) (civil_year_neg (n := (ts + off) / 86400) (by omega))
  unfold datetimeFromTs mkDateTime
  simp only
  rw [hd]
  rfl

theorem tsFrom_local (d : DateTime) (off : Int) : tsFromDatetime d off = localSec d - off := by
  unfold tsFromDatetime localSec; omega

theorem timeLt_iff {a b : TimeOfDay} (ha : TimeOk a) (hb : TimeOk b) :
    timeLt a b = true ↔ secondsSinceMidnight a < secondsSinceMidnight b := by
  obtain ⟨h1, h2, h3, h4, h5, h6⟩ := ha
  obtain ⟨g1, g2, g3, g4, g5, g6⟩ := hb
  unfold timeLt secondsSinceMidnight
  by_cases e1 : a.hour = b.hour <;> by_cases e2 : a.minute = b.minute <;> by_cases e3 : a.second = b.second <;>
    simp [e1, e2, e3] <;> omega

theorem local_inj {a b : DateTime} (ha : Valid a.date) (ha' : TimeOk a.timeOfDay) (hb : Valid b.date)
    (hb' : TimeOk b.timeOfDay) (h : localSec a = localSec b) : a = b := by
  rw [← ofLocal_local ha ha', ← ofLocal_local hb hb', h]

theorem dtLt_iff {a b : DateTime} (ha : DtOk a) (hb : DtOk b) : dtLt a b = true ↔ localSec a < localSec b := by
  have sa := secs_bounds ha.2
  have sb := secs_bounds hb.2
  unfold dtLt localSec
  by_cases hd : a.date = b.date
  · by_cases ht : a.timeOfDay = b.timeOfDay
    · simp [hd, ht]
    · simp only [hd, ht, ne_eq, not_true, not_false_iff, if_true, if_false]
      rw [timeLt_iff ha.2 hb.2]; omega
  · simp only [hd, ne_eq, not_false_iff, if_true]
    rw [dateLt_iff, before_iff ha.1.1 hb.1.1]
    have : daysSinceEpoch a.date ≠ daysSinceEpoch b.date := fun h => hd (days_inj ha.1.1 hb.1.1 h)
    omega

theorem dtGt_iff {a b : DateTime} (ha : DtOk a) (hb : DtOk b) : dtGt a b = true ↔ localSec b < localSec a :=
  dtLt_iff hb ha

/-- Day number of 1 January. -/
def jan1 (y : Int) : Int := daysSinceEpoch ⟨y, 1, 1⟩

theorem jan1_valid (y : Int) : Valid ⟨y, 1, 1⟩ := by
  have := monthLen_bounds y 1
  exact ⟨by simp, by simp, by simp, by simp; omega⟩

/-- A valid date lies in year `y` iff its day number lies between the two 1 Januaries. -/
theorem year_iff {c : Civil} (h : Valid c) (y : Int) :
    c.year = y ↔ jan1 y ≤ daysSinceEpoch c ∧ daysSinceEpoch c < jan1 (y + 1) := by
  have b1 := before_iff h (jan1_valid y)
  have b2 := before_iff h (jan1_valid (y + 1))
  have n1 : ¬ Before c ⟨y, 1, 1⟩ ↔ y ≤ c.year := by
    have := h.1; have := h.2.2.1
    unfold Before; simp only; omega
  have n2 : Before c ⟨y + 1, 1, 1⟩ ↔ c.year ≤ y := by
    have := h.1; have := h.2.2.1
    unfold Before; simp only; omega
  unfold jan1
  have e1 : daysSinceEpoch ⟨y, 1, 1⟩ ≤ daysSinceEpoch c ↔ y ≤ c.year := by rw [← n1, b1]; omega
  have e2 : daysSinceEpoch c < daysSinceEpoch ⟨y + 1, 1, 1⟩ ↔ c.year ≤ y := by rw [← n2, b2]
  rw [e1, e2]; omega

theorem jan1_succ (y : Int) : jan1 y + 365 ≤ jan1 (y + 1) ∧ jan1 (y + 1) ≤ jan1 y + 366 := by
  unfold jan1 daysSinceEpoch
  simp only [daysFromCivil_eq]
  have e1 : marchYear y 1 = y - 1 := rfl
  have e2 : marchYear (y + 1) 1 = y := by unfold marchYear; simp
  rw [e1, e2]
  have := F_succ (y - 1)
  simp only [Int.sub_add_cancel] at this
  split at this <;> omega

/-- What the round trip needs from the daylight saving dates of year `y`. -/
structure BoundsOk (y : Int) (s e : DateTime) : Prop where
  sOk : DtOk s
  eOk : DtOk e
  sDay : jan1 y + 2 ≤ daysSinceEpoch s.date
  order : daysSinceEpoch s.date < daysSinceEpoch e.date
  eDay : daysSinceEpoch e.date + 3 ≤ jan1 (y + 1)
  sTwo : s.timeOfDay = ⟨2, 0, 0⟩
  eTwo : e.timeOfDay = ⟨2, 0, 0⟩

theorem localSec_two {s : DateTime} (h : s.timeOfDay = ⟨2, 0, 0⟩) :
    localSec s = daysSinceEpoch s.date * 86400 + 7200 := by
  unfold localSec secondsSinceMidnight; rw [h]; simp

theorem hour_local {d : DateTime} (h : DtOk d) :
    daysSinceEpoch d.date * 86400 + d.timeOfDay.hour * 3600 ≤ localSec d ∧
    localSec d < daysSinceEpoch d.date * 86400 + d.timeOfDay.hour * 3600 + 3600 := by
  obtain ⟨_, h1, h2, h3, h4, h5, h6⟩ := h
  unfold localSec secondsSinceMidnight; omega

theorem local_day {d : DateTime} (h : DtOk d) : localSec d / 86400 = daysSinceEpoch d.date := by
  have := secs_bounds h.2
  unfold localSec; omega

/-- The core of the round trip: `datetime` computed with year `y`'s boundaries, `timestamp` with those of the local
year `y'` (functions of the year, since `UsTimezone` changes rules over time). -/
theorem dst_core (st : Int) (S E : Int → DateTime) (ts y : Int)
    (hst : -86400 < st ∧ st < 82800)
    (hy : y = (civilFromDays (ts / 86400)).year) (hy0 : 1 ≤ y)
    (hb : ∀ y', (y' = y - 1 ∨ y' = y ∨ y' = y + 1) → BoundsOk y' (S y') (E y')) :
    let dst := st + 3600
    let off := if ts < (localSec (S y) - st) ∨ ts > (localSec (E y) - dst) then st else dst
    let d := ofLocal (ts + off)
    ∃ fold : Bool,
      let isDst := !((dtGt d (E d.date.year) || dtLt d (S d.date.year)) || fold)
      (fold && (d.date != (E d.date.year).date || dtGt d (E d.date.year))) = false ∧
      (d.date == (S d.date.year).date && d.timeOfDay.hour == (S d.date.year).timeOfDay.hour) = false ∧
      localSec d - (if isDst then dst else st) = ts := by
  intro dst off d
  have hyr := (year_iff (civil_valid (ts / 86400)) y).1 hy.symm
  rw [daysSince_civil] at hyr
  have hj0 : -719528 ≤ jan1 0 := by decide
  have hjy : jan1 1 ≤ jan1 y := by
    have h1 := jan1_valid 1
    have h2 := jan1_valid y
    rcases Int.lt_or_le 1 y with h | h
    · have : Before ⟨1, 1, 1⟩ ⟨y, 1, 1⟩ := Or.inl h
      have := (before_iff h1 h2).1 this
      unfold jan1; omega
    · have : y = 1 := by omega
      rw [this]; omega
  have hj1 : jan1 1 = -719162 := by decide
  have hoff : off = st ∨ off = dst := by simp only [off]; split <;> simp
  have hlow : -719528 * 86400 ≤ ts + off := by
    rcases hoff with h | h <;> rw [h] <;> (try simp only [dst]) <;> omega
  have hd : DtOk d := ofLocal_ok hlow
  have hl : localSec d = ts + off := local_ofLocal _
  have hday : daysSinceEpoch d.date = (ts + off) / 86400 := by rw [← local_day hd, hl]
  have hdayr : jan1 y - 1 ≤ daysSinceEpoch d.date ∧ daysSinceEpoch d.date ≤ jan1 (y + 1) := by
    rw [hday]; rcases hoff with h | h <;> rw [h] <;> (try simp only [dst]) <;> omega
  -- the local year
  have hyd : (d.date.year = y ∧ jan1 y ≤ daysSinceEpoch d.date ∧ daysSinceEpoch d.date < jan1 (y + 1)) ∨
      (d.date.year = y - 1 ∧ daysSinceEpoch d.date = jan1 y - 1) ∨
      (d.date.year = y + 1 ∧ daysSinceEpoch d.date = jan1 (y + 1)) := by
    have s1 := jan1_succ (y - 1)
    have s2 := jan1_succ (y + 1)
    simp only [Int.sub_add_cancel] at s1
    rcases Int.lt_or_le (daysSinceEpoch d.date) (jan1 y) with h | h
    · right; left
      refine ⟨(year_iff hd.1.1 (y - 1)).2 ?_, by omega⟩
      simp only [Int.sub_add_cancel]; omega
    · rcases Int.lt_or_le (daysSinceEpoch d.date) (jan1 (y + 1)) with h' | h'
      · left; exact ⟨(year_iff hd.1.1 y).2 ⟨h, h'⟩, h, h'⟩
      · right; right
        exact ⟨(year_iff hd.1.1 (y + 1)).2 ⟨h', by omega⟩, by omega⟩
  have hB := hb y (Or.inr (Or.inl rfl))
  have hLs := localSec_two hB.sTwo
  have hLe := localSec_two hB.eTwo
  rcases hyd with ⟨hye, hr1, hr2⟩ | ⟨hye, hr⟩ | ⟨hye, hr⟩
  · rw [hye]
    have gGt := dtGt_iff hd hB.eOk
    have gLt := dtLt_iff hd hB.sOk
    have hh := hour_local hd
    by_cases hc : ts < (localSec (S y) - st) ∨ ts > (localSec (E y) - dst)
    · have ho : off = st := by simp only [off]; rw [if_pos hc]
      rw [ho] at hl
      by_cases hf : localSec d ≤ localSec (E y) ∧ localSec (E y) - 3600 < localSec d
      · -- repeated hour
        refine ⟨true, ?_, ?_, ?_⟩
        · have hde : d.date = (E y).date := by
            apply days_inj hd.1.1 hB.eOk.1.1
            rw [← local_day hd]; omega
          have : dtGt d (E y) = false := by
            rw [← Bool.not_eq_true, gGt]; omega
          simp [hde, this]
        · have : d.date ≠ (S y).date := by
            intro h
            have : daysSinceEpoch d.date = daysSinceEpoch (S y).date := by rw [h]
            have h2 := local_day hd
            have := hB.order
            omega
          simp [this]
        · simp [hl]
      · refine ⟨false, by simp, ?_, ?_⟩
        · rw [Bool.and_eq_false_iff]
          by_cases h1 : d.date = (S y).date
          · right
            have h3 : daysSinceEpoch d.date = daysSinceEpoch (S y).date := by rw [h1]
            rw [hB.sTwo]
            simp only [beq_eq_false_iff_ne, ne_eq]
            intro h2
            rw [h2] at hh
            have := hB.order
            simp only [dst] at hc
            omega
          · left; simpa using h1
        · have : (dtGt d (E y) || dtLt d (S y)) = true := by
            rw [Bool.or_eq_true, gGt, gLt]
            simp only [dst] at hc
            omega
          simp [this]; omega
    · have ho : off = dst := by simp only [off]; rw [if_neg hc]
      rw [ho] at hl
      refine ⟨false, by simp, ?_, ?_⟩
      · rw [Bool.and_eq_false_iff]
        by_cases h1 : d.date = (S y).date
        · right
          have h3 : daysSinceEpoch d.date = daysSinceEpoch (S y).date := by rw [h1]
          rw [hB.sTwo]
          simp only [beq_eq_false_iff_ne, ne_eq]
          intro h2
          rw [h2] at hh
          simp only [dst] at hc hl
          omega
        · left; simpa using h1
      · have h1 : dtGt d (E y) = false := by
          rw [← Bool.not_eq_true, gGt]; omega
        have h2 : dtLt d (S y) = false := by
          rw [← Bool.not_eq_true, gLt]; simp only [dst] at hc hl; omega
        simp [h1, h2]; omega
  · -- local year is the previous one: 31 December
    rw [hye]
    have hB' := hb (y - 1) (Or.inl rfl)
    have hLe' := localSec_two hB'.eTwo
    have gGt := dtGt_iff hd hB'.eOk
    have hh := hour_local hd
    have he := hB'.eDay
    have hor := hB'.order
    simp only [Int.sub_add_cancel] at he
    have ho : off = st := by
      simp only [off]
      rw [if_pos]
      left
      have := hB.sDay
      rcases hoff with h | h <;> rw [h] at hl <;> (try simp only [dst] at hl) <;> have := hd.2 <;> omega
    rw [ho] at hl
    have hld := local_day hd
    refine ⟨false, by simp, ?_, ?_⟩
    · have : d.date ≠ (S (y - 1)).date := by
        intro h
        have : daysSinceEpoch d.date = daysSinceEpoch (S (y - 1)).date := by rw [h]
        omega
      simp [this]
    · have : dtGt d (E (y - 1)) = true := by rw [gGt]; omega
      simp [this]; omega
  · -- local year is the next one: 1 January
    rw [hye]
    have hB' := hb (y + 1) (Or.inr (Or.inr rfl))
    have hLs' := localSec_two hB'.sTwo
    have gLt := dtLt_iff hd hB'.sOk
    have hh := hour_local hd
    have hsd := hB'.sDay
    have ho : off = st := by
      simp only [off]
      rw [if_pos]
      right
      have := hB.eDay
      have hld := local_day hd
      rcases hoff with h | h <;> rw [h] at hl <;> (try simp only [dst] at hl ⊢) <;> omega
    rw [ho] at hl
    have hld := local_day hd
    refine ⟨false, by simp, ?_, ?_⟩
    · have : d.date ≠ (S (y + 1)).date := by
        intro h
        have : daysSinceEpoch d.date = daysSinceEpoch (S (y + 1)).date := by rw [h]
        omega
      simp [this]
    · have : dtLt d (S (y + 1)) = true := by rw [gLt]; omega
      simp [this]; omega

end Verif.Chrono
