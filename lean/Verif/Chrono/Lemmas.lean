import Verif.Chrono.Spec
namespace Verif.Chrono
open Spec

theorem div_era (y : Int) : div (if y ≥ 0 then y else y - 399) 400 = y / 400 := by
  unfold div; split <;> split <;> omega

theorem div_era' (y : Int) : div (if y ≥ 0 then y else y - 146096) 146097 = y / 146097 := by
  unfold div; split <;> split <;> omega

/-- Splitting a day-of-era into century, four-year cycle, year. -/
theorem yoe_decomp1 (doe : Int) (h0 : 0 ≤ doe) (h1 : doe < 146096) :
    ∃ c q s : Int, 0 ≤ c ∧ c ≤ 3 ∧ 0 ≤ q ∧ q ≤ 24 ∧ 0 ≤ s ∧ s ≤ 1460 ∧ (q = 24 → s ≤ 1459) ∧
      doe = 36524 * c + 1461 * q + s := by
  refine ⟨doe / 36524, (doe % 36524) / 1461, (doe % 36524) % 1461, ?_, ?_, ?_, ?_, ?_, ?_, ?_, ?_⟩ <;> omega

theorem yoe_eval1 (c q s : Int) (hc : 0 ≤ c) (hc' : c ≤ 3) (hq : 0 ≤ q) (hq' : q ≤ 24) (hs : 0 ≤ s)
    (hs' : s ≤ 1460) : (36524 * c + 1461 * q + s) / 1460 = 25 * c + q + (24 * c + q + s) / 1460 := by
  have : 36524 * c + 1461 * q + s = (24 * c + q + s) + (25 * c + q) * 1460 := by omega
  rw [this, Int.add_mul_ediv_right _ _ (by decide)]; omega

theorem yoe_eval2 (c q s : Int) (hc : 0 ≤ c) (hc' : c ≤ 3) (hq : 0 ≤ q) (hq' : q ≤ 24) (hs : 0 ≤ s)
    (hs' : s ≤ 1460) (hqs : q = 24 → s ≤ 1459) : (36524 * c + 1461 * q + s) / 36524 = c := by
  have : 36524 * c + 1461 * q + s = (1461 * q + s) + c * 36524 := by omega
  rw [this, Int.add_mul_ediv_right _ _ (by decide)]; omega

theorem yoe_eval3 (c q s d : Int) : (36524 * c + 1461 * q + s - (25 * c + q + d) + c - 0) / 365
    = 100 * c + 4 * q + (s - d) / 365 := by
  have : 36524 * c + 1461 * q + s - (25 * c + q + d) + c - 0 = (s - d) + (100 * c + 4 * q) * 365 := by omega
  rw [this, Int.add_mul_ediv_right _ _ (by decide)]; omega

theorem yoe_decomp (doe : Int) (h0 : 0 ≤ doe) (h1 : doe < 146096) :
    ∃ c q t u : Int, 0 ≤ c ∧ c ≤ 3 ∧ 0 ≤ q ∧ q ≤ 24 ∧ 0 ≤ t ∧ t ≤ 3 ∧ 0 ≤ u ∧ u ≤ 365 ∧ (t ≤ 2 → u ≤ 364)
      ∧ (q = 24 → u ≤ 364)
      ∧ doe = 36524 * c + 1461 * q + 365 * t + u
      ∧ (doe - doe / 1460 + doe / 36524 - doe / 146096) / 365 = 100 * c + 4 * q + t := by
  obtain ⟨c, q, s, hc, hc', hq, hq', hs, hs', hqs, hd⟩ := yoe_decomp1 doe h0 h1
  have h6 : doe / 146096 = 0 := Int.ediv_eq_zero_of_lt h0 h1
  have e := yoe_eval3 c q s ((24 * c + q + s) / 1460)
  rw [← yoe_eval1 c q s hc hc' hq hq' hs hs', ← hd] at e
  have e2 := yoe_eval2 c q s hc hc' hq hq' hs hs' hqs
  rw [← hd] at e2
  have e3 : (s - (24 * c + q + s) / 1460) / 365 = if 1095 ≤ s then 3 else s / 365 := by
    clear e e2 h6 hd hqs h0 h1
    obtain ⟨d, hd⟩ : ∃ d, d = 24 * c + q := ⟨_, rfl⟩
    rw [← hd]
    have : 0 ≤ d ∧ d ≤ 96 := by omega
    clear hd hc hc' hq hq'
    split
    · rcases (by omega : (d + s) / 1460 = 0 ∨ (d + s) / 1460 = 1) with h | h <;> rw [h] <;> omega
    · rw [show (d + s) / 1460 = 0 by omega]; omega
  have e4 : ((36524 * c + 1461 * q + s) / 1460) = doe / 1460 := by rw [hd]
  rw [h6, e2]
  have e5 : (doe - doe / 1460 + c - 0) / 365 = 100 * c + 4 * q + if 1095 ≤ s then 3 else s / 365 := by
    rw [← e3]
    have := yoe_eval3 c q s ((24 * c + q + s) / 1460)
    rw [← yoe_eval1 c q s hc hc' hq hq' hs hs', ← hd] at this
    exact this
  rw [e5]
  clear e e2 e3 e4 e5 h6
  by_cases h : 1095 ≤ s
  · exact ⟨c, q, 3, s - 1095, hc, hc', hq, hq', by omega, by omega, by omega, by omega, by omega, by omega,
      by omega, by simp [h]⟩
  · exact ⟨c, q, s / 365, s % 365, hc, hc', hq, hq', by omega, by omega, by omega, by omega, by omega, by omega,
      by omega, by simp [h]⟩

theorem yoe_bounds (doe : Int) (h0 : 0 ≤ doe) (h1 : doe < 146097) :
    let yoe := (doe - doe / 1460 + doe / 36524 - doe / 146096) / 365
    0 ≤ yoe ∧ yoe ≤ 399 ∧ 365 * yoe + yoe / 4 - yoe / 100 ≤ doe ∧
      (yoe < 399 → doe < 365 * (yoe + 1) + (yoe + 1) / 4 - (yoe + 1) / 100) := by
  intro yoe
  by_cases hl : doe = 146096
  · subst hl; simp [yoe]
  · obtain ⟨c, q, t, u, hc, hc', hq, hq', ht, ht', hu, hu', htu, hqu, hd, hy⟩ :=
      yoe_decomp doe h0 (by omega)
    have hy' : yoe = 100 * c + 4 * q + t := hy
    clear_value yoe
    clear hy
    have h4 : yoe / 4 = 25 * c + q := by clear hd; omega
    have h100 : yoe / 100 = c := by clear hd h4; omega
    have h4' : (yoe + 1) / 4 = 25 * c + q + (t + 1) / 4 := by clear hd h4 h100; omega
    have h100' : (yoe + 1) / 100 = c + (4 * q + t + 1) / 100 := by clear hd h4 h100 h4'; omega
    refine ⟨by clear h4 h4' h100 h100'; omega, by clear h4 h4' h100 h100'; omega, ?_, ?_⟩
    · rw [h4, h100]; clear h4 h4' h100 h100'; omega
    intro h
    rw [h4', h100']
    clear h4 h100 h4' h100'
    by_cases h3 : t = 3
    · subst h3
      by_cases h24 : q = 24
      · subst h24; simp; omega
      · rw [show (4 * q + 3 + 1) / 100 = 0 by omega]; simp; omega
    · rw [show (4 * q + t + 1) / 100 = 0 by omega, show (t + 1) / 4 = 0 by omega]; omega

/-- Day number (from 1 March of year 0) of 1 March of year `y`. -/
def F (y : Int) : Int := 365 * y + y / 4 - y / 100 + y / 400

/-- Years counted from March. -/
def marchYear (y m : Int) : Int := if m ≤ 2 then y - 1 else y
/-- Months counted from March = 0. -/
def marchMonth (m : Int) : Int := if m > 2 then m - 3 else m + 9

theorem daysFromCivil_eq (y m d : Int) :
    daysFromCivil y m d = F (marchYear y m) + (153 * marchMonth m + 2) / 5 + d - 1 - 719468 := by
  unfold daysFromCivil F
  simp only [div_era]
  change _ / 400 * 146097 + _ - _ = _
  rw [show (if m ≤ 2 then y - 1 else y) = marchYear y m from rfl,
    show (if m > 2 then m - 3 else m + 9) = marchMonth m from rfl]
  generalize marchYear y m = y'
  generalize marchMonth m = mp
  have e := Int.mul_ediv_add_emod y' 400
  generalize he : y' / 400 = era at *
  generalize hr : y' % 400 = r at *
  have hr0 : 0 ≤ r ∧ r < 400 := by omega
  have : y' - era * 400 = r := by omega
  rw [this]
  have h4 : y' / 4 = 100 * era + r / 4 := by omega
  have h100 : y' / 100 = 4 * era + r / 100 := by omega
  rw [h4, h100]
  omega

theorem F_succ (y : Int) : F (y + 1) = F y + 365 + (if Leap (y + 1) then 1 else 0) := by
  unfold F Leap
  have h4 : (y + 1) / 4 = y / 4 + (if (y + 1) % 4 = 0 then 1 else 0) := by split <;> omega
  have h100 : (y + 1) / 100 = y / 100 + (if (y + 1) % 100 = 0 then 1 else 0) := by split <;> omega
  have h400 : (y + 1) / 400 = y / 400 + (if (y + 1) % 400 = 0 then 1 else 0) := by split <;> omega
  have i1 : (y + 1) % 400 = 0 → (y + 1) % 100 = 0 := by omega
  have i2 : (y + 1) % 100 = 0 → (y + 1) % 4 = 0 := by omega
  rw [h4, h100, h400]
  by_cases a : (y + 1) % 4 = 0 <;> by_cases b : (y + 1) % 100 = 0 <;> by_cases c : (y + 1) % 400 = 0 <;>
    simp [a, b, c] <;> first | omega | simp_all

theorem F_lt (y : Int) (n : Nat) : F y + 365 * n ≤ F (y + n) := by
  induction n with
  | zero => simp
  | succ n ih =>
    have := F_succ (y + n)
    have h : y + ((n + 1 : Nat) : Int) = y + n + 1 := by omega
    rw [h, this]
    split <;> omega

theorem F_mono {a b : Int} (h : a ≤ b) : F a + 365 * (b - a) ≤ F b := by
  have := F_lt a (b - a).toNat
  rw [Int.toNat_of_nonneg (by omega), show a + (b - a) = b by omega] at this
  exact this

/-- The year containing a (shifted) day number is unique. -/
theorem F_unique {a b n : Int} (ha : F a ≤ n) (ha' : n < F (a + 1)) (hb : F b ≤ n) (hb' : n < F (b + 1)) :
    a = b := by
  rcases Int.lt_trichotomy a b with h | h | h
  · have := F_mono (a := a + 1) (b := b) (by omega); omega
  · exact h
  · have := F_mono (a := b + 1) (b := a) (by omega); omega

/-- `civilFromDays` through its year and day-of-(March-)year. -/
theorem civilFromDays_eq (n : Int) : ∃ y doy, F y ≤ n + 719468 ∧ n + 719468 < F (y + 1) ∧
    doy = n + 719468 - F y ∧
    civilFromDays n =
      { year := if (if (5 * doy + 2) / 153 < 10 then (5 * doy + 2) / 153 + 3 else (5 * doy + 2) / 153 - 9) ≤ 2
          then y + 1 else y,
        month := if (5 * doy + 2) / 153 < 10 then (5 * doy + 2) / 153 + 3 else (5 * doy + 2) / 153 - 9,
        day := doy - (153 * ((5 * doy + 2) / 153) + 2) / 5 + 1 } := by
  obtain ⟨N, hN⟩ : ∃ N, N = n + 719468 := ⟨_, rfl⟩
  obtain ⟨era, hera⟩ : ∃ era, era = N / 146097 := ⟨_, rfl⟩
  obtain ⟨doe, hdoe⟩ : ∃ doe, doe = N - era * 146097 := ⟨_, rfl⟩
  have hb := yoe_bounds doe (by omega) (by omega)
  obtain ⟨yoe, hyoe⟩ : ∃ yoe, yoe = (doe - doe / 1460 + doe / 36524 - doe / 146096) / 365 := ⟨_, rfl⟩
  simp only [← hyoe] at hb
  have hF : ∀ r, 0 ≤ r → r ≤ 399 → F (r + era * 400) = era * 146097 + (365 * r + r / 4 - r / 100) := by
    intro r h0 h1; unfold F
    have h4 : (r + era * 400) / 4 = 100 * era + r / 4 := by omega
    have h100 : (r + era * 400) / 100 = 4 * era + r / 100 := by omega
    have h400 : (r + era * 400) / 400 = era := by omega
    rw [h4, h100, h400]; omega
  refine ⟨yoe + era * 400, N - F (yoe + era * 400), ?_, ?_, by rw [hN], ?_⟩
  · rw [hF yoe hb.1 hb.2.1, ← hN]; have := hb.2.2.1; omega
  · by_cases h : yoe < 399
    · have := hb.2.2.2 h
      have e : yoe + era * 400 + 1 = (yoe + 1) + era * 400 := by omega
      rw [e, hF (yoe + 1) (by omega) (by omega), ← hN]; omega
    · have : yoe = 399 := by omega
      have e : yoe + era * 400 + 1 = 0 + (era + 1) * 400 := by omega
      have : F (0 + (era + 1) * 400) = (era + 1) * 146097 := by
        unfold F
        have h4 : (0 + (era + 1) * 400) / 4 = 100 * (era + 1) := by omega
        have h100 : (0 + (era + 1) * 400) / 100 = 4 * (era + 1) := by omega
        have h400 : (0 + (era + 1) * 400) / 400 = era + 1 := by omega
        rw [h4, h100, h400]; omega
      rw [e, this, ← hN]; omega
  · unfold civilFromDays
    simp only [div_era', ← hN, ← hera, ← hdoe, ← hyoe]
    have : doe - (365 * yoe + yoe / 4 - yoe / 100) = N - F (yoe + era * 400) := by
      rw [hF yoe hb.1 hb.2.1]; omega
    rw [this]

theorem days_civil (n : Int) :
    daysFromCivil (civilFromDays n).year (civilFromDays n).month (civilFromDays n).day = n := by
  obtain ⟨y, doy, h1, h2, h3, h4⟩ := civilFromDays_eq n
  have h5 := F_succ y
  have hd : 0 ≤ doy ∧ doy ≤ 365 := by
    split at h5 <;> omega
  rw [h4, daysFromCivil_eq]
  simp only
  generalize hmp : (5 * doy + 2) / 153 = mp
  have : 0 ≤ mp ∧ mp ≤ 11 := by omega
  have hm : marchYear (if (if mp < 10 then mp + 3 else mp - 9) ≤ 2 then y + 1 else y)
      (if mp < 10 then mp + 3 else mp - 9) = y := by
    unfold marchYear; by_cases h : mp < 10 <;> simp [h] <;> omega
  have hm' : marchMonth (if mp < 10 then mp + 3 else mp - 9) = mp := by
    unfold marchMonth; by_cases h : mp < 10 <;> simp [h] <;> omega
  rw [hm, hm']; omega

theorem civil_valid (n : Int) : Valid (civilFromDays n) := by
  obtain ⟨y, doy, h1, h2, h3, h4⟩ := civilFromDays_eq n
  have h5 := F_succ y
  have hd : 0 ≤ doy ∧ doy ≤ 364 + (if Leap (y + 1) then 1 else 0) := by
    constructor <;> omega
  clear h5 h1 h2 h3
  rw [h4]
  unfold Valid monthLen
  simp only
  have : (5 * doy + 2) / 153 = 0 ∨ (5 * doy + 2) / 153 = 1 ∨ (5 * doy + 2) / 153 = 2 ∨ (5 * doy + 2) / 153 = 3 ∨
    (5 * doy + 2) / 153 = 4 ∨ (5 * doy + 2) / 153 = 5 ∨ (5 * doy + 2) / 153 = 6 ∨ (5 * doy + 2) / 153 = 7 ∨
    (5 * doy + 2) / 153 = 8 ∨ (5 * doy + 2) / 153 = 9 ∨ (5 * doy + 2) / 153 = 10 ∨ (5 * doy + 2) / 153 = 11 := by
    split at hd <;> omega
  rcases this with h | h | h | h | h | h | h | h | h | h | h | h <;> simp only [h] <;> simp <;>
    (try split at hd) <;> (try split) <;> omega

theorem monthLen_bounds (y m : Int) : 28 ≤ monthLen y m ∧ monthLen y m ≤ 31 := by
  unfold monthLen; split <;> (try split) <;> (try split) <;> omega

theorem civil_days (c : Civil) (hv : Valid c) : civilFromDays (daysFromCivil c.year c.month c.day) = c := by
  obtain ⟨yr, m, d⟩ := c
  obtain ⟨hm1, hm2, hd1, hd2⟩ := hv
  simp only at *
  obtain ⟨y, doy, h1, h2, h3, h4⟩ := civilFromDays_eq (daysFromCivil yr m d)
  rw [h4]
  rw [daysFromCivil_eq] at h1 h2 h3
  have hs := F_succ (marchYear yr m)
  have key : 0 ≤ (153 * marchMonth m + 2) / 5 + d - 1 ∧
      (153 * marchMonth m + 2) / 5 + d - 1 ≤ 364 + (if Leap (marchYear yr m + 1) then 1 else 0) ∧
      (5 * ((153 * marchMonth m + 2) / 5 + d - 1) + 2) / 153 = marchMonth m := by
    clear h1 h2 h3 h4 hs
    have : m = 1 ∨ m = 2 ∨ m = 3 ∨ m = 4 ∨ m = 5 ∨ m = 6 ∨ m = 7 ∨ m = 8 ∨ m = 9 ∨ m = 10 ∨ m = 11 ∨ m = 12 := by
      omega
    unfold marchMonth marchYear
    unfold monthLen at hd2
    rcases this with h | h | h | h | h | h | h | h | h | h | h | h <;> subst h <;> simp at hd2 ⊢ <;>
      (try split at hd2) <;> (try split) <;> omega
  have hy : y = marchYear yr m := by
    apply F_unique h1 h2 <;> omega
  subst hy
  have hdoy : doy = (153 * marchMonth m + 2) / 5 + d - 1 := by omega
  rw [← hdoy] at key
  rw [key.2.2]
  clear h1 h2 h3 h4 hs
  have hmm : (if marchMonth m < 10 then marchMonth m + 3 else marchMonth m - 9) = m := by
    unfold marchMonth; split <;> split <;> omega
  rw [hmm]
  have : doy - (153 * marchMonth m + 2) / 5 + 1 = d := by omega
  rw [this]
  unfold marchYear
  congr 1
  split <;> omega

theorem days_next (c : Civil) (hv : Valid c) :
    daysFromCivil (next c).year (next c).month (next c).day = daysFromCivil c.year c.month c.day + 1 := by
  obtain ⟨yr, m, d⟩ := c
  obtain ⟨hm1, hm2, hd1, hd2⟩ := hv
  simp only at *
  have : m = 1 ∨ m = 2 ∨ m = 3 ∨ m = 4 ∨ m = 5 ∨ m = 6 ∨ m = 7 ∨ m = 8 ∨ m = 9 ∨ m = 10 ∨ m = 11 ∨ m = 12 := by
      omega
  unfold next
  simp only
  by_cases h : d < monthLen yr m
  · simp only [h, if_true, daysFromCivil_eq]; omega
  · have hd : d = monthLen yr m := by omega
    subst hd
    clear h hd1 hd2
    have hs := F_succ (yr - 1)
    simp only [Int.sub_add_cancel] at hs
    rcases this with h | h | h | h | h | h | h | h | h | h | h | h <;> subst h <;>
      simp [daysFromCivil_eq, monthLen, marchYear, marchMonth] <;> (try split) <;> (try split at hs) <;>
      (try simp_all) <;> omega

end Verif.Chrono
