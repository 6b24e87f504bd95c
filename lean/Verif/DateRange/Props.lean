import Verif.DateRange.Model
import Verif.Chrono.Props
/-
Specification and proofs for C130.
-/
namespace Verif.DateRange
open Verif.Chrono Verif.Chrono.Spec Verif.Chrono.Props

/-! ### Specification -/

/-- The date so many months after `c`: on the same day, or on the last day of a shorter month. -/
def monthsAfter (c : Civil) (j : Nat) : Civil :=
  let m := c.year * 12 + (c.month - 1) + j
  ⟨m / 12, m % 12 + 1, min c.day (monthLen (m / 12) (m % 12 + 1))⟩

/-- The date so many steps after `c`. -/
def stepsAfter (c : Civil) : Step → Nat → Civil
  | .days, j => after j c
  | .weeks, j => after (7 * j) c
  | .months, j => monthsAfter c j
  | .years, j => monthsAfter c (12 * j)
  | .other, _ => c

/-- The result: the dates after 0, `size`, 2 `size` ... steps, all before the end, up to the first that is not. -/
def Right (start stop : Civil) (step : Step) (size : Nat) (r : List Civil) : Prop :=
  r = (List.range r.length).map (fun k => stepsAfter start step (k * size)) ∧
    (∀ k < r.length, Before (stepsAfter start step (k * size)) stop) ∧ ∀ k, r.length ≤ k → ¬ Before (stepsAfter start step (k * size)) stop

/-! ### Proofs -/

theorem before_iff {a b : Civil} (ha : Valid a) (hb : Valid b) : Before a b ↔ daysSinceEpoch a < daysSinceEpoch b :=
  ((date_order a b ha hb).2.1.symm.trans (date_order a b ha hb).1)

/-- A loop along dates that become later and later. -/
theorem up_right (it : Civil → Except DErr Civil) (stop : Civil) (hs : Valid stop) (n : Nat) : ∀ (kth : Nat → Civil), (∀ k, Valid (kth k)) →
    (∀ k, it (kth k) = .ok (kth (k + 1))) → (∀ k, daysSinceEpoch (kth k) < daysSinceEpoch (kth (k + 1))) →
    daysSinceEpoch stop - daysSinceEpoch (kth 0) ≤ n →
    ∃ r, up it stop (n + 1) (kth 0) = some (.ok r) ∧ r = (List.range r.length).map kth ∧ (∀ k < r.length, Before (kth k) stop) ∧
      ∀ k, r.length ≤ k → ¬ Before (kth k) stop := by
  have mono : ∀ (kth : Nat → Civil), (∀ k, daysSinceEpoch (kth k) < daysSinceEpoch (kth (k + 1))) → ∀ k, daysSinceEpoch (kth 0) ≤ daysSinceEpoch (kth k) := by
    intro kth h k
    induction k with
    | zero => exact Int.le_refl _
    | succ k ih => have := h k; omega
  induction n with
  | zero =>
    intro kth hv _ hm hd
    have hno : ∀ k, ¬ Before (kth k) stop := by
      intro k hb
      rw [before_iff (hv k) hs] at hb
      have := mono kth hm k
      omega
    refine ⟨[], ?_, rfl, fun k hk => absurd hk (Nat.not_lt_zero _), fun k _ => hno k⟩
    have : dateLt (kth 0) stop = false := by
      cases hl : dateLt (kth 0) stop with
      | false => rfl
      | true => exact absurd ((date_order _ _ (hv 0) hs).2.1.mp hl) (hno 0)
    simp [up, this]
  | succ n ih =>
    intro kth hv hit hm hd
    cases hl : dateLt (kth 0) stop with
    | false =>
      have hno : ∀ k, ¬ Before (kth k) stop := by
        intro k hb
        rw [before_iff (hv k) hs] at hb
        have := mono kth hm k
        have h0 : dateLt (kth 0) stop = true := (date_order _ _ (hv 0) hs).1.mpr (by omega)
        rw [hl] at h0
        cases h0
      exact ⟨[], by simp [up, hl], rfl, fun k hk => absurd hk (Nat.not_lt_zero _), fun k _ => hno k⟩
    | true =>
      have h1 := hm 0
      obtain ⟨r, hr, he, hb, ha⟩ := ih (fun k => kth (k + 1)) (fun k => hv _) (fun k => hit _) (fun k => hm _) (by simp only [Nat.zero_add] at h1 ⊢; omega)
      refine ⟨kth 0 :: r, ?_, ?_, ?_, ?_⟩
      · have h2 := hit 0
        simp only [Nat.zero_add] at h2 hr
        rw [up, if_pos hl, h2]
        simp only [hr]
      · rw [List.length_cons, List.range_succ_eq_map, List.map_cons, List.map_map]
        exact congrArg _ he
      · intro k hk
        cases k with
        | zero => exact (date_order _ _ (hv 0) hs).2.1.mp hl
        | succ k => exact hb k (by simpa using hk)
      · intro k hk
        cases k with
        | zero => simp at hk
        | succ k => exact ha k (by simpa using hk)

theorem monthsAfter_ok {c : Civil} (h : Ok c) (j : Nat) : Ok (monthsAfter c j) := by
  obtain ⟨⟨h1, h2, h3, h4⟩, h5⟩ := h
  have hb := monthLen_bounds ((c.year * 12 + (c.month - 1) + j) / 12) ((c.year * 12 + (c.month - 1) + j) % 12 + 1)
  refine ⟨⟨?_, ?_, ?_, ?_⟩, ?_⟩ <;> simp only [monthsAfter] <;> omega

theorem monthsAfter_zero {c : Civil} (h : Ok c) : monthsAfter c 0 = c := by
  obtain ⟨⟨h1, h2, h3, h4⟩, h5⟩ := h
  obtain ⟨y, m, d⟩ := c
  simp only at h1 h2 h3 h4 h5
  have e1 : (y * 12 + (m - 1) + ((0 : Nat) : Int)) / 12 = y := by omega
  have e2 : (y * 12 + (m - 1) + ((0 : Nat) : Int)) % 12 + 1 = m := by omega
  simp only [monthsAfter, e1, e2]
  rw [Int.min_eq_left h4]

theorem monthsAfter_later {c : Civil} (h : Ok c) {i j : Nat} (hij : i < j) : daysSinceEpoch (monthsAfter c i) < daysSinceEpoch (monthsAfter c j) := by
  rw [← before_iff (monthsAfter_ok h i).1 (monthsAfter_ok h j).1]
  simp only [Before, monthsAfter]
  omega

/-- With the day of the first date, a month that is short does not shorten those after it. -/
theorem nextMonth_after {c : Civil} (h : Ok c) (i size : Nat) : nextMonth (monthsAfter c i) size c.day = .ok (monthsAfter c (i + size)) := by
  have ho := monthsAfter_ok h i
  have hy := ho.2
  have hm1 := ho.1.1
  rcases nextMonthStart_spec (monthsAfter c i) ho size with ⟨s, hs, hso, hs1, hs2⟩ | ⟨_, hneg⟩
  · have hd := daysInMonth_spec s hso
    have hday : c.day ≠ 0 := by have := h.1.2.2.1; omega
    unfold nextMonth
    rw [hs]
    simp only [bind, Except.bind]
    rw [hd]
    simp only [hday, ne_eq, not_false_eq_true, if_true]
    have hr := monthsAfter_ok h (i + size)
    obtain ⟨⟨s1, s2, _, _⟩, _⟩ := hso
    have e1 : s.year = (monthsAfter c (i + size)).year := by
      simp only [monthsAfter] at hs2 ⊢
      push_cast
      omega
    have e2 : s.month = (monthsAfter c (i + size)).month := by
      simp only [monthsAfter] at hs2 ⊢
      push_cast
      omega
    have e3 : min (monthLen s.year s.month) c.day = (monthsAfter c (i + size)).day := by
      rw [e1, e2]
      simp only [monthsAfter]
      omega
    rw [e3, e1, e2]
    exact mkDate_ok hr
  · omega

theorem nextYear_after {c : Civil} (h : Ok c) (i size : Nat) : nextYear (monthsAfter c (12 * i)) size c.day = .ok (monthsAfter c (12 * (i + size))) := by
  have ho := monthsAfter_ok h (12 * i)
  have hr := monthsAfter_ok h (12 * (i + size))
  have hday : c.day ≠ 0 := by have := h.1.2.2.1; omega
  have e1 : (monthsAfter c (12 * i)).year + size = (monthsAfter c (12 * (i + size))).year := by
    simp only [monthsAfter]; push_cast; omega
  have e2 : (monthsAfter c (12 * i)).month = (monthsAfter c (12 * (i + size))).month := by
    simp only [monthsAfter]; push_cast; omega
  have hf := ok_first (y := (monthsAfter c (12 * (i + size))).year) (m := (monthsAfter c (12 * (i + size))).month) hr.2 ⟨hr.1.1, hr.1.2.1⟩
  have hd := daysInMonth_spec _ hf
  have hfm := mkDate_ok hf
  simp only at hd hfm
  unfold nextYear
  simp only [bind, Except.bind]
  rw [e1, e2, hfm]
  simp only
  rw [hd]
  simp only [hday, ne_eq, not_false_eq_true, if_true]
  have e3 : min (monthLen (monthsAfter c (12 * (i + size))).year (monthsAfter c (12 * (i + size))).month) c.day = (monthsAfter c (12 * (i + size))).day := by
    simp only [monthsAfter]
    omega
  rw [e3]
  exact mkDate_ok hr

theorem after_after (i j : Nat) : ∀ c : Civil, after j (after i c) = after (i + j) c := by
  induction i with
  | zero => intro c; rw [Nat.zero_add]; rfl
  | succ i ih => intro c; rw [Nat.succ_add]; exact ih (Verif.Chrono.Spec.next c)

theorem dateNext_after {c : Civil} (h : Ok c) (i : Nat) (size : Nat) : dateNext (after i c) size = .ok (after (i + size) c) := by
  rw [(next_spec _ (next_spec c h i).2 size).1, after_after]

/-- C130: counting up by any number of days, weeks, months or years, the dates are those so many steps after the first, up to the end; the loop ends
after finitely many rounds. -/
theorem daterange_right_partial (start stop : Civil) (step : Step) (size : Nat) (h : Ok start) (hs : Valid stop) (hsize : 0 < size) (hstep : step ≠ .other) :
    ∃ fuel r, daterange fuel start stop step size false = some (.ok r) ∧ Right start stop step size r := by
  have key : ∀ (it : Civil → Except DErr Civil), iterate start step size false = .ok it → (∀ k, Valid (stepsAfter start step (k * size))) →
      (∀ k, it (stepsAfter start step (k * size)) = .ok (stepsAfter start step ((k + 1) * size))) →
      (∀ k, daysSinceEpoch (stepsAfter start step (k * size)) < daysSinceEpoch (stepsAfter start step ((k + 1) * size))) →
      stepsAfter start step (0 * size) = start → ∃ fuel r, daterange fuel start stop step size false = some (.ok r) ∧ Right start stop step size r := by
    intro it hit h1 h2 h3 h0
    obtain ⟨r, hr, hR⟩ := up_right it stop hs (daysSinceEpoch stop - daysSinceEpoch start).toNat (fun k => stepsAfter start step (k * size)) h1 h2 h3 (by
      simp only [h0]; omega)
    refine ⟨(daysSinceEpoch stop - daysSinceEpoch start).toNat + 1, r, ?_, hR⟩
    simp only [h0] at hr
    simp only [daterange, hit, Bool.false_eq_true, if_false]
    exact hr
  have e : ∀ k, (k + 1) * size = k * size + size := fun k => Nat.succ_mul k size
  cases step with
  | days =>
    refine key _ rfl (fun k => after_valid _ h.1) (fun k => ?_) (fun k => ?_) (by simp [stepsAfter, after])
    · rw [e k]
      exact dateNext_after h _ _
    · rw [e k]
      generalize k * size = m
      simp only [stepsAfter]
      rw [after_days _ h.1, after_days _ h.1]
      omega
  | weeks =>
    refine key _ rfl (fun k => after_valid _ h.1) (fun k => ?_) (fun k => ?_) (by simp [stepsAfter, after])
    · rw [e k]
      generalize k * size = m
      have := dateNext_after h (7 * m) (size * 7)
      rw [show 7 * m + size * 7 = 7 * (m + size) by omega, Int.natCast_mul] at this
      exact this
    · rw [e k]
      generalize k * size = m
      simp only [stepsAfter]
      rw [after_days _ h.1, after_days _ h.1]
      omega
  | months =>
    refine key _ rfl (fun k => (monthsAfter_ok h _).1) (fun k => ?_) (fun k => ?_) (by simp [stepsAfter, monthsAfter_zero h])
    · rw [e k]
      exact nextMonth_after h _ _
    · rw [e k]
      exact monthsAfter_later h (by omega)
  | years =>
    refine key _ rfl (fun k => (monthsAfter_ok h _).1) (fun k => ?_) (fun k => ?_) (by simp [stepsAfter, monthsAfter_zero h])
    · rw [e k]
      exact nextYear_after h _ _
    · rw [e k]
      exact monthsAfter_later h (by omega)
  | other => exact absurd rfl hstep

/-- C130: other texts for the step are refused. -/
theorem other_refused (fuel : Nat) (start stop : Civil) (size : Int) (reversed : Bool) : daterange fuel start stop .other size reversed = some (.error .badStep) := rfl

/-! ### Where it is not -/

/-- C130: with steps of no days, the loop never ends if there is anything in the range. -/
theorem zero_endless (start stop : Civil) (h : Ok start) (hs : Valid stop) (hb : Before start stop) (fuel : Nat) :
    daterange fuel start stop .days 0 false = none := by
  simp only [daterange, iterate, Bool.false_eq_true, if_false]
  induction fuel with
  | zero => rfl
  | succ n ih =>
    have hn : dateNext start 0 = .ok start := (next_spec start h 0).1
    rw [up, if_pos ((date_order _ _ h.1 hs).2.1.mpr hb), hn]
    simp only [ih]

theorem down_bounds (it : Civil → Except DErr Civil) (start : Civil) (n : Nat) : ∀ (c : Civil) (r : List Civil), down it start n c = some (.ok r) →
    ∀ d ∈ r, dateLt start d = true := by
  induction n with
  | zero => intro c r h; cases h
  | succ n ih =>
    intro c r h
    simp only [down] at h
    split at h
    · next hl =>
      split at h
      · cases h
      · split at h
        · next cs hd =>
          cases h
          intro d hd'
          rcases List.mem_cons.mp hd' with rfl | hd'
          · exact hl
          · exact ih _ _ hd d hd'
        · next _ hx => exact (hx r h).elim
    · cases h
      intro d hd
      cases hd

/-- C130: in reverse, the result begins with the end, which should not be there, and never has the start, which should. -/
theorem reversed_wrong (fuel : Nat) (start stop : Civil) (step : Step) (size : Int) (r : List Civil) (hv : Valid start) (hs : Valid stop)
    (hb : Before start stop) (h : daterange fuel start stop step size true = some (.ok r)) : r.head? = some stop ∧ start ∉ r := by
  simp only [daterange] at h
  split at h
  · cases h
  · next it _ =>
    simp only [if_true] at h
    constructor
    · cases fuel with
      | zero => cases h
      | succ n =>
        simp only [down, if_pos ((date_order _ _ hv hs).2.1.mpr hb)] at h
        split at h
        · cases h
        · split at h
          · cases h; rfl
          · next _ hx => exact (hx r h).elim
    · intro hm
      have := (date_order _ _ hv hv).1.mp (down_bounds it start fuel stop r h start hm)
      omega

/-- What reversed ranges of days are: the end, and the dates `size` days before each other as long as they are after the start. -/
theorem down_right (start : Civil) (size : Nat) (h : Ok start) (hsize : 0 < size) (hroom : -719528 ≤ daysSinceEpoch start - size) (n : Nat) : ∀ (c : Civil), Ok c →
    daysSinceEpoch c - daysSinceEpoch start ≤ n →
    ∃ r, down (fun c => datePrevious c size) start (n + 1) c = some (.ok r) ∧ (∀ k (hk : k < r.length), after (k * size) r[k] = c ∧ Before start r[k]) ∧
      daysSinceEpoch c - r.length * size ≤ daysSinceEpoch start := by
  induction n with
  | zero =>
    intro c hc hd
    have hl : dateLt start c = false := by
      cases hl : dateLt start c with
      | false => rfl
      | true => have := (date_order _ _ h.1 hc.1).1.mp hl; omega
    exact ⟨[], by simp [down, hl], fun k hk => absurd hk (Nat.not_lt_zero _), by simp; omega⟩
  | succ n ih =>
    intro c hc hd
    cases hl : dateLt start c with
    | false =>
      refine ⟨[], by simp [down, hl], fun k hk => absurd hk (Nat.not_lt_zero _), ?_⟩
      have : ¬ daysSinceEpoch start < daysSinceEpoch c := fun h' => by
        rw [(date_order _ _ h.1 hc.1).1.mpr h'] at hl; cases hl
      simp
      omega
    | true =>
      have hlt := (date_order _ _ h.1 hc.1).1.mp hl
      rcases previous_spec c hc size with ⟨_, hbad⟩ | ⟨c', hc', hok, hafter⟩
      · omega
      · have hdays := after_days size hok.1
        rw [hafter] at hdays
        obtain ⟨r, hr, hk, hend⟩ := ih c' hok (by omega)
        refine ⟨c :: r, ?_, ?_, ?_⟩
        · rw [down, if_pos hl]
          simp only [hc', hr]
        · intro k hk'
          cases k with
          | zero => exact ⟨by rw [Nat.zero_mul]; rfl, (before_iff h.1 hc.1).mpr hlt⟩
          | succ k =>
            obtain ⟨h1, h2⟩ := hk k (by simpa using hk')
            refine ⟨?_, h2⟩
            rw [Nat.succ_mul, ← after_after, List.getElem_cons_succ, h1]
            exact hafter
        · rw [List.length_cons]
          have : ((r.length + 1 : Nat) : Int) * size = r.length * size + size := by
            rw [Int.natCast_add, Int.add_mul]; simp
          rw [this]
          omega

/-- C130: what a reversed range of days is, if there are dates for another step before the start: the dates 0, `size`, 2 `size` ... days before the end,
as long as they are after the start. -/
theorem reversed_is (start stop : Civil) (size : Nat) (h : Ok start) (hs : Ok stop) (hsize : 0 < size) (hroom : -719528 ≤ daysSinceEpoch start - size) :
    ∃ fuel r, daterange fuel start stop .days size true = some (.ok r) ∧ (∀ k (hk : k < r.length), after (k * size) r[k] = stop ∧ Before start r[k]) ∧
      daysSinceEpoch stop - r.length * size ≤ daysSinceEpoch start := by
  obtain ⟨r, hr⟩ := down_right start size h hsize hroom (daysSinceEpoch stop - daysSinceEpoch start).toNat stop hs (by omega)
  refine ⟨(daysSinceEpoch stop - daysSinceEpoch start).toNat + 1, r, ?_, hr.2⟩
  simp only [daterange, iterate, if_true]
  exact hr.1

/-- C130: the same of weeks. -/
theorem reversed_weeks (start stop : Civil) (size : Nat) (h : Ok start) (hs : Ok stop) (hsize : 0 < size) (hroom : -719528 ≤ daysSinceEpoch start - size * 7) :
    ∃ fuel r, daterange fuel start stop .weeks size true = some (.ok r) ∧ (∀ k (hk : k < r.length), after (k * (size * 7)) r[k] = stop ∧ Before start r[k]) ∧
      daysSinceEpoch stop - r.length * (size * 7) ≤ daysSinceEpoch start := by
  obtain ⟨fuel, r, hr, h2, h3⟩ := reversed_is start stop (size * 7) h hs (by omega) (by rw [Int.natCast_mul]; exact hroom)
  refine ⟨fuel, r, ?_, h2, by rw [Int.natCast_mul] at h3; exact h3⟩
  rw [← hr]
  simp only [daterange, iterate, if_true, Int.natCast_mul, Int.cast_ofNat_Int]

/-- The hypotheses of `reversed_is` and `reversed_weeks`. -/
example : Ok ⟨2022, 1, 2⟩ ∧ Ok ⟨2022, 1, 5⟩ ∧ (-719528 : Int) ≤ daysSinceEpoch ⟨2022, 1, 2⟩ - (1 : Nat) * 7 := by
  refine ⟨?_, ?_, ?_⟩ <;> decide +kernel

/-- C130: otherwise the loop takes a step too many and raises. -/
theorem reversed_first_days : daterange 5 ⟨0, 1, 1⟩ ⟨0, 1, 2⟩ .days 2 true = some (.error (.date .nonexistentDate)) := rfl

/-- C130: months and years cannot be counted down. -/
theorem reversed_months (fuel : Nat) (start stop : Civil) (size : Int) : daterange fuel start stop .months size true = some (.error .notImplemented) ∧
    daterange fuel start stop .years size true = some (.error .notImplemented) := ⟨rfl, rfl⟩

deriving instance DecidableEq for Except

example : daterange 9 ⟨2022, 1, 31⟩ ⟨2022, 5, 1⟩ .months 1 false = some (.ok [⟨2022, 1, 31⟩, ⟨2022, 2, 28⟩, ⟨2022, 3, 31⟩, ⟨2022, 4, 30⟩]) := by decide +kernel
example : daterange 9 ⟨2024, 2, 29⟩ ⟨2033, 1, 1⟩ .years 4 false = some (.ok [⟨2024, 2, 29⟩, ⟨2028, 2, 29⟩, ⟨2032, 2, 29⟩]) := by decide +kernel
example : daterange 9 ⟨2024, 2, 20⟩ ⟨2024, 3, 6⟩ .weeks 1 false = some (.ok [⟨2024, 2, 20⟩, ⟨2024, 2, 27⟩, ⟨2024, 3, 5⟩]) := by decide +kernel
example : daterange 9 ⟨2022, 1, 2⟩ ⟨2022, 1, 5⟩ .days 1 true = some (.ok [⟨2022, 1, 5⟩, ⟨2022, 1, 4⟩, ⟨2022, 1, 3⟩]) := by decide +kernel
/-- The hypotheses of `daterange_right_partial`. -/
example : Ok ⟨2022, 1, 31⟩ ∧ Valid ⟨2022, 5, 1⟩ := by decide

end Verif.DateRange
