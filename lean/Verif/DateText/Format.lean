import Verif.DateText.Lemmas
/-
The formatter writes what the specification says; the parser reads it back.
-/
namespace Verif.DateText
open Verif.Chrono Verif.Chrono.Spec

/-! ### The formatter -/

theorem dir_ok {dt : DateTime} {d : Char} {fmt t r : Str} (h1 : formatDirective dt d = .ok t)
    (h2 : formatLoop dt fmt = .ok r) : formatLoop dt ('%' :: d :: fmt) = .ok (t ++ r) := by
  rw [formatLoop, if_pos rfl, h1]
  simp only
  rw [h2]

theorem lit_ok {dt : DateTime} {c : Char} {fmt r : Str} (hc : c ≠ '%')
    (h2 : formatLoop dt fmt = .ok r) : formatLoop dt (c :: fmt) = .ok (c :: r) := by
  cases fmt with
  | nil => cases h2; rfl
  | cons d fmt => rw [formatLoop, if_neg hc, h2]

/-- The two shortcuts agree with the loop. -/
theorem formatDt_loop (dt : DateTime) (fmt : Str) : formatDt dt fmt = formatLoop dt fmt := by
  unfold formatDt
  split
  · rename_i h
    subst h
    have := dir_ok (dt := dt) (d := 'Y') rfl (lit_ok (c := '-') (by decide) (dir_ok (d := 'm') rfl
      (lit_ok (c := '-') (by decide) (dir_ok (d := 'd') rfl (rfl : formatLoop dt [] = .ok [])))))
    rw [List.append_nil] at this
    exact this.symm
  · split
    · rename_i h
      subst h
      have := dir_ok (dt := dt) (d := 'Y') rfl (lit_ok (c := '-') (by decide) (dir_ok (d := 'm') rfl
        (lit_ok (c := '-') (by decide) (dir_ok (d := 'd') rfl (lit_ok (c := ' ') (by decide) (dir_ok (d := 'H') rfl
        (lit_ok (c := ':') (by decide) (dir_ok (d := 'M') rfl (lit_ok (c := ':') (by decide) (dir_ok (d := 'S') rfl
        (rfl : formatLoop dt [] = .ok [])))))))))))
      rw [List.append_nil] at this
      exact this.symm
    · rfl

/-- Bounds on the components of a clock reading. -/
theorem comp_bounds {dt : DateTime} (h : DtOk dt) : 0 ≤ dt.date.year ∧ 1 ≤ dt.date.month ∧ dt.date.month ≤ 12 ∧
    1 ≤ dt.date.day ∧ dt.date.day ≤ 31 := by
  obtain ⟨⟨hv, hy⟩, ht⟩ := h
  have := day_le hv
  obtain ⟨h1, h2, _, _⟩ := hv
  exact ⟨hy, h1, h2, this.1, this.2⟩

theorem hour12_bounds (h : Int) : 1 ≤ hour12 h ∧ hour12 h ≤ 12 := by unfold hour12; split <;> omega

/-- One directive. -/
theorem directive_renders {dt : DateTime} (h : DtOk dt) (hy : dt.date.year ≤ 9999) {i : Item}
    (hw : i.isWeekday = true → -5 ≤ daysSinceEpoch dt.date) {c : Char} (hi : i.text = ['%', c]) :
    formatDirective dt c = .ok (i.render dt) := by
  obtain ⟨y0, m1, m2, d1, d2⟩ := comp_bounds h
  obtain ⟨t1, t2, t3, t4, t5, t6⟩ := h.2
  have hh := hour12_bounds dt.timeOfDay.hour
  have hd := dow_bounds dt.date
  have hj := Chrono.Props.dayOfYear_spec dt.date h.1.1
  have hj2 : 0 ≤ daysSinceEpoch dt.date - daysSinceEpoch ⟨dt.date.year, 1, 1⟩ + 1 ∧
      daysSinceEpoch dt.date - daysSinceEpoch ⟨dt.date.year, 1, 1⟩ + 1 < 1000 := by
    rw [← hj.1]
    have := hj.2.2
    split at this <;> omega
  cases i <;> simp only [Item.text, List.cons.injEq, and_true, true_and, List.cons_ne_nil, reduceCtorEq, and_false]
    at hi <;> (try exact absurd hi (by decide)) <;> subst hi
  case Y => exact congrArg _ (f4d_four y0 (by omega))
  case m => exact congrArg _ (f2d_two (by omega) (by omega))
  case d => exact congrArg _ (f2d_two (by omega) (by omega))
  case H => exact congrArg _ (f2d_two (by omega) (by omega))
  case M => exact congrArg _ (f2d_two (by omega) (by omega))
  case S => exact congrArg _ (f2d_two (by omega) (by omega))
  case b => exact monthAbbrs_spec m1 m2
  case B => exact monthNames_spec m1 m2
  case I =>
    show Except.ok (f2d (convertTo12h dt.timeOfDay.hour)) = _
    rw [convertTo12h_spec t1 t2, f2d_two (by omega) (by omega)]
    rfl
  case p =>
    show Except.ok (if dt.timeOfDay.hour < 12 then "AM".toList else "PM".toList) = _
    unfold Item.render
    rfl
  case a =>
    show getKey dayAbbrs (weekday dt.date) = _
    rw [weekday_dow (hw rfl)]
    exact dayAbbrs_spec hd.1 hd.2
  case A =>
    show getKey dayNames (weekday dt.date) = _
    rw [weekday_dow (hw rfl)]
    exact dayNames_spec hd.1 hd.2
  case w =>
    show Except.ok (pyStr (weekday dt.date)) = _
    rw [weekday_dow (hw rfl)]
    exact congrArg _ (pyStr_digit (by omega) (by omega))
  case y => exact congrArg _ (f2d_two (by omega) (by omega))
  case j =>
    show Except.ok (f3d (dayOfYear dt.date.year dt.date.month dt.date.day)) = _
    rw [hj.1]
    exact congrArg _ (f3d_three hj2.1 hj2.2)
  case C => exact congrArg _ (f2d_two (by omega) (by omega))
  case u =>
    show Except.ok (pyStr (if weekday dt.date = 0 then 7 else weekday dt.date)) = _
    rw [weekday_dow (hw rfl)]
    exact congrArg _ (pyStr_digit (by split <;> omega) (by split <;> omega))
  case pct => rfl
  case Z => rfl
  case z => rfl

/-- The whole format. -/
theorem loop_renders {dt : DateTime} (h : DtOk dt) (hy : dt.date.year ≤ 9999) : ∀ (items : List Item)
    (_ : ∀ i ∈ items, i.plain) (_ : ∀ i ∈ items, i.isWeekday = true → -5 ≤ daysSinceEpoch dt.date),
    formatLoop dt (fmtText items) = .ok (render dt items)
  | [], _, _ => rfl
  | i :: items, hp, hw => by
    have ih := loop_renders h hy items (fun j hj => hp j (List.mem_cons_of_mem _ hj))
      (fun j hj => hw j (List.mem_cons_of_mem _ hj))
    have hi := hp i List.mem_cons_self
    have hwi := hw i List.mem_cons_self
    show formatLoop dt (i.text ++ fmtText items) = .ok (i.render dt ++ render dt items)
    by_cases hl : ∃ c, i = .lit c
    · obtain ⟨c, rfl⟩ := hl
      exact lit_ok hi.1 ih
    · obtain ⟨c, hc⟩ : ∃ c, i.text = ['%', c] := by
        cases i <;> first | exact ⟨_, rfl⟩ | exact absurd ⟨_, rfl⟩ hl
      rw [hc]
      exact dir_ok (directive_renders h hy hwi hc) ih

/-- `DateFormatter.format` with a fixed offset. -/
theorem format_ok {ts off : Int} {dt : DateTime} (h : FixedZone.datetime ⟨off⟩ ts = .ok dt)
    (hy : dt.date.year ≤ 9999) (items : List Item) (hp : ∀ i ∈ items, i.plain)
    (hw : ∀ i ∈ items, i.isWeekday = true → -5 ≤ daysSinceEpoch dt.date) :
    format ts off (fmtText items) = .ok (render dt items) := by
  unfold format
  rw [h]
  simp only
  rw [formatDt_loop, loop_renders (datetime_ok h).1 hy items hp hw]

end Verif.DateText
