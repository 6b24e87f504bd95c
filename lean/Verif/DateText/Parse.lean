import Verif.DateText.Format
/-
The parser reads back what the formatter writes.
-/
namespace Verif.DateText
open Verif.Chrono Verif.Chrono.Spec

theorem lower_append (a b : Str) : lower (a ++ b) = lower a ++ lower b := by simp [lower]

theorem lower_two (n : Int) : lower (two n) = two n := by simp [lower, two]
theorem lower_four (n : Int) : lower (four n) = four n := by simp [lower, four]

/-! ### Names of months -/

theorem month_of_name {m : Int} (h1 : 1 ≤ m) (h2 : m ≤ 12) : month? (lower (monthName m)) = some m :=
  month_cases (fun m => month? (lower (monthName m)) = some m) h1 h2 (by decide +kernel)

theorem month_of_abbr {m : Int} (h1 : 1 ≤ m) (h2 : m ≤ 12) : month? (lower ((monthName m).take 3)) = some m :=
  month_cases (fun m => month? (lower ((monthName m).take 3)) = some m) h1 h2 (by decide +kernel)

theorem abbr_length {m : Int} (h1 : 1 ≤ m) (h2 : m ≤ 12) : (lower ((monthName m).take 3)).length = 3 :=
  month_cases (fun m => (lower ((monthName m).take 3)).length = 3) h1 h2 (by decide +kernel)

theorem name_length {m : Int} (h1 : 1 ≤ m) (h2 : m ≤ 12) :
    (lower (monthName m)).length ∈ [9, 8, 7, 6, 5, 4, 3] :=
  month_cases (fun m => (lower (monthName m)).length ∈ [9, 8, 7, 6, 5, 4, 3]) h1 h2 (by decide +kernel)

theorem startsWith_append (p s : Str) : startsWith p (p ++ s) = true := by
  induction p with
  | nil => rfl
  | cons a p ih => simp [startsWith, ih]

/-- No key of the table continues the full name of a month. -/
theorem name_maximal {m : Int} (h1 : 1 ≤ m) (h2 : m ≤ 12) :
    ∀ e ∈ monthToInt, startsWith (lower (monthName m)) e.1 = true → e.1 = lower (monthName m) :=
  month_cases (fun m => ∀ e ∈ monthToInt, startsWith (lower (monthName m)) e.1 = true → e.1 = lower (monthName m))
    h1 h2 (by decide +kernel)

theorem lookup_mem {α β : Type} [BEq α] [LawfulBEq α] {l : List (α × β)} {a : α} {b : β} (h : l.lookup a = some b) :
    (a, b) ∈ l := by
  induction l with
  | nil => cases h
  | cons e l ih =>
    obtain ⟨x, y⟩ := e
    rw [List.lookup_cons] at h
    by_cases hx : a = x
    · subst hx
      simp at h
      subst h
      exact List.mem_cons_self
    · have : (a == x) = false := by simpa using hx
      rw [this] at h
      exact List.mem_cons_of_mem _ (ih h)

theorem take_name {m : Int} (h1 : 1 ≤ m) (h2 : m ≤ 12) (R : Str) : ∀ (ks : List Nat)
    (_ : (lower (monthName m)).length ∈ ks) (_ : ks.Pairwise (fun a b => b ≤ a)),
    takeMonthName (lower (monthName m) ++ R) ks = .ok (R, m)
  | [], h, _ => by cases h
  | k :: ks, h, hs => by
    have hk : (lower (monthName m)).length ≤ k := by
      rcases List.mem_cons.1 h with h | h
      · omega
      · exact (List.pairwise_cons.1 hs).1 _ h
    have et : (lower (monthName m) ++ R).take k = lower (monthName m) ++ R.take (k - (lower (monthName m)).length) := by
      rw [List.take_append, List.take_of_length_le hk]
    have ed : (lower (monthName m) ++ R).drop k = R.drop (k - (lower (monthName m)).length) := by
      rw [List.drop_append, List.drop_of_length_le hk, List.nil_append]
    rw [takeMonthName]
    split
    · rename_i v hv
      have hv' := hv
      rw [et] at hv
      have hm := name_maximal h1 h2 _ (lookup_mem hv) (startsWith_append _ _)
      simp only at hm
      have hR : R.take (k - (lower (monthName m)).length) = [] := by
        have := congrArg List.length hm
        rw [List.length_append] at this
        exact List.eq_nil_of_length_eq_zero (by omega)
      rw [hR, List.append_nil, month_of_name h1 h2] at hv
      cases hv
      rw [ed]
      have : R.drop (k - (lower (monthName m)).length) = R := by
        rcases List.take_eq_nil_iff.1 hR with h | h
        · rw [h]; rfl
        · rw [h]; simp
      rw [this]
    · rename_i hv
      refine take_name h1 h2 R ks ?_ (List.pairwise_cons.1 hs).2
      rcases List.mem_cons.1 h with h | h
      · exfalso
        rw [et, ← h] at hv
        simp only [Nat.sub_self, List.take_zero, List.append_nil] at hv
        rw [month_of_name h1 h2] at hv
        cases hv
      · exact h

/-! ### One directive -/

/-- What reading an item back does to the variables of the parser. -/
def setItem (dt : DateTime) (f : Fields) : Item → Fields
  | .Y => { f with year := dt.date.year }
  | .m => { f with month := dt.date.month }
  | .b => { f with month := dt.date.month }
  | .B => { f with month := dt.date.month }
  | .d => { f with day := dt.date.day }
  | .H => { f with hour := dt.timeOfDay.hour }
  | .I => { f with hour := hour12 dt.timeOfDay.hour }
  | .M => { f with minute := dt.timeOfDay.minute }
  | .S => { f with second := dt.timeOfDay.second }
  | .p => { f with ampm := if dt.timeOfDay.hour < 12 then "am".toList else "pm".toList }
  | .Z => { f with tz := "utc".toList }
  | .z => { f with tz := "+0000".toList }
  | _ => f

theorem take2_two {n : Int} (h0 : 0 ≤ n) (h1 : n < 100) (R : Str) (k : Int → Fields) :
    take2 (lower (two n) ++ R) k = .ok (R, k n) := by
  have e1 : (lower (two n) ++ R).take 2 = two n := by rw [lower_two]; rfl
  have e2 : (lower (two n) ++ R).drop 2 = R := by rw [lower_two]; rfl
  unfold take2
  rw [e1, e2, if_pos (is2d_two n), pyInt_two h0 h1]

theorem takeTz_utc (R : Str) : takeTz ("utc".toList ++ R) [4, 4, 3, 2] = .ok (R, "utc".toList) := by
  cases R with
  | nil => decide
  | cons c R =>
    have e : ("utc".toList ++ c :: R).take 4 = ['u', 't', 'c', c] := rfl
    have e3 : ("utc".toList ++ c :: R).take 3 = "utc".toList := rfl
    have d3 : ("utc".toList ++ c :: R).drop 3 = c :: R := rfl
    have hn : isValidTimezone ['u', 't', 'c', c] = false := by
      have : lower ['u', 't', 'c', c] = ['u', 't', 'c', lowerC c] := rfl
      unfold isValidTimezone
      rw [this]
      simp [tzKeys]
    unfold takeTz
    rw [e, hn]
    unfold takeTz
    rw [e, hn]
    unfold takeTz
    rw [e3, d3]
    rfl

theorem directive_reads {dt : DateTime} (h : DtOk dt) (hy : dt.date.year ≤ 9999) {i : Item} {withTz : Bool}
    (hb : i.both ∨ (withTz = true ∧ i.zone)) {c : Char} (hi : i.text = ['%', c]) (R : Str) (f : Fields) :
    parseDirective withTz c (lower (i.render dt) ++ R) f = .ok (R, setItem dt f i) := by
  obtain ⟨y0, m1, m2, d1, d2⟩ := comp_bounds h
  obtain ⟨t1, t2, t3, t4, t5, t6⟩ := h.2
  have hh := hour12_bounds dt.timeOfDay.hour
  cases i <;> simp only [Item.text, List.cons.injEq, and_true, true_and, List.cons_ne_nil, reduceCtorEq, and_false]
    at hi <;> (try exact absurd hi (by decide)) <;> subst hi <;>
    simp only [Item.both, Item.zone, or_false, and_false, or_self, and_true, false_or] at hb
  case Y =>
    have e1 : (lower (four dt.date.year) ++ R).take 4 = four dt.date.year := by rw [lower_four]; rfl
    have e2 : (lower (four dt.date.year) ++ R).drop 4 = R := by rw [lower_four]; rfl
    show parseDirective withTz 'Y' (lower (four dt.date.year) ++ R) f = _
    unfold parseDirective
    rw [if_pos rfl, e1, e2, if_pos (is4d_four _), pyInt_four y0 (by omega)]
    rfl
  case m => exact take2_two (by omega) (by omega) R _
  case d => exact take2_two (by omega) (by omega) R _
  case H => exact take2_two (by omega) (by omega) R _
  case M => exact take2_two (by omega) (by omega) R _
  case S => exact take2_two (by omega) (by omega) R _
  case I => exact take2_two (by omega) (by omega) R _
  case b =>
    have e1 : (lower ((monthName dt.date.month).take 3) ++ R).take 3 = lower ((monthName dt.date.month).take 3) := by
      rw [List.take_append, abbr_length m1 m2, List.take_of_length_le (Nat.le_of_eq (abbr_length m1 m2))]
      simp
    have e2 : (lower ((monthName dt.date.month).take 3) ++ R).drop 3 = R := by
      rw [List.drop_append, abbr_length m1 m2, List.drop_of_length_le (Nat.le_of_eq (abbr_length m1 m2))]
      simp
    have : parseDirective withTz 'b' (lower ((monthName dt.date.month).take 3) ++ R) f =
        match month? ((lower ((monthName dt.date.month).take 3) ++ R).take 3) with
        | some m => .ok ((lower ((monthName dt.date.month).take 3) ++ R).drop 3, { f with month := m })
        | none => .error .value := rfl
    show parseDirective withTz 'b' (lower ((monthName dt.date.month).take 3) ++ R) f = _
    rw [this, e1, e2, month_of_abbr m1 m2]
    rfl
  case B =>
    have : parseDirective withTz 'B' (lower (monthName dt.date.month) ++ R) f =
        match takeMonthName (lower (monthName dt.date.month) ++ R) [9, 8, 7, 6, 5, 4, 3] with
        | .ok (s, m) => .ok (s, { f with month := m })
        | .error e => .error e := rfl
    show parseDirective withTz 'B' (lower (monthName dt.date.month) ++ R) f = _
    rw [this, take_name m1 m2 R _ (name_length m1 m2) (by decide)]
    rfl
  case p =>
    unfold Item.render setItem
    by_cases hlt : dt.timeOfDay.hour < 12
    · rw [if_pos hlt, if_pos hlt]; rfl
    · rw [if_neg hlt, if_neg hlt]; rfl
  case Z =>
    subst hb
    have : parseDirective true 'Z' ("utc".toList ++ R) f =
        match takeTz ("utc".toList ++ R) [4, 4, 3, 2] with
        | .ok (s, z) => .ok (s, { f with tz := z })
        | .error e => .error e := rfl
    show parseDirective true 'Z' ("utc".toList ++ R) f = _
    rw [this, takeTz_utc]
    rfl
  case z =>
    subst hb
    rfl

/-! ### The whole format -/

theorem parse_dir {withTz : Bool} {c : Char} {fmt s s' : Str} {f f' : Fields}
    (h : parseDirective withTz c s f = .ok (s', f')) :
    parseLoop withTz ('%' :: c :: fmt) s f = parseLoop withTz fmt s' f' := by
  rw [parseLoop, if_pos rfl, h]

theorem parse_lit {withTz : Bool} {c : Char} (hc : c ≠ '%') (fmt s : Str) (f : Fields) :
    parseLoop withTz (c :: fmt) s f = parseLoop withTz fmt (s.drop 1) f := by
  cases fmt with
  | nil => rfl
  | cons d fmt => rw [parseLoop, if_neg hc]

theorem parse_render {dt : DateTime} (h : DtOk dt) (hy : dt.date.year ≤ 9999) {withTz : Bool} :
    ∀ (items : List Item) (_ : ∀ i ∈ items, i.both ∨ (withTz = true ∧ i.zone)) (f : Fields),
      parseLoop withTz (fmtText items) (lower (render dt items)) f = .ok (items.foldl (setItem dt) f)
  | [], _, f => rfl
  | i :: items, hb, f => by
    have hi := hb i List.mem_cons_self
    have ih := parse_render h hy items (fun j hj => hb j (List.mem_cons_of_mem _ hj)) (setItem dt f i)
    show parseLoop withTz (i.text ++ fmtText items) (lower (i.render dt ++ render dt items)) f = _
    rw [lower_append, List.foldl_cons]
    by_cases hl : ∃ c, i = .lit c
    · obtain ⟨c, rfl⟩ := hl
      have hc : c ≠ '%' := by
        rcases hi with hi | hi
        · exact hi.1
        · exact hi.2.elim
      show parseLoop withTz (c :: fmtText items) (lowerC c :: lower (render dt items)) f = _
      rw [parse_lit hc]
      exact ih
    · obtain ⟨c, hc⟩ : ∃ c, i.text = ['%', c] := by
        cases i <;> first | exact ⟨_, rfl⟩ | exact absurd ⟨_, rfl⟩ hl
      rw [hc]
      show parseLoop withTz ('%' :: c :: fmtText items) _ f = _
      rw [parse_dir (directive_reads h hy hi hc _ f)]
      exact ih

/-! ### The variables after the loop -/

theorem fold_year (dt : DateTime) : ∀ (items : List Item) (f : Fields),
    (items.foldl (setItem dt) f).year = if .Y ∈ items then dt.date.year else f.year
  | [], f => by simp
  | i :: items, f => by
    rw [List.foldl_cons, fold_year dt items]
    cases i <;> simp [setItem]

theorem fold_month (dt : DateTime) : ∀ (items : List Item) (f : Fields),
    (items.foldl (setItem dt) f).month = if hasMonth items then dt.date.month else f.month
  | [], f => by simp [hasMonth]
  | i :: items, f => by
    rw [List.foldl_cons, fold_month dt items]
    cases i <;> simp [setItem, hasMonth] <;> exact ite_self _

theorem fold_day (dt : DateTime) : ∀ (items : List Item) (f : Fields),
    (items.foldl (setItem dt) f).day = if .d ∈ items then dt.date.day else f.day
  | [], f => by simp
  | i :: items, f => by
    rw [List.foldl_cons, fold_day dt items]
    cases i <;> simp [setItem]

theorem fold_minute (dt : DateTime) : ∀ (items : List Item) (f : Fields),
    (items.foldl (setItem dt) f).minute = if .M ∈ items then dt.timeOfDay.minute else f.minute
  | [], f => by simp
  | i :: items, f => by
    rw [List.foldl_cons, fold_minute dt items]
    cases i <;> simp [setItem]

theorem fold_second (dt : DateTime) : ∀ (items : List Item) (f : Fields),
    (items.foldl (setItem dt) f).second = if .S ∈ items then dt.timeOfDay.second else f.second
  | [], f => by simp
  | i :: items, f => by
    rw [List.foldl_cons, fold_second dt items]
    cases i <;> simp [setItem]

theorem fold_hour24 (dt : DateTime) : ∀ (items : List Item) (_ : .I ∉ items) (f : Fields),
    (items.foldl (setItem dt) f).hour = if .H ∈ items then dt.timeOfDay.hour else f.hour
  | [], _, f => by simp
  | i :: items, h, f => by
    rw [List.foldl_cons, fold_hour24 dt items (fun h' => h (List.mem_cons_of_mem _ h'))]
    cases i <;> first | simp [setItem]; done | simp at h

theorem fold_hour12 (dt : DateTime) : ∀ (items : List Item) (_ : .H ∉ items) (f : Fields),
    (items.foldl (setItem dt) f).hour = if .I ∈ items then hour12 dt.timeOfDay.hour else f.hour
  | [], _, f => by simp
  | i :: items, h, f => by
    rw [List.foldl_cons, fold_hour12 dt items (fun h' => h (List.mem_cons_of_mem _ h'))]
    cases i <;> first | simp [setItem]; done | simp at h

theorem fold_ampm (dt : DateTime) : ∀ (items : List Item) (f : Fields),
    (items.foldl (setItem dt) f).ampm =
      if .p ∈ items then (if dt.timeOfDay.hour < 12 then "am".toList else "pm".toList) else f.ampm
  | [], f => by simp
  | i :: items, f => by
    rw [List.foldl_cons, fold_ampm dt items]
    cases i <;> simp [setItem]

theorem fold_tz (dt : DateTime) : ∀ (items : List Item) (f : Fields) (_ : f.tz ∈ tzKeys.take 3),
    (items.foldl (setItem dt) f).tz ∈ tzKeys.take 3
  | [], f, h => h
  | i :: items, f, h => by
    rw [List.foldl_cons]
    refine fold_tz dt items _ ?_
    cases i <;> first | exact h | (simp [setItem, tzKeys]; done)

/-- Undoing the twelve-hour clock. -/
theorem adjust_ok {h : Int} (h0 : 0 ≤ h) (h1 : h < 24) (hn : h ≠ 12) :
    adjustAmPm (if h < 12 then "am".toList else "pm".toList) (hour12 h) = .ok h := by
  have hb := hour12_bounds h
  by_cases hlt : h < 12
  · rw [if_pos hlt]
    unfold adjustAmPm
    rw [if_neg (by decide), if_neg (by omega)]
    by_cases hz : h = 0
    · subst hz; rfl
    · have : hour12 h = h := by unfold hour12; split <;> omega
      rw [this, if_neg (by omega), if_neg (by decide)]
  · rw [if_neg hlt]
    unfold adjustAmPm
    rw [if_neg (by decide), if_neg (by omega), if_neg (fun h => absurd h.1 (by decide)), if_pos rfl]
    have : hour12 h + 12 = h := by unfold hour12; split <;> omega
    rw [this]

theorem adjust_12pm : adjustAmPm "pm".toList 12 = .ok 24 := rfl

/-- The shown part of an existing date and time exists. -/
theorem shown_ok {dt : DateTime} (h : DtOk dt) (items : List Item) (hd : .d ∈ items → hasMonth items) :
    DtOk (shown items dt) := by
  obtain ⟨⟨⟨h1, h2, h3, h4⟩, hy⟩, t1, t2, t3, t4, t5, t6⟩ := h
  refine ⟨⟨⟨?_, ?_, ?_, ?_⟩, hy⟩, ?_⟩
  · simp only [shown]; split <;> omega
  · simp only [shown]; split <;> omega
  · simp only [shown]; split <;> omega
  · simp only [shown]
    by_cases h : .d ∈ items
    · rw [if_pos h, if_pos (hd h)]; exact h4
    · rw [if_neg h]
      unfold monthLen
      repeat' split
      all_goals omega
  · simp only [shown, TimeOk]
    refine ⟨?_, ?_, ?_, ?_, ?_, ?_⟩ <;> split <;> omega

theorem finish_ok {dt : DateTime} (h : DtOk dt) (items : List Item) (hY : .Y ∈ items)
    (hd : .d ∈ items → hasMonth items) (hc : oneClock items) (hn : .p ∈ items → dt.timeOfDay.hour ≠ 12) :
    finishFields (items.foldl (setItem dt) Fields.init) = .ok (shown items dt) := by
  have hs := shown_ok h items hd
  obtain ⟨y0, m1, m2, d1, d2⟩ := comp_bounds h
  obtain ⟨t1, t2, t3, t4, t5, t6⟩ := h.2
  have hh : adjustAmPm (items.foldl (setItem dt) Fields.init).ampm (items.foldl (setItem dt) Fields.init).hour
      = .ok (shown items dt).timeOfDay.hour := by
    rw [fold_ampm]
    rcases hc with ⟨hI, hp⟩ | ⟨hH, hI, hp⟩
    · rw [if_neg hp, fold_hour24 dt items hI]
      simp only [shown, hasHour, hI, hp, false_and, or_false]
      rfl
    · rw [if_pos hp, fold_hour12 dt items hH, if_pos hI, adjust_ok t1 t2 (hn hp)]
      simp only [shown, hasHour, hI, hp, true_and, or_true, if_true]
  unfold finishFields
  rw [hh]
  simp only
  rw [fold_year, if_pos hY, fold_month, fold_day, fold_minute, fold_second]
  have hv : isValidDate dt.date.year (if hasMonth items then dt.date.month else Fields.init.month)
      (if .d ∈ items then dt.date.day else Fields.init.day) = true := by
    by_cases hm : hasMonth items
    · by_cases hdd : .d ∈ items
      · rw [if_pos hm, if_pos hdd]; exact isValidDate_ok h.1
      · rw [if_pos hm, if_neg hdd]
        simp only [Fields.init, isValidDate]
        have e1 : ¬ dt.date.month < 1 := by omega
        have e2 : ¬ dt.date.month > 12 := by omega
        have e3 : -1 < dt.date.year := by omega
        have e4 : -1 < dt.date.month := by omega
        simp [e1, e2, e3, e4]
    · have hdd : .d ∉ items := fun h => hm (hd h)
      rw [if_neg hm, if_neg hdd]
      simp only [Fields.init, isValidDate]
      have e3 : -1 < dt.date.year := by omega
      simp [e3]
  have ht := isValidTime_ok hs.2
  have hk := mkDateTime_ok hs
  have e1 : (if (if hasMonth items then dt.date.month else Fields.init.month) = -1 then 1
      else (if hasMonth items then dt.date.month else Fields.init.month)) = (shown items dt).date.month := by
    simp only [shown, Fields.init]
    by_cases hm : hasMonth items
    · simp only [hm, if_true]; rw [if_neg (by omega)]
    · simp only [hm, if_false, if_true]
  have e2 : (if (if .d ∈ items then dt.date.day else Fields.init.day) = -1 then 1
      else (if .d ∈ items then dt.date.day else Fields.init.day)) = (shown items dt).date.day := by
    simp only [shown, Fields.init]
    by_cases hm : .d ∈ items
    · simp only [hm, if_true]; rw [if_neg (by omega)]
    · simp only [hm, if_false, if_true]
  rw [hv, e1, e2]
  have ht' : isValidTime (shown items dt).timeOfDay.hour
      (if .M ∈ items then dt.timeOfDay.minute else Fields.init.minute)
      (if .S ∈ items then dt.timeOfDay.second else Fields.init.second) = true := ht
  rw [ht']
  simp only [Bool.not_true, Bool.false_eq_true, if_false]
  have hk' : mkDateTime dt.date.year (shown items dt).date.month (shown items dt).date.day
      (shown items dt).timeOfDay.hour (if .M ∈ items then dt.timeOfDay.minute else Fields.init.minute)
      (if .S ∈ items then dt.timeOfDay.second else Fields.init.second) = .ok (shown items dt) := hk
  rw [hk']
  rfl

end Verif.DateText
