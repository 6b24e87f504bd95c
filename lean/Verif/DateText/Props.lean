import Verif.DateText.Words
/-
Property theorems C37 (formatting then parsing), C38 (twelve-hour clock), C59 (offsets in ISO 8601 texts), C60 (what the
directives write).
-/
namespace Verif.DateText.Props
open Verif.Chrono Verif.Chrono.Spec Verif.DateText

/-- A timezone database entry for the examples. -/
def anyNyc : Tz := fun _ => .error .exc

/-! ### C60: what `format` writes -/

/-- C60 (partial): for a UTC clock reading in the years 0..9999, `format` writes what `strftime` defines for every
format made of the supported directives and plain characters.  The day of the week is right from 27 December 1969 on.
Missing: earlier days of the week (`weekday_fails`) and the names of other timezones (`zone_mislabelled`), for which the
property is false. -/
theorem format_renders_partial {ts : Int} {dt : DateTime} (h : FixedZone.datetime ⟨0⟩ ts = .ok dt)
    (hy : dt.date.year ≤ 9999) (items : List Item) (hp : ∀ i ∈ items, i.plain)
    (hw : ∀ i ∈ items, i.isWeekday = true → -5 ≤ daysSinceEpoch dt.date) :
    format ts 0 (fmtText items) = .ok (render dt items) :=
  format_ok h hy items hp hw

example : format 852213600 0 (fmtText [.A, .lit ' ', .d, .lit '/', .b, .lit '/', .y, .lit ' ', .I, .p, .lit ' ', .j])
    = .ok "Thursday 02/Jan/97 02PM 002".toList := by
  have h : FixedZone.datetime ⟨0⟩ 852213600 = .ok ⟨⟨1997, 1, 2⟩, ⟨14, 0, 0⟩⟩ := by decide +kernel
  rw [format_renders_partial h (by decide) _ (by decide +kernel) (by decide +kernel)]
  decide +kernel

/-- C60: the same for every other fixed offset, as long as the format has no timezone directive. -/
theorem format_renders_offset_partial {ts off : Int} {dt : DateTime} (h : FixedZone.datetime ⟨off⟩ ts = .ok dt)
    (hy : dt.date.year ≤ 9999) (items : List Item) (hp : ∀ i ∈ items, i.plain ∧ ¬ i.zone)
    (hw : ∀ i ∈ items, i.isWeekday = true → -5 ≤ daysSinceEpoch dt.date) :
    format ts off (fmtText items) = .ok (render dt items) :=
  format_ok h hy items (fun i hi => (hp i hi).1) hw

example : format 0 (-18000) (fmtText [.H, .lit 'h', .M]) = .ok "19h00".toList := by
  have h : FixedZone.datetime ⟨-18000⟩ 0 = .ok ⟨⟨1969, 12, 31⟩, ⟨19, 0, 0⟩⟩ := by decide +kernel
  rw [format_renders_offset_partial h (by decide) _ (by decide +kernel) (by decide +kernel)]
  decide +kernel

/-- C60 is false before 1969-12-27: the name of the day of the week raises `KeyError` or is another day's number. -/
theorem weekday_fails :
    format (-6 * 86400) 0 "%A".toList = .error .key ∧
    format (-6 * 86400) 0 "%w".toList = .ok "12".toList ∧
    FixedZone.datetime ⟨0⟩ (-6 * 86400) = .ok ⟨⟨1969, 12, 26⟩, ⟨0, 0, 0⟩⟩ := by
  refine ⟨?_, ?_, ?_⟩ <;> decide +kernel

/-- C60 is false of `%Z` and `%z` away from UTC: the local time is labelled UTC. -/
theorem zone_mislabelled :
    format 0 (-18000) "%H:%M %Z".toList = .ok "19:00 UTC".toList ∧
    format 0 (-18000) "%H:%M %z".toList = .ok "19:00 +0000".toList := by
  refine ⟨?_, ?_⟩ <;> decide +kernel

/-- C60: an unknown directive is a `ValueError`; a lone `%` at the end stands for itself. -/
theorem format_unknown : format 0 0 "%Q".toList = .error .value ∧ format 0 0 "100%".toList = .ok "100%".toList := by
  refine ⟨?_, ?_⟩ <;> decide +kernel

/-! ### C37: formatting, then parsing -/

/-- The two parsers with a format, on what the formatter writes. -/
theorem format_parse_gen {ts off : Int} {dt : DateTime} (h : FixedZone.datetime ⟨off⟩ ts = .ok dt)
    (hy : dt.date.year ≤ 9999) (items : List Item) (hb : ∀ i ∈ items, i.both) (hY : .Y ∈ items)
    (hd : .d ∈ items → hasMonth items) (hc : oneClock items) (hn : .p ∈ items → dt.timeOfDay.hour ≠ 12) :
    ∃ s, format ts off (fmtText items) = .ok s ∧
      parseWithTimezone (fixedTz off) s (fmtText items) = .ok (localSec (shown items dt) - off) := by
  have hok := datetime_ok h
  have hp : ∀ i ∈ items, i.plain := by
    intro i hi
    have := hb i hi
    cases i <;> simp only [Item.both] at this <;> first | exact this | trivial
  have hw : ∀ i ∈ items, i.isWeekday = true → -5 ≤ daysSinceEpoch dt.date := by
    intro i hi hwi
    have := hb i hi
    cases i <;> simp only [Item.both] at this <;> simp [Item.isWeekday] at hwi
  refine ⟨_, format_ok h hy items hp hw, ?_⟩
  have hne : fmtText items ≠ [] := by
    intro he
    have : Item.Y.text = [] := by
      have := List.flatMap_eq_nil_iff.1 he _ hY
      exact this
    simp [Item.text] at this
  unfold parseWithTimezone
  rw [if_pos hne]
  unfold parseWithFormatAndTimezone
  rw [parse_render hok.1 hy items (fun i hi => Or.inl (hb i hi)) Fields.init]
  simp only
  rw [finish_ok hok.1 items hY hd hc hn]
  simp only
  rw [fixedTz_eq]

/-- The same in UTC without naming the timezone; the format may also have `%Z` and `%z`. -/
theorem format_parse_utc_gen (nyc : Tz) {ts : Int} {dt : DateTime} (h : FixedZone.datetime ⟨0⟩ ts = .ok dt)
    (hy : dt.date.year ≤ 9999) (items : List Item) (hb : ∀ i ∈ items, i.both ∨ i.zone) (hY : .Y ∈ items)
    (hd : .d ∈ items → hasMonth items) (hc : oneClock items) (hn : .p ∈ items → dt.timeOfDay.hour ≠ 12) :
    ∃ s, format ts 0 (fmtText items) = .ok s ∧
      parse nyc s (fmtText items) = .ok (localSec (shown items dt)) := by
  have hok := datetime_ok h
  have hp : ∀ i ∈ items, i.plain := by
    intro i hi
    have := hb i hi
    cases i <;> simp only [Item.both, Item.zone] at this <;> simp_all [Item.plain]
  have hw : ∀ i ∈ items, i.isWeekday = true → -5 ≤ daysSinceEpoch dt.date := by
    intro i hi hwi
    have := hb i hi
    cases i <;> simp only [Item.both, Item.zone, or_self] at this <;> simp [Item.isWeekday] at hwi
  refine ⟨_, format_ok h hy items hp hw, ?_⟩
  have hne : fmtText items ≠ [] := by
    intro he
    have : Item.Y.text = [] := by
      have := List.flatMap_eq_nil_iff.1 he _ hY
      exact this
    simp [Item.text] at this
  unfold parse
  rw [if_pos hne]
  unfold parseWithFormat
  rw [parse_render hok.1 hy items (fun i hi => (hb i hi).imp id (fun h => ⟨rfl, h⟩)) Fields.init]
  simp only
  rw [finish_ok hok.1 items hY hd hc hn]
  simp only
  have htz := fold_tz dt items Fields.init (by decide)
  have hg : getTimezone nyc (items.foldl (setItem dt) Fields.init).tz = .ok utc := by
    generalize (items.foldl (setItem dt) Fields.init).tz = t at htz
    simp [tzKeys] at htz
    rcases htz with rfl | rfl | rfl <;> rfl
  rw [hg]
  simp only
  unfold utc
  rw [fixedTz_eq, Int.sub_zero]

/-- C37: with a format on the 24-hour clock that writes the year (and the month, if it writes the day), formatting a
timestamp in a timezone of fixed offset and parsing the text with the same format and timezone gives the instant of the
part that was written.  Years 0..9999, any order of directives, any plain characters between them. -/
theorem format_parse_shown {ts off : Int} {dt : DateTime} (h : FixedZone.datetime ⟨off⟩ ts = .ok dt)
    (hy : dt.date.year ≤ 9999) (items : List Item) (hb : ∀ i ∈ items, i.both) (hI : .I ∉ items) (hp : .p ∉ items)
    (hY : .Y ∈ items) (hd : .d ∈ items → hasMonth items) :
    ∃ s, format ts off (fmtText items) = .ok s ∧
      parseWithTimezone (fixedTz off) s (fmtText items) = fixedTz off (shown items dt) := by
  obtain ⟨s, h1, h2⟩ := format_parse_gen h hy items hb hY hd (Or.inl ⟨hI, hp⟩) (fun h => absurd h hp)
  exact ⟨s, h1, by rw [h2, fixedTz_eq]⟩

example : ∃ s, format 852213600 (-18000) (fmtText [.B, .lit ' ', .Y]) = .ok s ∧
    parseWithTimezone (fixedTz (-18000)) s (fmtText [.B, .lit ' ', .Y]) = .ok 852094800 := by
  have h : FixedZone.datetime ⟨-18000⟩ 852213600 = .ok ⟨⟨1997, 1, 2⟩, ⟨9, 0, 0⟩⟩ := by decide +kernel
  obtain ⟨s, h1, h2⟩ := format_parse_shown h (by decide) [.B, .lit ' ', .Y] (by decide +kernel) (by decide)
    (by decide) (by decide) (by decide)
  exact ⟨s, h1, by rw [h2]; decide +kernel⟩

/-- Everything is written: nothing is lost. -/
theorem shown_all {items : List Item} (hm : hasMonth items) (hd : .d ∈ items) (hh : hasHour items) (hM : .M ∈ items)
    (hS : .S ∈ items) (dt : DateTime) : shown items dt = dt := by
  simp only [shown, hm, hd, hh, hM, hS, if_true]

/-- C37: if the format writes year, month, day, hour, minute and second, the timestamp itself comes back. -/
theorem format_parse_roundtrip {ts off : Int} {dt : DateTime} (h : FixedZone.datetime ⟨off⟩ ts = .ok dt)
    (hy : dt.date.year ≤ 9999) (items : List Item) (hb : ∀ i ∈ items, i.both) (hI : .I ∉ items) (hp : .p ∉ items)
    (hY : .Y ∈ items) (hm : hasMonth items) (hd : .d ∈ items) (hH : .H ∈ items) (hM : .M ∈ items) (hS : .S ∈ items) :
    ∃ s, format ts off (fmtText items) = .ok s ∧ parseWithTimezone (fixedTz off) s (fmtText items) = .ok ts := by
  obtain ⟨s, h1, h2⟩ := format_parse_gen h hy items hb hY (fun _ => hm) (Or.inl ⟨hI, hp⟩) (fun h => absurd h hp)
  refine ⟨s, h1, ?_⟩
  rw [h2, shown_all hm hd (Or.inl hH) hM hS, (datetime_ok h).2, local_ofLocal]
  congr 1; omega

/-- C37: the same in UTC through `parse`, where the format may also carry `%Z` or `%z`. -/
theorem format_parse_utc_roundtrip (nyc : Tz) {ts : Int} {dt : DateTime} (h : FixedZone.datetime ⟨0⟩ ts = .ok dt)
    (hy : dt.date.year ≤ 9999) (items : List Item) (hb : ∀ i ∈ items, i.both ∨ i.zone) (hI : .I ∉ items)
    (hp : .p ∉ items) (hY : .Y ∈ items) (hm : hasMonth items) (hd : .d ∈ items) (hH : .H ∈ items) (hM : .M ∈ items)
    (hS : .S ∈ items) :
    ∃ s, format ts 0 (fmtText items) = .ok s ∧ parse nyc s (fmtText items) = .ok ts := by
  obtain ⟨s, h1, h2⟩ := format_parse_utc_gen nyc h hy items hb hY (fun _ => hm) (Or.inl ⟨hI, hp⟩) (fun h => absurd h hp)
  refine ⟨s, h1, ?_⟩
  rw [h2, shown_all hm hd (Or.inl hH) hM hS, (datetime_ok h).2, local_ofLocal]
  congr 1; omega

example : ∃ s, format 852213600 0 "%S%M%H %B%d,%Y (%Z)".toList = .ok s ∧
    parse anyNyc s "%S%M%H %B%d,%Y (%Z)".toList = .ok 852213600 := by
  have h : FixedZone.datetime ⟨0⟩ 852213600 = .ok ⟨⟨1997, 1, 2⟩, ⟨14, 0, 0⟩⟩ := by decide +kernel
  exact format_parse_utc_roundtrip anyNyc h (by decide)
    [.S, .M, .H, .lit ' ', .B, .d, .lit ',', .Y, .lit ' ', .lit '(', .Z, .lit ')'] (by decide +kernel) (by decide)
    (by decide) (by decide) (by decide) (by decide) (by decide) (by decide) (by decide)

theorem utc_of {ts : Int} {dt : DateTime} (h : FixedZone.datetime ⟨0⟩ ts = .ok dt) : utc dt = .ok ts := by
  unfold utc
  rw [fixedTz_eq, (datetime_ok h).2, local_ofLocal]
  congr 1; omega

theorem utc_midnight (c : Civil) : (Option.getD none utc) (midnight c) = .ok (localSec (midnight c)) := by
  show utc _ = _
  unfold utc; rw [fixedTz_eq, Int.sub_zero]

/-- C37: parsing the ISO rendering of a UTC clock reading in years 0..9999, without a format, gives the timestamp
back. -/
theorem iso_roundtrip (nyc : Tz) {ts : Int} {dt : DateTime} (h : FixedZone.datetime ⟨0⟩ ts = .ok dt)
    (hy : dt.date.year ≤ 9999) :
    ∃ s, isoformat ts 0 = .ok s ∧ s = isoText dt ∧ parse nyc s [] = .ok ts := by
  have hok := datetime_ok h
  refine ⟨isoText dt, ?_, rfl, ?_⟩
  · have := format_ok h hy [.Y, .lit '-', .m, .lit '-', .d, .lit 'T', .H, .lit ':', .M, .lit ':', .S]
      (by decide +kernel) (by simp [Item.isWeekday])
    exact this
  · have := iso_date_time hok.1.1 hy hok.1.2 nyc none (tokens_iso dt) (by simp [timeToks]) (splitTime_toks _ _)
      (isoTime_toks hok.1.2) (utc_midnight _)
    have e : parseIso nyc (isoText dt) = .ok ts := by
      unfold parseIso
      rw [this]
      exact utc_of h
    unfold parse
    rw [if_neg (by simp), e]
    rfl

example : isoformat 852213605 0 = .ok "1997-01-02T14:00:05".toList ∧
    parse anyNyc "1997-01-02T14:00:05".toList [] = .ok 852213605 := by
  refine ⟨?_, ?_⟩ <;> decide +kernel

/-- C37: parsing the default rendering `%Y-%m-%d %H:%M:%S`, with or without giving the format, gives the timestamp
back. -/
theorem default_roundtrip (nyc : Tz) {ts : Int} {dt : DateTime} (h : FixedZone.datetime ⟨0⟩ ts = .ok dt)
    (hy : dt.date.year ≤ 9999) :
    ∃ s, format ts 0 "%Y-%m-%d %H:%M:%S".toList = .ok s ∧ parse nyc s [] = .ok ts ∧
      parse nyc s "%Y-%m-%d %H:%M:%S".toList = .ok ts := by
  have hok := datetime_ok h
  obtain ⟨s, h1, h2⟩ := format_parse_utc_roundtrip nyc h hy
    [.Y, .lit '-', .m, .lit '-', .d, .lit ' ', .H, .lit ':', .M, .lit ':', .S] (by decide +kernel) (by decide)
    (by decide) (by decide) (by decide) (by decide) (by decide) (by decide) (by decide)
  have hr := format_ok h hy [.Y, .lit '-', .m, .lit '-', .d, .lit ' ', .H, .lit ':', .M, .lit ':', .S]
      (by decide +kernel) (by simp [Item.isWeekday])
  have hs : s = dateText dt.date ++ ' ' :: timeText dt.timeOfDay := by
    rw [h1] at hr
    cases hr
    rfl
  refine ⟨s, h1, ?_, h2⟩
  have := iso_date_time hok.1.1 hy hok.1.2 nyc none (tokens_space dt) (by simp [timeToks]) (splitTime_toks _ _)
    (isoTime_toks hok.1.2) (utc_midnight _)
  have e' : parseIso nyc s = .ok ts := by
    unfold parseIso
    rw [hs, this]
    exact utc_of h
  unfold parse
  rw [if_neg (by simp), e']
  rfl

/-- C37: parsing the ISO rendering of a local clock reading with the timezone given separately. -/
theorem iso_roundtrip_in {ts off : Int} {dt : DateTime} (h : FixedZone.datetime ⟨off⟩ ts = .ok dt)
    (hy : dt.date.year ≤ 9999) :
    ∃ s, isoformat ts off = .ok s ∧ parseWithTimezone (fixedTz off) s [] = .ok ts := by
  have hok := datetime_ok h
  refine ⟨isoText dt, ?_, ?_⟩
  · have := format_ok h hy [.Y, .lit '-', .m, .lit '-', .d, .lit 'T', .H, .lit ':', .M, .lit ':', .S]
      (by decide +kernel) (by simp [Item.isWeekday])
    exact this
  · have := iso_date_time hok.1.1 hy hok.1.2 utc (some (fixedTz off)) (tokens_iso dt) (by simp [timeToks])
      (splitTime_toks _ _) (isoTime_toks hok.1.2) (fixedTz_eq _ _)
    have e : parseIsoIn (fixedTz off) (isoText dt) = .ok ts := by
      unfold parseIsoIn
      rw [this]
      show fixedTz off dt = _
      rw [fixedTz_eq, hok.2, local_ofLocal]
      congr 1; omega
    unfold parseWithTimezone
    rw [if_neg (by simp), e]
    rfl

example : isoformat 0 (-18000) = .ok "1969-12-31T19:00:00".toList ∧
    parseWithTimezone (fixedTz (-18000)) "1969-12-31T19:00:00".toList [] = .ok 0 := by
  refine ⟨?_, ?_⟩ <;> decide +kernel

/-- C37: the date-only rendering `%Y-%m-%d` parses to the midnight that begins the day. -/
theorem date_roundtrip (nyc : Tz) {ts : Int} {dt : DateTime} (h : FixedZone.datetime ⟨0⟩ ts = .ok dt)
    (hy : dt.date.year ≤ 9999) :
    ∃ s, format ts 0 "%Y-%m-%d".toList = .ok s ∧ parse nyc s [] = .ok (ts - ts % 86400) := by
  have hok := datetime_ok h
  have hr := format_ok h hy [.Y, .lit '-', .m, .lit '-', .d] (by decide +kernel) (by simp [Item.isWeekday])
  refine ⟨_, hr, ?_⟩
  have e : parseIso nyc (dateText dt.date) = .ok (ts - ts % 86400) := by
    unfold parseIso
    rw [iso_date_only hok.1.1 hy nyc none (tokens_date _) (utc_midnight _)]
    congr 1
    have hl : localSec dt = ts := by rw [hok.2, local_ofLocal]; omega
    have hb := secs_bounds hok.1.2
    unfold localSec at hl
    show daysSinceEpoch dt.date * 86400 + secondsSinceMidnight ⟨0, 0, 0⟩ = _
    have : secondsSinceMidnight ⟨0, 0, 0⟩ = 0 := by decide
    omega
  show parse nyc (dateText dt.date) [] = _
  unfold parse
  rw [if_neg (by simp), e]
  rfl

example : parse anyNyc "1997-01-02".toList [] = .ok 852163200 := by decide +kernel

/-! ### C59: offsets in ISO 8601 texts -/

/-- C59 (partial): `...Z` is the UTC instant, and `...+hh:mm` and `...+hhmm` are that many hours and minutes before it.
Missing: negative offsets, for which the property is false (`iso_negative_offset`). -/
theorem iso_offset_partial (nyc : Tz) {dt : DateTime} (h : DtOk dt) (hy : dt.date.year ≤ 9999) {hh mm : Int}
    (h1 : 0 ≤ hh) (h2 : hh < 24) (h3 : 0 ≤ mm) (h4 : mm < 60) (colon : Bool) :
    parse nyc (isoText dt ++ ['Z']) [] = .ok (localSec dt) ∧
    parse nyc (isoText dt ++ offsetText false colon hh mm) [] = .ok (localSec dt - offsetSeconds false hh mm) := by
  constructor
  · have := iso_date_time h.1 hy h.2 nyc none (tokens_Z dt) (by simp [timeToks]) (splitTime_z _)
      (isoTime_toks h.2) (utc_midnight _)
    have e : parseIso nyc (isoText dt ++ ['Z']) = .ok (localSec dt) := by
      unfold parseIso
      rw [this]
      show fixedTz 0 dt = _
      rw [fixedTz_eq, Int.sub_zero]
    unfold parse
    rw [if_neg (by simp), e]
    rfl
  · obtain ⟨z, hz1, hz2⟩ := getTimezone_plus nyc h1 (by omega : hh < 100) h3 (by omega : mm < 100) dt
    have hs : offsetSeconds false hh mm = hh * 3600 + mm * 60 := by simp [offsetSeconds]
    have e : parseIso nyc (isoText dt ++ offsetText false colon hh mm) =
        .ok (localSec dt - offsetSeconds false hh mm) := by
      rw [hs, ← hz2]
      cases colon
      · have := iso_date_time h.1 hy h.2 nyc none (tokens_plus dt hh mm) (by simp [timeToks]) (splitTime_plus _ _)
          (isoTime_toks h.2) (utc_midnight _)
        have e : [['+'], two hh ++ two mm].flatten = '+' :: (two hh ++ two mm) := by simp
        unfold parseIso
        rw [this]
        simp only [List.isEmpty_cons, Bool.false_eq_true, if_false]
        rw [e, hz1]
      · have := iso_date_time h.1 hy h.2 nyc none (tokens_plus_colon dt hh mm) (by simp [timeToks]) (splitTime_plus _ _)
          (isoTime_toks h.2) (utc_midnight _)
        have e : [['+'], two hh, two mm].flatten = '+' :: (two hh ++ two mm) := by simp
        unfold parseIso
        rw [this]
        simp only [List.isEmpty_cons, Bool.false_eq_true, if_false]
        rw [e, hz1]
    unfold parse
    rw [if_neg (by simp), e]
    rfl

example : parse anyNyc "2022-01-03T02:45:10+05:30".toList [] = .ok 1641158110 := by decide +kernel

/-- C59 is false of every negative offset: the text is accepted, but it means the midnight in UTC that begins the
written day, whatever the time and the offset are. -/
theorem iso_negative_offset (nyc : Tz) {dt : DateTime} (h : DtOk dt) (hy : dt.date.year ≤ 9999) (hh mm : Int)
    (colon : Bool) :
    parse nyc (isoText dt ++ offsetText true colon hh mm) [] = .ok (localSec ⟨dt.date, ⟨0, 0, 0⟩⟩) := by
  have h0 : TimeOk ⟨0, 0, 0⟩ := by decide
  have e : parseIso nyc (isoText dt ++ offsetText true colon hh mm) = .ok (localSec ⟨dt.date, ⟨0, 0, 0⟩⟩) := by
    cases colon
    · have := iso_date_time h.1 hy h0 nyc none (tokens_minus dt hh mm) (by simp [timeToks]) (splitTime_minus _ _ _)
        rfl (utc_midnight _)
      unfold parseIso
      rw [this]
      show fixedTz 0 _ = _
      rw [fixedTz_eq, Int.sub_zero]
    · have := iso_date_time h.1 hy h0 nyc none (tokens_minus_colon dt hh mm) (by simp [timeToks])
        (splitTime_minus_colon _ _ _) rfl (utc_midnight _)
      unfold parseIso
      rw [this]
      show fixedTz 0 _ = _
      rw [fixedTz_eq, Int.sub_zero]
  unfold parse
  rw [if_neg (by simp), e]
  rfl

example : parse anyNyc "2022-01-03T02:45:10-05:00".toList [] = .ok 1641168000 ∧
    parse anyNyc "2022-01-03T00:00:00Z".toList [] = .ok 1641168000 := by
  refine ⟨?_, ?_⟩ <;> decide +kernel

/-! ### C38: the twelve-hour clock -/

/-- C38: the formatter's hour on the twelve-hour clock, with its AM or PM, denotes the hour. -/
theorem hour12_denotes {h : Int} (h0 : 0 ≤ h) (h1 : h < 24) :
    1 ≤ convertTo12h h ∧ convertTo12h h ≤ 12 ∧ hour24 (decide (12 ≤ h)) (convertTo12h h) = h := by
  rw [convertTo12h_spec h0 h1]
  refine ⟨(hour12_bounds h).1, (hour12_bounds h).2, ?_⟩
  unfold hour24 hour12
  by_cases hp : 12 ≤ h
  · simp only [hp, decide_true, if_true]; split <;> omega
  · simp only [hp, decide_false, Bool.false_eq_true, if_false]; split <;> omega

example : convertTo12h 0 = 12 ∧ convertTo12h 13 = 1 := by decide

/-- C38 (partial): a date in words with a time on the twelve-hour clock parses to the instant it denotes, for every date
in years 0..9999, hour 1..12 and minute - except 12 PM.  Missing: 12 PM, for which the property is false
(`noon_rejected`). -/
theorem words_partial (nyc : Tz) {c : Civil} (hc : Ok c) (hy : c.year ≤ 9999) {h minute : Int} (h1 : 1 ≤ h)
    (h2 : h ≤ 12) (h3 : 0 ≤ minute) (h4 : minute < 60) (space pm : Bool) (hn : ¬ (pm = true ∧ h = 12)) :
    parse nyc (wordsText c h minute space pm) [] = .ok (localSec ⟨c, ⟨hour24 pm h, minute, 0⟩⟩) := by
  obtain ⟨m1, m2, _, _⟩ := hc.1
  have ht : TimeOk ⟨hour24 pm h, minute, 0⟩ := by
    unfold TimeOk hour24; simp only; cases pm <;> simp <;> omega
  have hk := mkDateTime_ok (dt := ⟨c, ⟨hour24 pm h, minute, 0⟩⟩) ⟨hc, ht⟩
  have e : parseNonIso utc (wordsText c h minute space pm) = .ok (localSec ⟨c, ⟨hour24 pm h, minute, 0⟩⟩) := by
    unfold parseNonIso
    rw [words_tokens m1 m2]
    simp only
    rw [words_date hc hy _ _ (by decide)]
    simp only
    rw [isValidDate_ok hc, words_time h1 h2 h3 h4, if_neg hn]
    simp only [Bool.not_true, Bool.false_eq_true, if_false]
    simp only at hk
    rw [hk]
    show fixedTz 0 _ = _
    rw [fixedTz_eq, Int.sub_zero]
  unfold parse parseIso
  rw [if_neg (by simp), words_iso m1 m2]
  exact e

example : parse anyNyc "January 02, 1997 02:05pm".toList [] = .ok 852213900 ∧
    parse anyNyc "May 02, 1997 12:05 am".toList [] = .ok 862531500 := by
  refine ⟨?_, ?_⟩ <;> decide +kernel

/-- C38 is false of 12 PM: every such text is rejected, whatever the date and the minute are. -/
theorem noon_rejected (nyc : Tz) {c : Civil} (hc : Ok c) (hy : c.year ≤ 9999) {minute : Int}
    (h3 : 0 ≤ minute) (h4 : minute < 60) (space : Bool) :
    parse nyc (wordsText c 12 minute space true) [] = .error .value := by
  obtain ⟨m1, m2, _, _⟩ := hc.1
  have e : parseNonIso utc (wordsText c 12 minute space true) = .error .value := by
    unfold parseNonIso
    rw [words_tokens m1 m2]
    simp only
    rw [words_date hc hy _ _ (by decide)]
    simp only
    have hwt := words_time (h := 12) (by decide) (by decide) h3 h4 true
    simp only [if_true, and_self] at hwt ⊢
    rw [isValidDate_ok hc, hwt]
    simp only [Bool.not_true, Bool.false_eq_true, if_false]
  unfold parse parseIso
  rw [if_neg (by simp), words_iso m1 m2]
  exact e

example : parse anyNyc "January 02, 1997 12:00pm".toList [] = .error .value := by decide +kernel

/-- C38 (partial): formatting with `%I` and `%p` and parsing with the same format gives the written part of the timestamp
back, except in the hour after noon.  Missing: that hour (`noon_format_rejected`). -/
theorem format_parse_12h_partial {ts off : Int} {dt : DateTime} (h : FixedZone.datetime ⟨off⟩ ts = .ok dt)
    (hy : dt.date.year ≤ 9999) (items : List Item) (hb : ∀ i ∈ items, i.both) (hY : .Y ∈ items)
    (hd : .d ∈ items → hasMonth items) (hH : .H ∉ items) (hI : .I ∈ items) (hp : .p ∈ items)
    (hn : dt.timeOfDay.hour ≠ 12) :
    ∃ s, format ts off (fmtText items) = .ok s ∧
      parseWithTimezone (fixedTz off) s (fmtText items) = fixedTz off (shown items dt) ∧
      (shown items dt).timeOfDay.hour = dt.timeOfDay.hour := by
  obtain ⟨s, h1, h2⟩ := format_parse_gen h hy items hb hY hd (Or.inr ⟨hH, hI, hp⟩) (fun _ => hn)
  refine ⟨s, h1, by rw [h2, fixedTz_eq], ?_⟩
  simp [shown, hasHour, hI, hp]

/-- C38 is false in the hour after noon: the parser rejects what the formatter wrote, for every such instant and every
format with `%I` and `%p`. -/
theorem noon_format_rejected {ts off : Int} {dt : DateTime} (h : FixedZone.datetime ⟨off⟩ ts = .ok dt)
    (hy : dt.date.year ≤ 9999) (items : List Item) (hb : ∀ i ∈ items, i.both) (hY : .Y ∈ items)
    (hH : .H ∉ items) (hI : .I ∈ items) (hp : .p ∈ items) (hn : dt.timeOfDay.hour = 12) :
    ∃ s, format ts off (fmtText items) = .ok s ∧
      parseWithTimezone (fixedTz off) s (fmtText items) = .error .value := by
  have hok := datetime_ok h
  have hpl : ∀ i ∈ items, i.plain := by
    intro i hi
    have := hb i hi
    cases i <;> simp only [Item.both] at this <;> first | exact this | trivial
  have hw : ∀ i ∈ items, i.isWeekday = true → -5 ≤ daysSinceEpoch dt.date := by
    intro i hi hwi
    have := hb i hi
    cases i <;> simp only [Item.both] at this <;> simp [Item.isWeekday] at hwi
  refine ⟨_, format_ok h hy items hpl hw, ?_⟩
  have hne : fmtText items ≠ [] := by
    intro he
    have : Item.Y.text = [] := List.flatMap_eq_nil_iff.1 he _ hY
    simp [Item.text] at this
  have hf : finishFields (items.foldl (setItem dt) Fields.init) = .error .value := by
    have : adjustAmPm (items.foldl (setItem dt) Fields.init).ampm (items.foldl (setItem dt) Fields.init).hour
        = .ok 24 := by
      rw [fold_ampm, if_pos hp, fold_hour12 dt items hH, if_pos hI, hn]
      rfl
    unfold finishFields
    rw [this]
    simp only
    split
    · rfl
    · have : isValidTime 24 (items.foldl (setItem dt) Fields.init).minute
          (items.foldl (setItem dt) Fields.init).second = false := by simp [isValidTime]
      rw [this]
      rfl
  unfold parseWithTimezone
  rw [if_pos hne]
  unfold parseWithFormatAndTimezone
  rw [parse_render hok.1 hy items (fun i hi => Or.inl (hb i hi)) Fields.init]
  simp only
  rw [hf]

example : format (12 * 3600) 0 "%Y-%m-%d %I:%M %p".toList = .ok "1970-01-01 12:00 PM".toList ∧
    parse anyNyc "1970-01-01 12:00 PM".toList "%Y-%m-%d %I:%M %p".toList = .error .value ∧
    parse anyNyc "1970-01-01 01:00 PM".toList "%Y-%m-%d %I:%M %p".toList = .ok (13 * 3600) := by
  refine ⟨?_, ?_, ?_⟩ <;> decide +kernel

/-! ### C61: texts that do not match the format -/

/-- Formats of fixed width: plain characters and the numeric directives. -/
def fixedWidth : Item → Bool
  | .lit c => c ≠ '%'
  | .Y | .m | .d | .H | .M | .S => true
  | _ => false

/-- The number of characters an item of fixed width stands for. -/
def width : Item → Nat
  | .lit _ => 1
  | .Y => 4
  | _ => 2

/-- The two digit directives. -/
theorem two_dir {i : Item} (hf : fixedWidth i = true) (hl : ∀ c, i ≠ .lit c) (hY : i ≠ .Y) :
    width i = 2 ∧ ∃ c, i.text = ['%', c] ∧ ∀ t f, ∃ k, parseDirective true c t f = take2 t k := by
  cases i <;> first
    | exact absurd rfl (hl _)
    | exact absurd rfl hY
    | exact absurd hf (by decide)
    | exact ⟨rfl, _, rfl, fun t f => ⟨_, rfl⟩⟩

/-- C61 (partial): in a format of fixed width, a numeric directive whose place in the text does not hold the right number
of digits is a `ValueError`.  Missing: the plain characters of the format and anything after the last directive are not
compared with the text (`literals_ignored`). -/
theorem mismatch_rejected_partial (nyc : Tz) (s : Str) (items pre post : List Item) (i : Item)
    (hi : items = pre ++ i :: post) (hf : ∀ j ∈ items, fixedWidth j = true) (hl : ∀ c, i ≠ .lit c)
    (hd : ¬ ((((lower s).drop (pre.map width).sum).take (width i)).length = width i ∧
      (((lower s).drop (pre.map width).sum).take (width i)).all isDigit = true)) :
    parse nyc s (fmtText items) = .error .value := by
  have key : ∀ (pre : List Item) (t : Str) (f : Fields) (_ : ∀ j ∈ pre, fixedWidth j = true)
      (_ : ¬ (((t.drop (pre.map width).sum).take (width i)).length = width i ∧
        ((t.drop (pre.map width).sum).take (width i)).all isDigit = true)),
      parseLoop true (fmtText (pre ++ i :: post)) t f = .error .value := by
    have bad : ∀ (u : Str) (n : Nat), ¬ ((u.take n).length = n ∧ (u.take n).all isDigit = true) →
        ¬ (((u.take n).length == n && allDigits (u.take n)) = true) := by
      intro u n h h'
      simp only [allDigits, Bool.and_eq_true, beq_iff_eq] at h'
      exact h ⟨h'.1, h'.2.2⟩
    intro pre
    induction pre with
    | nil =>
      intro t f _ h
      simp only [List.map_nil, List.sum_nil, List.drop_zero] at h
      have hfi : fixedWidth i = true := hf i (by rw [hi]; simp)
      show parseLoop true (i.text ++ fmtText post) t f = _
      by_cases hY : i = .Y
      · subst hY
        have h4 : ¬ (is4d (t.take 4) = true) := bad t 4 h
        show parseLoop true ('%' :: 'Y' :: fmtText post) t f = _
        rw [parseLoop, if_pos rfl]
        have : parseDirective true 'Y' t f = .error .value := by
          unfold parseDirective
          rw [if_pos rfl, if_neg h4]
        rw [this]
      · obtain ⟨hw, c, hc, hk⟩ := two_dir hfi hl hY
        obtain ⟨k, hk⟩ := hk t f
        rw [hw] at h
        have h2 : ¬ (is2d (t.take 2) = true) := bad t 2 h
        rw [hc]
        show parseLoop true ('%' :: c :: fmtText post) t f = _
        rw [parseLoop, if_pos rfl, hk]
        unfold take2
        rw [if_neg h2]
    | cons j pre ih =>
      intro t f hpre h
      have hj := hpre j List.mem_cons_self
      simp only [List.map_cons, List.sum_cons] at h
      have hdrop : ∀ n, t.drop (n + (pre.map width).sum) = (t.drop n).drop (pre.map width).sum := fun n => by
        rw [List.drop_drop]
      rw [hdrop] at h
      have ih' := fun f => ih (t.drop (width j)) f (fun k hk => hpre k (List.mem_cons_of_mem _ hk)) h
      show parseLoop true (j.text ++ fmtText (pre ++ i :: post)) t f = _
      by_cases hlj : ∃ c, j = .lit c
      · obtain ⟨c, rfl⟩ := hlj
        have hc : c ≠ '%' := by simpa [fixedWidth] using hj
        show parseLoop true (c :: fmtText (pre ++ i :: post)) t f = _
        rw [parse_lit hc]
        exact ih' f
      · by_cases hY : j = .Y
        · subst hY
          show parseLoop true ('%' :: 'Y' :: fmtText (pre ++ i :: post)) t f = _
          by_cases h4 : is4d (t.take 4) = true
          · have ha : allDigits (t.take 4) = true := by
              unfold is4d at h4
              simp only [Bool.and_eq_true] at h4
              exact h4.2
            have : parseDirective true 'Y' t f = .ok (t.drop 4, { f with year := digitsVal (t.take 4) }) := by
              unfold parseDirective
              rw [if_pos rfl, if_pos h4]
              unfold pyInt
              rw [if_pos ha]
            rw [parse_dir this]
            exact ih' _
          · rw [parseLoop, if_pos rfl]
            have : parseDirective true 'Y' t f = .error .value := by
              unfold parseDirective
              rw [if_pos rfl, if_neg h4]
            rw [this]
        · obtain ⟨hw, c, hc, hk⟩ := two_dir hj (fun c hc => hlj ⟨c, hc⟩) hY
          obtain ⟨k, hk⟩ := hk t f
          rw [hc]
          show parseLoop true ('%' :: c :: fmtText (pre ++ i :: post)) t f = _
          by_cases h2 : is2d (t.take 2) = true
          · have ha : allDigits (t.take 2) = true := by
              unfold is2d at h2
              simp only [Bool.and_eq_true] at h2
              exact h2.2
            have h2' : take2 t k = .ok (t.drop 2, k (digitsVal (t.take 2))) := by
              unfold take2; rw [if_pos h2]; unfold pyInt; rw [if_pos ha]
            rw [parse_dir (hk.trans h2')]
            rw [hw] at ih'
            exact ih' _
          · rw [parseLoop, if_pos rfl, hk]
            unfold take2
            rw [if_neg h2]
  have hne : fmtText items ≠ [] := by
    intro he
    have : i.text = [] := List.flatMap_eq_nil_iff.1 he i (by rw [hi]; simp)
    cases i <;> simp [Item.text] at this
  unfold parse
  rw [if_pos hne]
  unfold parseWithFormat
  rw [hi, key pre (lower s) Fields.init (fun j hj => hf j (by rw [hi]; simp [hj])) hd]

example : parse anyNyc "1997-1-02".toList "%Y-%m-%d".toList = .error .value := by
  refine mismatch_rejected_partial anyNyc _ [.Y, .lit '-', .m, .lit '-', .d] [.Y, .lit '-'] [.lit '-', .d] .m rfl
    (by decide) (by simp) (by decide +kernel)

/-- C61 is false of the plain characters of a format and of what follows the last directive. -/
theorem literals_ignored :
    parse anyNyc "1997x01y02".toList "%Y-%m-%d".toList = .ok 852163200 ∧
    parse anyNyc "1997-01-02 and more".toList "%Y-%m-%d".toList = .ok 852163200 ∧
    parse anyNyc "1997-01-02".toList "%Y-%m-%d at noon".toList = .ok 852163200 := by
  refine ⟨?_, ?_, ?_⟩ <;> decide +kernel

/-! ### The tokenizer ends -/

/-- One pass of the tokenizer's loop consumes at least one character. -/
theorem afterPass_lt (c : Char) (s : Str) : (afterPass (c :: s)).length < (c :: s).length := by
  have hd : ∀ (p : Char → Bool) (l : Str), (l.dropWhile p).length ≤ l.length := fun p l =>
    (List.dropWhile_suffix p).length_le
  have h4 : ∀ l : Str, (((l.dropWhile isNum).dropWhile isSpace).dropWhile isSep).length ≤ l.length := fun l =>
    Nat.le_trans (hd _ _) (Nat.le_trans (hd _ _) (hd _ _))
  unfold afterPass
  by_cases ha : isAlpha c = true
  · have : (c :: s).dropWhile isAlpha = s.dropWhile isAlpha := by simp [ha]
    rw [this]
    have := h4 (s.dropWhile isAlpha)
    have := hd isAlpha s
    simp only [List.length_cons]
    omega
  · have e1 : (c :: s).dropWhile isAlpha = c :: s := by simp [ha]
    rw [e1]
    by_cases hn : isNum c = true
    · have : (c :: s).dropWhile isNum = s.dropWhile isNum := by simp [hn]
      rw [this]
      have := hd isSep ((s.dropWhile isNum).dropWhile isSpace)
      have := hd isSpace (s.dropWhile isNum)
      have := hd isNum s
      simp only [List.length_cons]
      omega
    · have e2 : (c :: s).dropWhile isNum = c :: s := by simp [hn]
      rw [e2]
      by_cases hs : isSpace c = true
      · have : (c :: s).dropWhile isSpace = s.dropWhile isSpace := by simp [hs]
        rw [this]
        have := hd isSep (s.dropWhile isSpace)
        have := hd isSpace s
        simp only [List.length_cons]
        omega
      · have e3 : (c :: s).dropWhile isSpace = c :: s := by simp [hs]
        rw [e3]
        have hp : isSep c = true := by
          have hnd : isDigit c = false := by
            cases hdg : isDigit c
            · rfl
            · exact absurd (by simp [isNum, hdg]) hn
          simp [isSep, hs, hnd, ha]
        have : (c :: s).dropWhile isSep = s.dropWhile isSep := by simp [hp]
        rw [this]
        have := hd isSep s
        simp only [List.length_cons]
        omega

/-- The tokenizer returns for every string. -/
theorem tokens_total (skip s : Str) : ∃ ts, getTokens skip s = .ok ts := by
  have : ∀ (fuel : Nat) (s : Str), s.length ≤ fuel → ∃ ts, tokensGo skip fuel s = .ok ts := by
    intro fuel
    induction fuel with
    | zero =>
      intro s hs
      have : s = [] := List.eq_nil_of_length_eq_zero (by omega)
      subst this
      exact ⟨[], rfl⟩
    | succ fuel ih =>
      intro s hs
      cases s with
      | nil => exact ⟨[], rfl⟩
      | cons c s =>
        obtain ⟨ts, hts⟩ := ih (afterPass (c :: s)) (by have := afterPass_lt c s; omega)
        exact ⟨passTokens skip (c :: s) ++ ts, by rw [tokensGo, hts]⟩
  exact this _ _ (Nat.le_refl _)

end Verif.DateText.Props
