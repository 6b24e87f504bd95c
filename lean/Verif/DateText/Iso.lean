import Verif.DateText.Parse
/-
Tokens of the texts of dates.
-/
namespace Verif.DateText
open Verif.Chrono Verif.Chrono.Spec

/-! ### Classes of the characters that occur -/

@[simp] theorem space_ne_digit (n : Nat) : (' ' = digit n) = False := by simp [(digit_ne n).1.symm]
@[simp] theorem a_ne_digit (n : Nat) : ('a' = digit n) = False := by simp [(digit_ne n).2.2.2.2.1.symm]
@[simp] theorem p_ne_digit (n : Nat) : ('p' = digit n) = False := by simp [(digit_ne n).2.2.2.2.2.1.symm]
@[simp] theorem lowerC_T : lowerC 'T' = 't' := by decide
@[simp] theorem lowerC_Z : lowerC 'Z' = 'z' := by decide

@[simp] theorem lowerC_t : lowerC 't' = 't' := by decide
@[simp] theorem isAlpha_t : isAlpha 't' = true := by decide
@[simp] theorem isDigit_t : isDigit 't' = false := by decide
@[simp] theorem isSpace_t : isSpace 't' = false := by decide
@[simp] theorem isNum_t : isNum 't' = false := by decide
@[simp] theorem isSep_t : isSep 't' = false := by decide
@[simp] theorem lowerC_dash : lowerC '-' = '-' := by decide
@[simp] theorem isAlpha_dash : isAlpha '-' = false := by decide
@[simp] theorem isDigit_dash : isDigit '-' = false := by decide
@[simp] theorem isSpace_dash : isSpace '-' = false := by decide
@[simp] theorem isNum_dash : isNum '-' = false := by decide
@[simp] theorem isSep_dash : isSep '-' = true := by decide
@[simp] theorem lowerC_colon : lowerC ':' = ':' := by decide
@[simp] theorem isAlpha_colon : isAlpha ':' = false := by decide
@[simp] theorem isDigit_colon : isDigit ':' = false := by decide
@[simp] theorem isSpace_colon : isSpace ':' = false := by decide
@[simp] theorem isNum_colon : isNum ':' = false := by decide
@[simp] theorem isSep_colon : isSep ':' = true := by decide
@[simp] theorem lowerC_plus : lowerC '+' = '+' := by decide
@[simp] theorem isAlpha_plus : isAlpha '+' = false := by decide
@[simp] theorem isDigit_plus : isDigit '+' = false := by decide
@[simp] theorem isSpace_plus : isSpace '+' = false := by decide
@[simp] theorem isNum_plus : isNum '+' = false := by decide
@[simp] theorem isSep_plus : isSep '+' = true := by decide
@[simp] theorem lowerC_space : lowerC ' ' = ' ' := by decide
@[simp] theorem isAlpha_space : isAlpha ' ' = false := by decide
@[simp] theorem isDigit_space : isDigit ' ' = false := by decide
@[simp] theorem isSpace_space : isSpace ' ' = true := by decide
@[simp] theorem isNum_space : isNum ' ' = false := by decide
@[simp] theorem isSep_space : isSep ' ' = false := by decide
@[simp] theorem lowerC_comma : lowerC ',' = ',' := by decide
@[simp] theorem isAlpha_comma : isAlpha ',' = false := by decide
@[simp] theorem isDigit_comma : isDigit ',' = false := by decide
@[simp] theorem isSpace_comma : isSpace ',' = false := by decide
@[simp] theorem isNum_comma : isNum ',' = false := by decide
@[simp] theorem isSep_comma : isSep ',' = true := by decide
@[simp] theorem lowerC_z : lowerC 'z' = 'z' := by decide
@[simp] theorem isAlpha_z : isAlpha 'z' = true := by decide
@[simp] theorem isDigit_z : isDigit 'z' = false := by decide
@[simp] theorem isSpace_z : isSpace 'z' = false := by decide
@[simp] theorem isNum_z : isNum 'z' = false := by decide
@[simp] theorem isSep_z : isSep 'z' = false := by decide
@[simp] theorem lowerC_a : lowerC 'a' = 'a' := by decide
@[simp] theorem isAlpha_a : isAlpha 'a' = true := by decide
@[simp] theorem isDigit_a : isDigit 'a' = false := by decide
@[simp] theorem isSpace_a : isSpace 'a' = false := by decide
@[simp] theorem isNum_a : isNum 'a' = false := by decide
@[simp] theorem isSep_a : isSep 'a' = false := by decide
@[simp] theorem lowerC_p : lowerC 'p' = 'p' := by decide
@[simp] theorem isAlpha_p : isAlpha 'p' = true := by decide
@[simp] theorem isDigit_p : isDigit 'p' = false := by decide
@[simp] theorem isSpace_p : isSpace 'p' = false := by decide
@[simp] theorem isNum_p : isNum 'p' = false := by decide
@[simp] theorem isSep_p : isSep 'p' = false := by decide
@[simp] theorem lowerC_m : lowerC 'm' = 'm' := by decide
@[simp] theorem isAlpha_m : isAlpha 'm' = true := by decide
@[simp] theorem isDigit_m : isDigit 'm' = false := by decide
@[simp] theorem isSpace_m : isSpace 'm' = false := by decide
@[simp] theorem isNum_m : isNum 'm' = false := by decide
@[simp] theorem isSep_m : isSep 'm' = false := by decide

/-! ### ISO 8601 -/

/-- The simplification set that runs the tokenizer on characters of known classes. -/
macro "run_tokens" : tactic => `(tactic|
  simp [isoTokens, getTokens, lower, replace, replaceGo, startsWith, tokensGo, afterPass, passTokens, List.takeWhile,
    tok, contains, isoText, dateText, timeText, offsetText, two, four])

/-- The tokens of the date. -/
def dateToks (c : Civil) : List Str := [four c.year, two c.month, two c.day]

/-- The tokens of the time. -/
def timeToks (t : TimeOfDay) : List Str := [two t.hour, two t.minute, two t.second]

theorem tokens_date (c : Civil) : isoTokens (dateText c) = .ok (dateToks c) := by
  unfold dateToks; run_tokens

theorem tokens_iso (dt : DateTime) : isoTokens (isoText dt) = .ok (dateToks dt.date ++ ['t'] :: timeToks dt.timeOfDay) := by
  unfold dateToks timeToks; run_tokens

theorem tokens_space (dt : DateTime) : isoTokens (dateText dt.date ++ ' ' :: timeText dt.timeOfDay) =
    .ok (dateToks dt.date ++ ['t'] :: timeToks dt.timeOfDay) := by
  unfold dateToks timeToks; run_tokens

theorem tokens_Z (dt : DateTime) : isoTokens (isoText dt ++ ['Z']) =
    .ok (dateToks dt.date ++ ['t'] :: (timeToks dt.timeOfDay ++ [['z']])) := by
  unfold dateToks timeToks; run_tokens

theorem tokens_plus_colon (dt : DateTime) (hh mm : Int) : isoTokens (isoText dt ++ offsetText false true hh mm) =
    .ok (dateToks dt.date ++ ['t'] :: (timeToks dt.timeOfDay ++ [['+'], two hh, two mm])) := by
  unfold dateToks timeToks; run_tokens

theorem tokens_plus (dt : DateTime) (hh mm : Int) : isoTokens (isoText dt ++ offsetText false false hh mm) =
    .ok (dateToks dt.date ++ ['t'] :: (timeToks dt.timeOfDay ++ [['+'], two hh ++ two mm])) := by
  unfold dateToks timeToks; run_tokens

theorem tokens_minus_colon (dt : DateTime) (hh mm : Int) : isoTokens (isoText dt ++ offsetText true true hh mm) =
    .ok (dateToks dt.date ++ ['t'] :: (timeToks dt.timeOfDay ++ [two hh, two mm])) := by
  unfold dateToks timeToks; run_tokens

theorem tokens_minus (dt : DateTime) (hh mm : Int) : isoTokens (isoText dt ++ offsetText true false hh mm) =
    .ok (dateToks dt.date ++ ['t'] :: (timeToks dt.timeOfDay ++ [two hh ++ two mm])) := by
  unfold dateToks timeToks; run_tokens

/-! ### Dates and times from tokens -/

theorem splitDate_end (c : Civil) : splitDate (dateToks c) = (dateToks c, []) := by
  simp [dateToks, splitDate, endsDate, two, four]

theorem splitDate_t (c : Civil) (rest : List Str) : splitDate (dateToks c ++ ['t'] :: rest) = (dateToks c, rest) := by
  simp [dateToks, splitDate, endsDate, two, four]

theorem isoDate_toks {c : Civil} (h : Ok c) (hy : c.year ≤ 9999) : isoDate (dateToks c) = .ok (c.year, c.month, c.day) := by
  have hd := day_le h.1
  obtain ⟨⟨m1, m2, _, _⟩, h0⟩ := h
  unfold dateToks isoDate
  simp only
  rw [if_pos (is4d_four _), pyInt_four h0 (by omega), pyInt_two (by omega) (by omega), pyInt_two (by omega) (by omega)]
  rfl

theorem isoTime_toks {t : TimeOfDay} (h : TimeOk t) : isoTime (timeToks t) = .ok t := by
  have hv := isValidTime_ok h
  have hk := mkTime_ok h
  obtain ⟨t1, t2, t3, t4, t5, t6⟩ := h
  have : isoTimeNums (timeToks t) = .ok (t.hour, t.minute, t.second) := by
    unfold timeToks isoTimeNums
    simp only
    rw [pyInt_two t1 (by omega), pyInt_two t3 (by omega), pyFloat_two t5 (by omega)]
    rfl
  unfold isoTime
  rw [this]
  simp only
  rw [hv, hk]
  rfl

/-- The midnight of a date. -/
def midnight (c : Civil) : DateTime := ⟨c, ⟨0, 0, 0⟩⟩

theorem midnight_ok {c : Civil} (h : Ok c) : DtOk (midnight c) :=
  ⟨h, (by decide : TimeOk ⟨0, 0, 0⟩)⟩

theorem mkMidnight {c : Civil} (h : Ok c) : mkDateTime c.year c.month c.day 0 0 0 = .ok (midnight c) :=
  mkDateTime_ok (midnight_ok h)

/-- A date without a time. -/
theorem iso_date_only {c : Civil} (h : Ok c) (hy : c.year ≤ 9999) (nyc : Tz) (given : Option Tz) {s : Str}
    (hs : isoTokens s = .ok (dateToks c)) {ts : Int} (hz : (given.getD utc) (midnight c) = .ok ts) :
    parseIsoWith nyc given s = .ok ts := by
  unfold parseIsoWith
  rw [hs]
  simp only
  rw [splitDate_end]
  simp only
  rw [isoDate_toks h hy]
  simp only
  rw [isValidDate_ok h, mkMidnight h]
  simp only [Bool.not_true, Bool.false_eq_true, if_false, liftD]
  rw [hz]
  rfl

/-- A date and a time, followed by something. -/
theorem iso_date_time {c : Civil} (h : Ok c) (hy : c.year ≤ 9999) {tod : TimeOfDay} (ht : TimeOk tod) (nyc : Tz)
    (given : Option Tz) {s : Str} {toks time rest : List Str}
    (hs : isoTokens s = .ok (dateToks c ++ ['t'] :: toks)) (hne : toks ≠ [])
    (hsp : splitTime given.isSome toks = .ok (time, rest)) (hti : isoTime time = .ok tod) {ts0 : Int}
    (hz : (given.getD utc) (midnight c) = .ok ts0) :
    parseIsoWith nyc given s =
      match given with
      | some z => z ⟨c, tod⟩
      | none =>
        if rest.isEmpty then utc ⟨c, tod⟩
        else
          match getTimezone nyc rest.flatten with
          | .error e => .error e
          | .ok z => z ⟨c, tod⟩ := by
  have hk : mkDateTime c.year c.month c.day tod.hour tod.minute tod.second = .ok ⟨c, tod⟩ :=
    mkDateTime_ok (dt := ⟨c, tod⟩) ⟨h, ht⟩
  have he : toks.isEmpty = false := by simpa using hne
  unfold parseIsoWith
  rw [hs]
  simp only
  rw [splitDate_t]
  simp only
  rw [isoDate_toks h hy]
  simp only
  rw [isValidDate_ok h, mkMidnight h]
  simp only [Bool.not_true, Bool.false_eq_true, if_false, liftD]
  rw [hz]
  simp only
  rw [he, hsp]
  simp only [Bool.false_eq_true, if_false]
  rw [hti]
  simp only
  rw [hk]
  cases given <;> rfl

theorem splitTime_toks (strict : Bool) (t : TimeOfDay) : splitTime strict (timeToks t) = .ok (timeToks t, []) := by
  simp [splitTime, timeToks, two, allAlpha]

theorem splitTime_plus (t : TimeOfDay) (rest : List Str) :
    splitTime false (timeToks t ++ ['+'] :: rest) = .ok (timeToks t, ['+'] :: rest) := by
  simp [splitTime, timeToks, two, allAlpha]

theorem splitTime_z (t : TimeOfDay) : splitTime false (timeToks t ++ [['z']]) = .ok (timeToks t, [['z']]) := by
  simp [splitTime, timeToks, two, allAlpha]

theorem splitTime_minus_colon (t : TimeOfDay) (hh mm : Int) :
    splitTime false (timeToks t ++ [two hh, two mm]) = .ok (timeToks t ++ [two hh, two mm], []) := by
  simp [splitTime, timeToks, two, allAlpha]

theorem splitTime_minus (t : TimeOfDay) (hh mm : Int) :
    splitTime false (timeToks t ++ [two hh ++ two mm]) = .ok (timeToks t ++ [two hh ++ two mm], []) := by
  simp [splitTime, timeToks, two, allAlpha]

/-- A positive offset. -/
theorem getTimezone_plus (nyc : Tz) {hh mm : Int} (h1 : 0 ≤ hh) (h2 : hh < 100) (h3 : 0 ≤ mm) (h4 : mm < 100) (dt : DateTime) :
    ∃ z, getTimezone nyc ('+' :: (two hh ++ two mm)) = .ok z ∧ z dt = .ok (localSec dt - (hh * 3600 + mm * 60)) := by
  by_cases hv : isValidTimezone ('+' :: (two hh ++ two mm)) = true
  · -- the one entry of the table that begins with a plus
    have hl : lower ('+' :: (two hh ++ two mm)) = '+' :: (two hh ++ two mm) := by simp [lower, two]
    have hk : '+' :: (two hh ++ two mm) = "+0000".toList := by
      unfold isValidTimezone at hv
      rw [hl] at hv
      simp [tzKeys, two] at hv
      simp [two, hv]
    have e1 : two hh = ['0', '0'] := by
      have := congrArg (fun l => (l.drop 1).take 2) hk
      exact this
    have e2 : two mm = ['0', '0'] := by
      have := congrArg (fun l => l.drop 3) hk
      exact this
    have z1 : hh = 0 := by rw [← val_two h1 h2, e1]; rfl
    have z2 : mm = 0 := by rw [← val_two h3 h4, e2]; rfl
    refine ⟨utc, ?_, ?_⟩
    · rw [hk]; rfl
    · unfold utc
      rw [fixedTz_eq, z1, z2]
      simp
  · refine ⟨fixedTz (hh * 3600 + mm * 60), ?_, fixedTz_eq _ _⟩
    unfold getTimezone
    rw [if_neg hv]
    simp only [true_or, if_true]
    have : offsetOf (two hh ++ two mm) = .ok (hh * 3600 + mm * 60) := by
      have e1 : (two hh ++ two mm).take 2 = two hh := rfl
      have e2 : (two hh ++ two mm).drop 2 = two mm := rfl
      have e3 : (two hh ++ two mm).length = 4 := rfl
      unfold offsetOf
      rw [e3, e1, e2, pyFloat_two h1 h2, pyFloat_two h3 h4]
      rfl
    rw [this]
    rfl

end Verif.DateText
