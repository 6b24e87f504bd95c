import Verif.DateText.Iso
/-
Dates written in words, with a twelve-hour clock.
-/
namespace Verif.DateText
open Verif.Chrono Verif.Chrono.Spec

/-! ### Letters of the names of months -/

@[simp] theorem lowerC_b : lowerC 'b' = 'b' := by decide
@[simp] theorem isAlpha_b : isAlpha 'b' = true := by decide
@[simp] theorem isDigit_b : isDigit 'b' = false := by decide
@[simp] theorem lowerC_c : lowerC 'c' = 'c' := by decide
@[simp] theorem isAlpha_c : isAlpha 'c' = true := by decide
@[simp] theorem isDigit_c : isDigit 'c' = false := by decide
@[simp] theorem lowerC_d : lowerC 'd' = 'd' := by decide
@[simp] theorem isAlpha_d : isAlpha 'd' = true := by decide
@[simp] theorem isDigit_d : isDigit 'd' = false := by decide
@[simp] theorem lowerC_e : lowerC 'e' = 'e' := by decide
@[simp] theorem isAlpha_e : isAlpha 'e' = true := by decide
@[simp] theorem isDigit_e : isDigit 'e' = false := by decide
@[simp] theorem lowerC_f : lowerC 'f' = 'f' := by decide
@[simp] theorem isAlpha_f : isAlpha 'f' = true := by decide
@[simp] theorem isDigit_f : isDigit 'f' = false := by decide
@[simp] theorem lowerC_g : lowerC 'g' = 'g' := by decide
@[simp] theorem isAlpha_g : isAlpha 'g' = true := by decide
@[simp] theorem isDigit_g : isDigit 'g' = false := by decide
@[simp] theorem lowerC_h : lowerC 'h' = 'h' := by decide
@[simp] theorem isAlpha_h : isAlpha 'h' = true := by decide
@[simp] theorem isDigit_h : isDigit 'h' = false := by decide
@[simp] theorem lowerC_i : lowerC 'i' = 'i' := by decide
@[simp] theorem isAlpha_i : isAlpha 'i' = true := by decide
@[simp] theorem isDigit_i : isDigit 'i' = false := by decide
@[simp] theorem lowerC_j : lowerC 'j' = 'j' := by decide
@[simp] theorem isAlpha_j : isAlpha 'j' = true := by decide
@[simp] theorem isDigit_j : isDigit 'j' = false := by decide
@[simp] theorem lowerC_l : lowerC 'l' = 'l' := by decide
@[simp] theorem isAlpha_l : isAlpha 'l' = true := by decide
@[simp] theorem isDigit_l : isDigit 'l' = false := by decide
@[simp] theorem lowerC_n : lowerC 'n' = 'n' := by decide
@[simp] theorem isAlpha_n : isAlpha 'n' = true := by decide
@[simp] theorem isDigit_n : isDigit 'n' = false := by decide
@[simp] theorem lowerC_o : lowerC 'o' = 'o' := by decide
@[simp] theorem isAlpha_o : isAlpha 'o' = true := by decide
@[simp] theorem isDigit_o : isDigit 'o' = false := by decide
@[simp] theorem lowerC_r : lowerC 'r' = 'r' := by decide
@[simp] theorem isAlpha_r : isAlpha 'r' = true := by decide
@[simp] theorem isDigit_r : isDigit 'r' = false := by decide
@[simp] theorem lowerC_s : lowerC 's' = 's' := by decide
@[simp] theorem isAlpha_s : isAlpha 's' = true := by decide
@[simp] theorem isDigit_s : isDigit 's' = false := by decide
@[simp] theorem lowerC_u : lowerC 'u' = 'u' := by decide
@[simp] theorem isAlpha_u : isAlpha 'u' = true := by decide
@[simp] theorem isDigit_u : isDigit 'u' = false := by decide
@[simp] theorem lowerC_v : lowerC 'v' = 'v' := by decide
@[simp] theorem isAlpha_v : isAlpha 'v' = true := by decide
@[simp] theorem isDigit_v : isDigit 'v' = false := by decide
@[simp] theorem lowerC_y : lowerC 'y' = 'y' := by decide
@[simp] theorem isAlpha_y : isAlpha 'y' = true := by decide
@[simp] theorem isDigit_y : isDigit 'y' = false := by decide
@[simp] theorem lowerC_J : lowerC 'J' = 'j' := by decide
@[simp] theorem lowerC_F : lowerC 'F' = 'f' := by decide
@[simp] theorem lowerC_M : lowerC 'M' = 'm' := by decide
@[simp] theorem lowerC_A : lowerC 'A' = 'a' := by decide
@[simp] theorem lowerC_S : lowerC 'S' = 's' := by decide
@[simp] theorem lowerC_O : lowerC 'O' = 'o' := by decide
@[simp] theorem lowerC_N : lowerC 'N' = 'n' := by decide
@[simp] theorem lowerC_D : lowerC 'D' = 'd' := by decide

/-- The twelve names, letter by letter. -/
theorem monthName_letters {m : Int} (h1 : 1 ≤ m) (h2 : m ≤ 12) :
    (m = 1 ∧ monthName m = ['J', 'a', 'n', 'u', 'a', 'r', 'y']) ∨
    (m = 2 ∧ monthName m = ['F', 'e', 'b', 'r', 'u', 'a', 'r', 'y']) ∨
    (m = 3 ∧ monthName m = ['M', 'a', 'r', 'c', 'h']) ∨
    (m = 4 ∧ monthName m = ['A', 'p', 'r', 'i', 'l']) ∨
    (m = 5 ∧ monthName m = ['M', 'a', 'y']) ∨
    (m = 6 ∧ monthName m = ['J', 'u', 'n', 'e']) ∨
    (m = 7 ∧ monthName m = ['J', 'u', 'l', 'y']) ∨
    (m = 8 ∧ monthName m = ['A', 'u', 'g', 'u', 's', 't']) ∨
    (m = 9 ∧ monthName m = ['S', 'e', 'p', 't', 'e', 'm', 'b', 'e', 'r']) ∨
    (m = 10 ∧ monthName m = ['O', 'c', 't', 'o', 'b', 'e', 'r']) ∨
    (m = 11 ∧ monthName m = ['N', 'o', 'v', 'e', 'm', 'b', 'e', 'r']) ∨
    (m = 12 ∧ monthName m = ['D', 'e', 'c', 'e', 'm', 'b', 'e', 'r']) := by
  have hm : m = 1 ∨ m = 2 ∨ m = 3 ∨ m = 4 ∨ m = 5 ∨ m = 6 ∨ m = 7 ∨ m = 8 ∨ m = 9 ∨ m = 10 ∨ m = 11 ∨ m = 12 := by
    omega
  rcases hm with rfl | rfl | rfl | rfl | rfl | rfl | rfl | rfl | rfl | rfl | rfl | rfl <;> decide

theorem words_iso_tokens {c : Civil} (h1 : 1 ≤ c.month) (h2 : c.month ≤ 12) (h minute : Int) (space pm : Bool) :
    ∃ rest, isoTokens (wordsText c h minute space pm) =
      .ok ((lower (monthName c.month) ++ ['t']) :: two c.day :: [','] :: ['t'] :: rest) := by
  unfold wordsText
  rcases monthName_letters h1 h2 with h | h | h | h | h | h | h | h | h | h | h | h <;> rw [h.2] <;> clear h <;>
    cases space <;> cases pm <;>
    simp [isoTokens, getTokens, lower, replace, replaceGo, startsWith, tokensGo, afterPass, passTokens, List.takeWhile,
      tok, contains, two, four]

/-- The ISO parser does not accept a date in words. -/
theorem words_iso {c : Civil} (h1 : 1 ≤ c.month) (h2 : c.month ≤ 12) (nyc : Tz) (given : Option Tz) (h minute : Int)
    (space pm : Bool) : parseIsoWith nyc given (wordsText c h minute space pm) = .error .value := by
  obtain ⟨rest, hr⟩ := words_iso_tokens h1 h2 h minute space pm
  have hs : splitDate ((lower (monthName c.month) ++ ['t']) :: two c.day :: [','] :: ['t'] :: rest) =
      ([lower (monthName c.month) ++ ['t'], two c.day, [',']], rest) := by
    have : endsDate (lower (monthName c.month) ++ ['t']) = false := by
      rcases monthName_letters h1 h2 with h | h | h | h | h | h | h | h | h | h | h | h <;> rw [h.2] <;>
        simp [endsDate, lower]
    simp [splitDate, this]
    simp [endsDate, two]
  have hd : is4d (lower (monthName c.month) ++ ['t']) = false := by
    rcases monthName_letters h1 h2 with h | h | h | h | h | h | h | h | h | h | h | h <;> rw [h.2] <;>
      simp [is4d, allDigits, lower]
  unfold parseIsoWith
  rw [hr]
  simp only
  rw [hs]
  simp only [isoDate, hd]
  rfl

/-- The tokens of a date in words. -/
theorem words_tokens {c : Civil} (h1 : 1 ≤ c.month) (h2 : c.month ≤ 12) (h minute : Int) (space pm : Bool) :
    getTokens " ,".toList (replace "p.m.".toList "pm".toList (replace "a.m.".toList "am".toList
      (lower (wordsText c h minute space pm)))) =
      .ok [lower (monthName c.month), two c.day, four c.year, two h, [':'], two minute,
        if pm then ['p', 'm'] else ['a', 'm']] := by
  unfold wordsText
  rcases monthName_letters h1 h2 with h | h | h | h | h | h | h | h | h | h | h | h <;> rw [h.2] <;> clear h <;>
    cases space <;> cases pm <;>
    simp [getTokens, lower, replace, replaceGo, startsWith, tokensGo, afterPass, passTokens, List.takeWhile,
      tok, contains, two, four]

theorem words_date {c : Civil} (h : Ok c) (hy : c.year ≤ 9999) (time : List Str) (t : Str) (h4 : is4d t = false) (x : Str) :
    nonIsoDate (lower (monthName c.month) :: two c.day :: four c.year :: x :: t :: time) =
      .ok ((c.year, c.month, c.day), x :: t :: time) := by
  have hd := day_le h.1
  obtain ⟨⟨m1, m2, _, _⟩, y0⟩ := h
  have hm := month_of_name m1 m2
  have h0 : is4d (lower (monthName c.month)) = false := by
    rcases monthName_letters m1 m2 with h | h | h | h | h | h | h | h | h | h | h | h <;> rw [h.2] <;>
      simp [is4d, allDigits, lower]
  unfold nonIsoDate
  simp only [List.getElem?_cons_zero, List.getElem?_cons_succ, Option.getD_some, List.length_cons]
  rw [if_neg (by rw [h4]; simp), if_neg (by rw [h0]; simp),
    if_pos ⟨by omega, by rw [hm]; rfl, two_digits _, is4d_four _⟩, hm, pyInt_four y0 (by omega),
    pyInt_two (by omega) (by omega)]
  rfl

theorem words_time {h minute : Int} (h1 : 1 ≤ h) (h2 : h ≤ 12) (h3 : 0 ≤ minute) (h4 : minute < 60) (pm : Bool) :
    nonIsoTime [two h, [':'], two minute, if pm then ['p', 'm'] else ['a', 'm']] =
      if pm = true ∧ h = 12 then .error .value else .ok ⟨hour24 pm h, minute, 0⟩ := by
  have hs : splitAmPm [two h, [':'], two minute, if pm then ['p', 'm'] else ['a', 'm']] =
      ([two h, [':'], two minute], [if pm then ['p', 'm'] else ['a', 'm']]) := by
    cases pm <;> simp [splitAmPm, two]
  have hn : nonIsoNums [two h, [':'], two minute] = .ok (h, minute, 0) := by
    unfold nonIsoNums
    simp only
    rw [if_pos ⟨two_digits _, trivial, two_digits _⟩, pyInt_two (by omega) (by omega), pyInt_two h3 (by omega)]
    rfl
  unfold nonIsoTime
  rw [hs]
  simp only
  rw [hn]
  simp only [List.headD_cons, List.isEmpty_cons, Bool.false_eq_true, if_false]
  cases pm with
  | true =>
    have ha : adjustAmPm ['p', 'm'] h = .ok (h + 12) := by
      unfold adjustAmPm
      rw [if_neg (by decide), if_neg (by omega), if_neg (fun h => absurd h.1 (by decide)), if_pos (by decide)]
    simp only [if_true]
    rw [ha]
    simp only [true_and]
    by_cases h12 : h = 12
    · subst h12
      simp [isValidTime]
    · have ht : TimeOk ⟨h + 12, minute, 0⟩ := by unfold TimeOk; simp only; omega
      have hv := isValidTime_ok ht
      have hk := mkTime_ok ht
      simp only at hv hk
      rw [if_neg h12]
      simp only [hv, hk, Bool.not_true, Bool.false_eq_true, if_false, liftD]
      have : hour24 true h = h + 12 := by unfold hour24; simp only [if_true]; omega
      rw [this]
  | false =>
    have ha : adjustAmPm ['a', 'm'] h = .ok (hour24 false h) := by
      unfold adjustAmPm hour24
      rw [if_neg (by decide), if_neg (by omega)]
      by_cases h12 : h = 12
      · rw [if_pos ⟨rfl, h12⟩, h12]; rfl
      · rw [if_neg (fun h => h12 h.2), if_neg (by decide)]
        have : h % 12 + (if false = true then 12 else 0) = h := by simp; omega
        rw [this]
    simp only [Bool.false_eq_true, if_false, false_and]
    rw [ha]
    have ht : TimeOk ⟨hour24 false h, minute, 0⟩ := by
      unfold TimeOk hour24; simp; omega
    have hv := isValidTime_ok ht
    have hk := mkTime_ok ht
    simp only at hv hk
    simp only [hv, hk, Bool.not_true, Bool.false_eq_true, if_false, liftD]

end Verif.DateText
