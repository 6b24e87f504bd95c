import Verif.Chrono.Model
/-
Independent specification of the proleptic Gregorian calendar: which dates exist and which date follows which.
Nothing here mentions day numbers.
-/
namespace Verif.Chrono.Spec
open Verif.Chrono (Civil)

/-- Gregorian leap years. -/
def Leap (y : Int) : Prop := (y % 4 = 0 ∧ y % 100 ≠ 0) ∨ y % 400 = 0

instance (y : Int) : Decidable (Leap y) := by unfold Leap; infer_instance

/-- "Thirty days hath September...". -/
def monthLen (y m : Int) : Int :=
  if m = 4 ∨ m = 6 ∨ m = 9 ∨ m = 11 then 30
  else if m = 2 then (if Leap y then 29 else 28)
  else 31

/-- A date that exists. -/
def Valid (c : Civil) : Prop :=
  1 ≤ c.month ∧ c.month ≤ 12 ∧ 1 ≤ c.day ∧ c.day ≤ monthLen c.year c.month

instance (c : Civil) : Decidable (Valid c) := by unfold Valid; infer_instance

/-- The next calendar day. -/
def next (c : Civil) : Civil :=
  if c.day < monthLen c.year c.month then { c with day := c.day + 1 }
  else if c.month < 12 then { c with month := c.month + 1, day := 1 }
  else { year := c.year + 1, month := 1, day := 1 }

/-- `n` days later. -/
def after : Nat → Civil → Civil
  | 0, c => c
  | n + 1, c => after n (next c)

/-- 1 January 1970. -/
def epoch : Civil := ⟨1970, 1, 1⟩

/-- Chronological order of dates. -/
def Before (a b : Civil) : Prop :=
  a.year < b.year ∨ (a.year = b.year ∧ (a.month < b.month ∨ (a.month = b.month ∧ a.day < b.day)))

end Verif.Chrono.Spec
