import Verif.Chrono.DateModel
/-
C130: `daterange`.
-/
namespace Verif.DateRange
open Verif.Chrono

/-- The texts that `step` can be; any other is an exception (date_time_util.py:69-70). -/
inductive Step where
  | days | weeks | months | years | other
  deriving DecidableEq, Repr

inductive Err where
  | date (e : DErr)
  | notImplemented
  | badStep
  deriving DecidableEq, Repr

/-- date_time_util.py:23-67: the function that goes to the next date, which depends on the day of the first. -/
def iterate (start : Civil) (step : Step) (size : Int) (reversed : Bool) : Except Err (Civil → Except DErr Civil) := match step with
  | .days => if reversed then .ok fun c => datePrevious c size else .ok fun c => dateNext c size
  | .weeks => if reversed then .ok fun c => datePrevious c (size * 7) else .ok fun c => dateNext c (size * 7)
  | .months => if reversed then .error .notImplemented else .ok fun c => nextMonth c size start.day
  | .years => if reversed then .error .notImplemented else .ok fun c => nextYear c size start.day
  | .other => .error .badStep

/-- date_time_util.py:79-81, at most so many rounds; `none` if it has not ended. -/
def up (it : Civil → Except DErr Civil) (stop : Civil) : Nat → Civil → Option (Except Err (List Civil))
  | 0, _ => none
  | n + 1, c => if dateLt c stop then match it c with
      | .error e => some (.error (.date e))
      | .ok c' => match up it stop n c' with
        | some (.ok cs) => some (.ok (c :: cs))
        | r => r
    else some (.ok [])

/-- date_time_util.py:73-76. -/
def down (it : Civil → Except DErr Civil) (start : Civil) : Nat → Civil → Option (Except Err (List Civil))
  | 0, _ => none
  | n + 1, c => if dateLt start c then match it c with
      | .error e => some (.error (.date e))
      | .ok c' => match down it start n c' with
        | some (.ok cs) => some (.ok (c :: cs))
        | r => r
    else some (.ok [])

/-- date_time_util.py:5-83 `daterange`, at most so many rounds. -/
def daterange (fuel : Nat) (start stop : Civil) (step : Step) (size : Int) (reversed : Bool) : Option (Except Err (List Civil)) :=
  match iterate start step size reversed with
  | .error e => some (.error e)
  | .ok it => if reversed then down it start fuel stop else up it stop fuel start

end Verif.DateRange
