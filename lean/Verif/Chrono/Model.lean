import Verif.Common
/-
Model of typed_python/lib/datetime/chrono.py.

Simplification (whole file): Python `int` arguments are 64-bit in compiled code; the model uses unbounded
`Int`, i.e. it ignores overflow for |year| beyond about 10^16.  All divisors are positive literals, for which
Lean's `/` and `%` on `Int` are Python's floor division and modulo.
-/
namespace Verif.Chrono

/-- A `NamedTuple(year=int, month=int, day=int)` (chrono.py:93). -/
structure Civil where
  year : Int
  month : Int
  day : Int
deriving DecidableEq, Repr

/-- Exceptions raised by the modelled functions; only the kind is kept. -/
inductive Err
  | valueError
deriving DecidableEq, Repr

/-- `Chrono.div`, chrono.py:85-88 (only ever called with a positive literal `b`). -/
def div (a b : Int) : Int :=
  if a > 0 then a / b else -(-a / b)

/-- `Chrono.days_from_civil`, chrono.py:23-57. -/
def daysFromCivil (year month day : Int) : Int :=
  let year := if month ≤ 2 then year - 1 else year
  let era := div (if year ≥ 0 then year else year - 399) 400
  let yoe := year - era * 400
  let doy := (153 * (if month > 2 then month - 3 else month + 9) + 2) / 5 + day - 1
  let doe := yoe * 365 + yoe / 4 - yoe / 100 + doy
  era * 146097 + doe - 719468

/-- `Chrono.is_leap_year`, chrono.py:186-195. -/
def isLeapYear (year : Int) : Bool :=
  (year % 4 == 0 && year % 100 != 0) || year % 400 == 0

/-- `Chrono.day_of_year`, chrono.py:59-83. -/
def dayOfYear (year month day : Int) : Int :=
  let doy := (153 * (if month > 2 then month - 3 else month + 9) + 2) / 5 + day - 1 + 60
  let doy := if doy > 365 then doy % 365 else doy
  if month > 2 ∧ isLeapYear year then doy + 1 else doy

/-- `Chrono.civil_from_days`, chrono.py:90-124. -/
def civilFromDays (days : Int) : Civil :=
  let days := days + 719468
  let era := div (if days ≥ 0 then days else days - 146096) 146097
  let doe := days - era * 146097
  let yoe := (doe - doe / 1460 + doe / 36524 - doe / 146096) / 365
  let y := yoe + era * 400
  let doy := doe - (365 * yoe + yoe / 4 - yoe / 100)
  let mp := (5 * doy + 2) / 153
  let d := doy - (153 * mp + 2) / 5 + 1
  let m := if mp < 10 then mp + 3 else mp - 9
  { year := if m ≤ 2 then y + 1 else y, month := m, day := d }

/-- `Chrono.weekday_difference`, chrono.py:126-138. -/
def weekdayDifference (day1 day2 : Int) : Int :=
  let day1 := day1 - day2
  if day1 ≥ 0 ∧ day1 ≤ 6 then day1 else day1 + 7

/-- `Chrono.weekday_from_days`, chrono.py:140-154. -/
def weekdayFromDays (d : Int) : Int :=
  if d ≥ -4 then (d + 4) % 7 else (d + 5) % 7 + 6

/-- `Chrono.get_nth_dow_of_month`, chrono.py:156-184. The result is a day number. -/
def getNthDowOfMonth (n dow month year : Int) : Except Err Int :=
  if n < 1 ∨ n > 4 then .error .valueError
  else if dow < 0 ∨ dow > 6 then .error .valueError
  else if month < 1 ∨ month > 12 then .error .valueError
  else
    let weekday := weekdayFromDays (daysFromCivil year month 1)
    .ok (daysFromCivil year month (weekdayDifference dow weekday + 1 + (n - 1) * 7))

/-- `Chrono.is_valid_time`, chrono.py:197-208. Seconds are a float in the code; here an exact integer number of
seconds (see DESIGN.md). -/
def isValidTime (hour minute second : Int) : Bool :=
  (0 ≤ hour && hour < 24) && (0 ≤ minute && minute < 60) && (0 ≤ second && second < 60)

/-- `Chrono.is_valid_date`, chrono.py:210-253 (a component below 0 means "absent"). -/
def isValidDate (year month day : Int) : Bool :=
  let hasYear := decide (year > -1)
  let hasMonth := decide (month > -1)
  let hasDay := decide (day > -1)
  if !hasYear then false
  else if hasMonth && !hasYear then false
  else if hasDay && !hasMonth then false
  else if hasMonth && (month < 1 || month > 12) then false
  else if hasDay then
    if day < 1 then false
    else if month = 1 ∨ month = 3 ∨ month = 5 ∨ month = 7 ∨ month = 8 ∨ month = 10 ∨ month = 12 then
      decide (day < 32)
    else if month = 4 ∨ month = 6 ∨ month = 9 ∨ month = 11 then decide (day < 31)
    else if month = 2 then
      if (year % 4 == 0 && year % 100 != 0) || year % 400 == 0 then decide (day < 30)
      else decide (day < 29)
    else true
  else true

end Verif.Chrono
