import Verif.Chrono.Model
/-
Model of the `TimeOfDay`, `Date` and `DateTime` classes of typed_python/lib/datetime/date_time.py.

Simplification (whole file): seconds are floats in the code; the model uses whole seconds (`Int`), i.e. exact
arithmetic.  `Date` objects are `Civil` triples.
-/
namespace Verif.Chrono

/-- Exceptions raised by the date/time classes; only the kind is kept. -/
inductive DErr
  | nonexistentDate
  | nonexistentDateTime
  | oneFoldOnly
  | invalidTime
  | wrongRule
  | badStep
  | badWeekday
  | valueError
  | indexError
deriving DecidableEq, Repr

/-- `Date.__init__`, date_time.py:119-126. -/
def mkDate (year month day : Int) : Except DErr Civil :=
  if isValidDate year month day then .ok ⟨year, month, day⟩ else .error .nonexistentDate

/-- `Date.__lt__`, date_time.py:147-157. -/
def dateLt (a b : Civil) : Bool :=
  if a.year ≠ b.year then decide (a.year < b.year)
  else if a.month ≠ b.month then decide (a.month < b.month)
  else if a.day ≠ b.day then decide (a.day < b.day)
  else false

/-- `Date.__gt__`, date_time.py:159-169. -/
def dateGt (a b : Civil) : Bool :=
  if b.year ≠ a.year then decide (b.year < a.year)
  else if b.month ≠ a.month then decide (b.month < a.month)
  else if b.day ≠ a.day then decide (b.day < a.day)
  else false

/-- `Date.__le__`, date_time.py:171-172. -/
def dateLe (a b : Civil) : Bool := a == b || dateLt a b
/-- `Date.__ge__`, date_time.py:174-175. -/
def dateGe (a b : Civil) : Bool := a == b || dateGt a b

/-- `Date.daysSinceEpoch`, date_time.py:191-193. -/
def daysSinceEpoch (c : Civil) : Int := daysFromCivil c.year c.month c.day

/-- `Date.__sub__`, date_time.py:177-189. -/
def dateSub (a b : Civil) : Int := daysSinceEpoch a - daysSinceEpoch b

/-- `Date.weekday`, date_time.py:195-206. -/
def weekday (c : Civil) : Int := weekdayFromDays (daysSinceEpoch c)

/-- `Date.weekdayString`, date_time.py:208-225. -/
def weekdayString (c : Civil) : Except DErr String :=
  let w := weekday c
  if w = 0 then .ok "Sunday" else if w = 1 then .ok "Monday" else if w = 2 then .ok "Tuesday"
  else if w = 3 then .ok "Wednesday" else if w = 4 then .ok "Thursday" else if w = 5 then .ok "Friday"
  else if w = 6 then .ok "Saturday" else .error .badWeekday

/-- `Date.fromDaysSinceEpoch`, date_time.py:256-261. -/
def fromDaysSinceEpoch (n : Int) : Except DErr Civil :=
  let dt := civilFromDays n
  mkDate dt.year dt.month dt.day

/-- `Date.nextMonthStart`, date_time.py:231-241. -/
def nextMonthStart (c : Civil) (step : Int) : Except DErr Civil :=
  let months := (c.month - 1) + step
  let month := months % 12 + 1
  mkDate (c.year + months / 12) month 1

/-- `Date.lastDayOfMonth`, date_time.py:243-245. -/
def lastDayOfMonth (c : Civil) : Except DErr Civil := do
  let s ← nextMonthStart c 1
  fromDaysSinceEpoch (daysSinceEpoch s - 1)

/-- `Date.daysUntilEndOfMonth`, date_time.py:247-248. -/
def daysUntilEndOfMonth (c : Civil) : Except DErr Int := do
  let l ← lastDayOfMonth c
  .ok (dateSub l c)

/-- `Date.lastDayOfYear`, date_time.py:253-254. -/
def lastDayOfYear (c : Civil) : Except DErr Civil := mkDate c.year 12 31

/-- `Date.daysUntilEndOfYear`, date_time.py:250-251. -/
def daysUntilEndOfYear (c : Civil) : Except DErr Int := do
  let l ← lastDayOfYear c
  .ok (dateSub l c)

/-- `Date.daysInMonth`, date_time.py:263-265. -/
def daysInMonth (c : Civil) : Except DErr Int := do
  let l ← lastDayOfMonth c
  let f ← mkDate c.year c.month 1
  .ok (dateSub l f + 1)

/-- `Date.firstOfMonth`, date_time.py:267-269. -/
def firstOfMonth (c : Civil) : Except DErr Civil := mkDate c.year c.month 1

/-- `Date.quarterOfYear`, date_time.py:271-272. -/
def quarterOfYear (c : Civil) : Int := (c.month - 1) / 3 + 1

/-- `Date.next`, date_time.py:274-282. -/
def dateNext (c : Civil) (step : Int) : Except DErr Civil :=
  fromDaysSinceEpoch (daysSinceEpoch c + step)

/-- `Date.previous`, date_time.py:284-297. -/
def datePrevious (c : Civil) (step : Int) : Except DErr Civil :=
  if step < 0 then .error .badStep else dateNext c (-step)

/-- `Date.nextWeekday`, date_time.py:299-309. -/
def nextWeekday (c : Civil) (w : Int) : Except DErr Civil :=
  let daysToWeekday := (w - weekday c) % 7
  dateNext c daysToWeekday

/-- `Date.lastWeekday`, date_time.py:311-321. -/
def lastWeekday (c : Civil) (w : Int) : Except DErr Civil :=
  let daysToWeekday := (w - weekday c) % 7
  datePrevious c daysToWeekday

/-- `Date.nextMonth`, date_time.py:323-349. -/
def nextMonth (c : Civil) (stepSize dayOverride : Int) : Except DErr Civil := do
  let s ← nextMonthStart c stepSize
  let n ← daysInMonth s
  let day := min n (if dayOverride ≠ 0 then dayOverride else c.day)
  mkDate s.year s.month day

/-- `Date.nextYear`, date_time.py:351-366. -/
def nextYear (c : Civil) (stepSize dayOverride : Int) : Except DErr Civil := do
  let year := c.year + stepSize
  let f ← mkDate year c.month 1
  let n ← daysInMonth f
  let day := min n (if dayOverride ≠ 0 then dayOverride else c.day)
  mkDate year c.month day

/-- `TimeOfDay`, date_time.py:29-45. -/
structure TimeOfDay where
  hour : Int
  minute : Int
  second : Int
deriving DecidableEq, Repr

/-- `TimeOfDay.__init__`, date_time.py:36-45. -/
def mkTime (hour minute second : Int) : Except DErr TimeOfDay :=
  if isValidTime hour minute second then .ok ⟨hour, minute, second⟩ else .error .invalidTime

/-- `TimeOfDay.secondsSinceMidnight`, date_time.py:55-61. -/
def secondsSinceMidnight (t : TimeOfDay) : Int := t.second + t.minute * 60 + t.hour * 3600

/-- `TimeOfDay.__lt__`, date_time.py:73-83. -/
def timeLt (a b : TimeOfDay) : Bool :=
  if a.hour ≠ b.hour then decide (a.hour < b.hour)
  else if a.minute ≠ b.minute then decide (a.minute < b.minute)
  else if a.second ≠ b.second then decide (a.second < b.second)
  else false

/-- `DateTime`, date_time.py:374-388. -/
structure DateTime where
  date : Civil
  timeOfDay : TimeOfDay
deriving DecidableEq, Repr

/-- `DateTime.__init__` (six numbers), date_time.py:380-384. -/
def mkDateTime (year month day hour minute second : Int) : Except DErr DateTime := do
  let d ← mkDate year month day
  let t ← mkTime hour minute second
  .ok ⟨d, t⟩

/-- `DateTime.__lt__`, date_time.py:420-427. -/
def dtLt (a b : DateTime) : Bool :=
  if a.date ≠ b.date then dateLt a.date b.date
  else if a.timeOfDay ≠ b.timeOfDay then timeLt a.timeOfDay b.timeOfDay
  else false

/-- `DateTime.__gt__`, date_time.py:429-436. -/
def dtGt (a b : DateTime) : Bool :=
  if b.date ≠ a.date then dateLt b.date a.date
  else if b.timeOfDay ≠ a.timeOfDay then timeLt b.timeOfDay a.timeOfDay
  else false

end Verif.Chrono
