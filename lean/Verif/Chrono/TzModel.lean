import Verif.Chrono.DateModel
/-
Model of the timezone classes of typed_python/lib/datetime/date_time.py.

Simplifications (whole file): timestamps and offsets are floats in the code; here they are exact whole numbers
of seconds (`offset_hours * 3600` becomes an `Int`).
-/
namespace Verif.Chrono

/-- `Timezone._datetimeFromTimestampAndOffset`, date_time.py:509-535 (`off` = offset_hours * 3600). -/
def datetimeFromTs (timestamp off : Int) : Except DErr DateTime :=
  let ts := timestamp + off
  let day := ts / 86400
  let secondsSinceMidnight := ts % 86400
  let date := civilFromDays day
  let hour := secondsSinceMidnight / 3600
  let seconds := secondsSinceMidnight % 3600
  let minute := seconds / 60
  let second := seconds % 60
  mkDateTime date.year date.month date.day hour minute second

/-- `Timezone._timestampFromDatetimeAndOffset`, date_time.py:537-555. -/
def tsFromDatetime (dt : DateTime) (off : Int) : Int :=
  daysSinceEpoch dt.date * 86400 - off + secondsSinceMidnight dt.timeOfDay

/-- `last_weekday_of_month`, date_time.py:1188-1204. -/
def lastWeekdayOfMonth (year month w : Int) : Except DErr Civil := do
  let f ← mkDate year month 1
  let monthEnd ← lastDayOfMonth f
  let monthEndWeekday := weekday monthEnd
  fromDaysSinceEpoch (daysSinceEpoch monthEnd - (monthEndWeekday - w) % 7)

/-- `ValueError` of `Chrono` as an exception of this module. -/
def liftErr : Except Err Int → Except DErr Int
  | .ok x => .ok x
  | .error _ => .error .valueError

/-- The `DaylightSavingsBoundaryRule` subclasses, date_time.py:569-731. -/
inductive Rule
  /-- `NthWeekdayRule(nStart, weekdayStart, monthStart, nEnd, weekdayEnd, monthEnd)`, date_time.py:569-629 -/
  | nthWeekday (nStart weekdayStart monthStart nEnd weekdayEnd monthEnd : Int)
  /-- `LastWeekdayRule`, date_time.py:632-662 -/
  | lastWeekday (weekdayStart monthStart weekdayEnd monthEnd : Int)
  /-- `NthToLastWeekdayRule`, date_time.py:665-709 -/
  | nthToLast (nStart weekdayStart monthStart weekdayEnd monthEnd : Int)
  /-- `DateTimeRule`, date_time.py:712-731 -/
  | explicit (dateTimeStart dateTimeEnd : DateTime)
deriving DecidableEq, Repr

/-- A date at 2:00:00 (`DateTime(date=date, timeOfDay=TimeOfDay(2, 0, 0))`, date_time.py:623 and similar). -/
def atTwo (d : Civil) : Except DErr DateTime := do
  let t ← mkTime 2 0 0
  .ok ⟨d, t⟩

/-- The date of an nth-weekday boundary, date_time.py:618-622. -/
def nthDate (n w m year : Int) : Except DErr Civil := do
  let n ← liftErr (getNthDowOfMonth n w m year)
  fromDaysSinceEpoch n

/-- `getDaylightSavingsStart`, date_time.py:617-623, 656-658, 699-705, 721-725. -/
def Rule.start (r : Rule) (year : Int) : Except DErr DateTime :=
  match r with
  | .nthWeekday n w m _ _ _ => do atTwo (← nthDate n w m year)
  | .lastWeekday w m _ _ => do atTwo (← lastWeekdayOfMonth year m w)
  | .nthToLast n w m _ _ => do atTwo (← nthDate n w m year)
  | .explicit s _ => if year ≠ s.date.year then .error .wrongRule else .ok s

/-- `getDaylightSavingsEnd`, date_time.py:625-629, 660-662, 707-709, 727-731. -/
def Rule.«end» (r : Rule) (year : Int) : Except DErr DateTime :=
  match r with
  | .nthWeekday _ _ _ n w m => do atTwo (← nthDate n w m year)
  | .lastWeekday _ _ w m => do atTwo (← lastWeekdayOfMonth year m w)
  | .nthToLast _ _ _ w m => do atTwo (← lastWeekdayOfMonth year m w)
  | .explicit _ e => if year ≠ e.date.year then .error .wrongRule else .ok e

/-- `DaylightSavingsTimezone`, date_time.py:734-764 (offsets in seconds; the constructor asserts `st < dst`). -/
structure DstZone where
  dst : Int
  st : Int
  rule : Rule
deriving DecidableEq, Repr

/-- `DaylightSavingsTimezone.timestamp`, date_time.py:766-792. -/
def DstZone.timestamp (z : DstZone) (dt : DateTime) (afterFold : Bool) : Except DErr Int := do
  let year := dt.date.year
  let dsStart ← z.rule.start year
  let dsEnd ← z.rule.end year
  let isDst := !((dtGt dt dsEnd || dtLt dt dsStart) || afterFold)
  if afterFold && (dt.date != dsEnd.date || dtGt dt dsEnd) then .error .oneFoldOnly
  else if dt.date == dsStart.date && dt.timeOfDay.hour == dsStart.timeOfDay.hour then .error .nonexistentDateTime
  else .ok (tsFromDatetime dt (if isDst then z.dst else z.st))

/-- `DaylightSavingsTimezone.datetime`, date_time.py:794-819. -/
def DstZone.datetime (z : DstZone) (ts : Int) : Except DErr DateTime := do
  let year := (civilFromDays (ts / 86400)).year
  let s ← z.rule.start year
  let e ← z.rule.end year
  let tsStart := (daysSinceEpoch s.date * 86400 - z.st) + secondsSinceMidnight s.timeOfDay
  let tsEnd := (daysSinceEpoch e.date * 86400 - z.dst) + secondsSinceMidnight e.timeOfDay
  let off := if ts < tsStart ∨ ts > tsEnd then z.st else z.dst
  datetimeFromTs ts off

/-- `FixedOffsetTimezone`, date_time.py:822-831. -/
structure FixedZone where
  offset : Int
deriving DecidableEq, Repr

/-- `FixedOffsetTimezone.timestamp`, date_time.py:827-828. -/
def FixedZone.timestamp (z : FixedZone) (dt : DateTime) (_afterFold : Bool) : Except DErr Int :=
  .ok (tsFromDatetime dt z.offset)

/-- `FixedOffsetTimezone.datetime`, date_time.py:830-831. -/
def FixedZone.datetime (z : FixedZone) (ts : Int) : Except DErr DateTime := datetimeFromTs ts z.offset

/-- `SwitchOffsetTimezone`, date_time.py:834-853. -/
structure SwitchZone where
  before : Int
  after : Int
  switch : DateTime
deriving DecidableEq, Repr

/-- `SwitchOffsetTimezone.timestamp`, date_time.py:855-875. -/
def SwitchZone.timestamp (z : SwitchZone) (dt : DateTime) (afterFold : Bool) : Except DErr Int :=
  let isAfter := dtGt dt z.switch || afterFold
  let jumpsForward := decide (z.after > z.before)
  if afterFold && (dt.date != z.switch.date || dtGt dt z.switch || jumpsForward) then .error .oneFoldOnly
  else if jumpsForward && dt.date == z.switch.date && dt.timeOfDay.hour == z.switch.timeOfDay.hour then
    .error .nonexistentDateTime
  else .ok (tsFromDatetime dt (if isAfter then z.after else z.before))

/-- `SwitchOffsetTimezone.datetime`, date_time.py:877-890. -/
def SwitchZone.datetime (z : SwitchZone) (ts : Int) : Except DErr DateTime :=
  let tsSwitch := (daysSinceEpoch z.switch.date * 86400 - z.before) + secondsSinceMidnight z.switch.timeOfDay
  let off := if ts < tsSwitch then z.before else z.after
  datetimeFromTs ts off

/-- A concrete timezone object as stored in `UsTimezone.TIMEZONES_BY_START_YEAR`. -/
inductive Zone
  | dst (z : DstZone)
  | fixed (z : FixedZone)
  | switch (z : SwitchZone)
deriving DecidableEq, Repr

/-- Virtual dispatch of `Timezone.timestamp`, date_time.py:475-495. -/
def Zone.timestamp : Zone → DateTime → Bool → Except DErr Int
  | .dst z => z.timestamp
  | .fixed z => z.timestamp
  | .switch z => z.timestamp

/-- Virtual dispatch of `Timezone.datetime`, date_time.py:497-507. -/
def Zone.datetime : Zone → Int → Except DErr DateTime
  | .dst z => z.datetime
  | .fixed z => z.datetime
  | .switch z => z.datetime

/-- A date and time literal such as `DateTime(1975, 2, 23, 2, 0, 0)` in date_time.py:914. -/
def dtLit (y m d h mi s : Int) : DateTime := ⟨⟨y, m, d⟩, ⟨h, mi, s⟩⟩

/-- `UsTimezone.chooseTimezone` with `TIMEZONES_BY_START_YEAR` inlined, date_time.py:898-963, 974-1015. -/
def chooseTimezone (st dst year : Int) : Zone :=
  if year ≥ 2007 then .dst ⟨dst, st, .nthWeekday 2 0 3 1 0 11⟩
  else if year ≥ 1987 then .dst ⟨dst, st, .nthToLast 1 0 4 0 10⟩
  else if year = 1975 then .dst ⟨dst, st, .explicit (dtLit 1975 2 23 2 0 0) (dtLit 1975 10 26 2 0 0)⟩
  else if year = 1974 then .dst ⟨dst, st, .explicit (dtLit 1974 1 6 2 0 0) (dtLit 1974 10 27 2 0 0)⟩
  else if year ≥ 1955 then .dst ⟨dst, st, .lastWeekday 0 4 0 10⟩
  else if year ≥ 1946 then .dst ⟨dst, st, .lastWeekday 0 4 0 9⟩
  else if year = 1945 then .switch ⟨dst, st, dtLit 1945 9 30 2 0 0⟩
  else if year ≥ 1943 then .fixed ⟨dst⟩
  else if year = 1942 then .switch ⟨st, dst, dtLit 1942 2 9 2 0 0⟩
  else if year ≥ 1921 then .dst ⟨dst, st, .lastWeekday 0 4 0 9⟩
  else if year ≥ 1918 then .dst ⟨dst, st, .lastWeekday 0 3 0 10⟩
  else if year ≥ 1884 then .fixed ⟨st⟩
  else if year = 1883 then .switch ⟨-17762, -10858, dtLit 1883 11 18 12 3 0⟩
  else .fixed ⟨-17762⟩

/-- `UsTimezone.timestamp`, date_time.py:965-968. -/
def usTimestamp (st dst : Int) (dt : DateTime) (afterFold : Bool) : Except DErr Int :=
  (chooseTimezone st dst dt.date.year).timestamp dt afterFold

/-- `UsTimezone.datetime`, date_time.py:970-972. -/
def usDatetime (st dst ts : Int) : Except DErr DateTime :=
  (chooseTimezone st dst (civilFromDays (ts / 86400)).year).datetime ts

/-- `DateTime.__add__`, date_time.py:453-454 (`UTC` has offset 0, line 1020). -/
def dtAdd (dt : DateTime) (seconds : Int) : Except DErr DateTime :=
  datetimeFromTs (tsFromDatetime dt 0 + seconds) 0

/-- `DateTime.__sub__`, date_time.py:450-451. -/
def dtSub (dt : DateTime) (seconds : Int) : Except DErr DateTime :=
  datetimeFromTs (tsFromDatetime dt 0 - seconds) 0

end Verif.Chrono
