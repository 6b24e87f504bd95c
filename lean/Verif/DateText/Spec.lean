import Verif.Chrono.TzModel
/-
What the texts of dates mean, written without the formatter and the parser.
-/
namespace Verif.DateText
open Verif.Chrono

/-- The last decimal digit of `n`, as a character. -/
def digit (n : Nat) : Char := Char.ofNat (48 + n % 10)

/-- `n` in two digits. -/
def two (n : Int) : List Char := [digit (n / 10).toNat, digit n.toNat]

/-- `n` in three digits. -/
def three' (n : Int) : List Char := [digit (n / 100).toNat, digit (n / 10).toNat, digit n.toNat]

/-- `n` in four digits. -/
def four (n : Int) : List Char := [digit (n / 1000).toNat, digit (n / 100).toNat, digit (n / 10).toNat, digit n.toNat]

/-- The English name of month 1..12. -/
def monthName (m : Int) : List Char :=
  (["January", "February", "March", "April", "May", "June", "July", "August", "September", "October", "November",
    "December"][(m - 1).toNat]?.getD "").toList

/-- The English name of weekday 0 (Sunday) .. 6. -/
def dayName (w : Int) : List Char :=
  (["Sunday", "Monday", "Tuesday", "Wednesday", "Thursday", "Friday", "Saturday"][w.toNat]?.getD "").toList

/-- The day of the week of a date: 1970-01-01 was a Thursday, and weekdays repeat every seven days. -/
def dayOfWeek (c : Civil) : Int := (daysSinceEpoch c + 4) % 7

/-- The hour on a twelve-hour clock. -/
def hour12 (h : Int) : Int := if h % 12 = 0 then 12 else h % 12

/-- The hour of a day that a twelve-hour clock reading denotes. -/
def hour24 (pm : Bool) (h : Int) : Int := h % 12 + if pm then 12 else 0

/-- The parts a format string is made of: a character that stands for itself, or one of the directives of `strftime`. -/
inductive Item
  | lit (c : Char)
  | Y | m | d | H | M | S | b | B | I | p
  | a | A | w | y | j | C | u | pct | Z | z
deriving DecidableEq, Repr

/-- How an item is written in a format string. -/
def Item.text : Item → List Char
  | .lit c => [c]
  | .Y => ['%', 'Y'] | .m => ['%', 'm'] | .d => ['%', 'd'] | .H => ['%', 'H'] | .M => ['%', 'M'] | .S => ['%', 'S']
  | .b => ['%', 'b'] | .B => ['%', 'B'] | .I => ['%', 'I'] | .p => ['%', 'p'] | .a => ['%', 'a'] | .A => ['%', 'A']
  | .w => ['%', 'w'] | .y => ['%', 'y'] | .j => ['%', 'j'] | .C => ['%', 'C'] | .u => ['%', 'u']
  | .pct => ['%', '%'] | .Z => ['%', 'Z'] | .z => ['%', 'z']

/-- A format string. -/
def fmtText (items : List Item) : List Char := items.flatMap Item.text

/-- What `strftime` writes for an item, for a UTC clock reading. -/
def Item.render (dt : DateTime) : Item → List Char
  | .lit c => [c]
  | .Y => four dt.date.year
  | .m => two dt.date.month
  | .d => two dt.date.day
  | .H => two dt.timeOfDay.hour
  | .M => two dt.timeOfDay.minute
  | .S => two dt.timeOfDay.second
  | .b => (monthName dt.date.month).take 3
  | .B => monthName dt.date.month
  | .I => two (hour12 dt.timeOfDay.hour)
  | .p => if dt.timeOfDay.hour < 12 then ['A', 'M'] else ['P', 'M']
  | .a => (dayName (dayOfWeek dt.date)).take 3
  | .A => dayName (dayOfWeek dt.date)
  | .w => [digit (dayOfWeek dt.date).toNat]
  | .y => two (dt.date.year % 100)
  | .j => three' (daysSinceEpoch dt.date - daysSinceEpoch ⟨dt.date.year, 1, 1⟩ + 1)
  | .C => two (dt.date.year / 100)
  | .u => [digit (if dayOfWeek dt.date = 0 then 7 else dayOfWeek dt.date).toNat]
  | .pct => ['%']
  | .Z => ['U', 'T', 'C']
  | .z => ['+', '0', '0', '0', '0']

/-- What `strftime` writes. -/
def render (dt : DateTime) (items : List Item) : List Char := items.flatMap (Item.render dt)

/-- The items that depend on the day of the week. -/
def Item.isWeekday : Item → Bool
  | .a | .A | .w | .u => true
  | _ => false

/-- A character that stands for itself in a format: anything in ASCII but `%`. -/
def Item.plain : Item → Prop
  | .lit c => c ≠ '%' ∧ c.toNat < 128
  | _ => True

/-- The directives that both the formatter and the parser know. -/
def Item.both : Item → Prop
  | .lit c => c ≠ '%' ∧ c.toNat < 128
  | .Y | .m | .d | .H | .M | .S | .b | .B | .I | .p => True
  | _ => False

/-- The directives for a timezone, which both know as well (they always mean UTC). -/
def Item.zone : Item → Prop
  | .Z | .z => True
  | _ => False

instance (i : Item) : Decidable i.plain := by cases i <;> unfold Item.plain <;> infer_instance
instance (i : Item) : Decidable i.both := by cases i <;> unfold Item.both <;> infer_instance
instance (i : Item) : Decidable i.zone := by cases i <;> unfold Item.zone <;> infer_instance

/-- The hour is written on the 24-hour clock, or on the 12-hour clock together with AM or PM, but not in both ways. -/
def oneClock (items : List Item) : Prop :=
  (.I ∉ items ∧ .p ∉ items) ∨ (.H ∉ items ∧ .I ∈ items ∧ .p ∈ items)

instance (items : List Item) : Decidable (oneClock items) := by unfold oneClock; infer_instance

/-- Is the month written? -/
def hasMonth (items : List Item) : Prop := .m ∈ items ∨ .b ∈ items ∨ .B ∈ items

instance (items : List Item) : Decidable (hasMonth items) := by unfold hasMonth; infer_instance

/-- Is the hour written? -/
def hasHour (items : List Item) : Prop := .H ∈ items ∨ (.I ∈ items ∧ .p ∈ items)

instance (items : List Item) : Decidable (hasHour items) := by unfold hasHour; infer_instance

/-- The part of a clock reading that a format shows; the parts it does not show are taken from January 1st, 00:00:00. -/
def shown (items : List Item) (dt : DateTime) : DateTime :=
  ⟨⟨dt.date.year, if hasMonth items then dt.date.month else 1, if .d ∈ items then dt.date.day else 1⟩,
   ⟨if hasHour items then dt.timeOfDay.hour else 0, if .M ∈ items then dt.timeOfDay.minute else 0,
    if .S ∈ items then dt.timeOfDay.second else 0⟩⟩

/-- `yyyy-mm-dd`. -/
def dateText (c : Civil) : List Char := four c.year ++ '-' :: (two c.month ++ '-' :: two c.day)

/-- `hh:mm:ss`. -/
def timeText (t : TimeOfDay) : List Char := two t.hour ++ ':' :: (two t.minute ++ ':' :: two t.second)

/-- `yyyy-mm-ddThh:mm:ss`, the ISO 8601 text of a clock reading. -/
def isoText (dt : DateTime) : List Char := dateText dt.date ++ 'T' :: timeText dt.timeOfDay

/-- An ISO 8601 offset from UTC: a sign, hours and minutes, with or without a colon. -/
def offsetText (neg colon : Bool) (hh mm : Int) : List Char :=
  (if neg then '-' else '+') :: (two hh ++ ((if colon then [':'] else []) ++ two mm))

/-- The number of seconds an offset stands for. -/
def offsetSeconds (neg : Bool) (hh mm : Int) : Int := (if neg then -1 else 1) * (hh * 3600 + mm * 60)

/-- A date and a time on the twelve-hour clock in words, such as `January 02, 1997 02:05 pm`. -/
def wordsText (c : Civil) (h minute : Int) (space pm : Bool) : List Char :=
  monthName c.month ++ ' ' :: (two c.day ++ ',' :: ' ' :: (four c.year ++ ' ' :: (two h ++ ':' :: (two minute ++
    ((if space then [' '] else []) ++ if pm then ['p', 'm'] else ['a', 'm'])))))

end Verif.DateText
