import Verif.Chrono.TzModel
/-
Model of typed_python/lib/datetime/date_formatter.py and typed_python/lib/datetime/date_parser.py.

Simplifications (whole file):
* a string is a list of characters; the classification of characters (`isalpha`, `isdigit`, `isspace`) and `lower`
  are modelled for ASCII only (every theorem restricts itself to ASCII text where it matters);
* timestamps and seconds are whole numbers (floats in the code); a number with a non-zero fraction gives the outcome
  `PErr.notWhole`, which stands for "outside the model";
* integers are unbounded;
* cursors into a string are represented by the part of the string that is left: `s[c:c+k]` is `take k` of what is
  left and `c += k` is `drop k` (as with Python slices, both are total);
* the names of `pytz.all_timezones` are left out of `TimezoneChecker.isValidTimezone`: the parsers lower the text first,
  and no pytz name is in lower case.
-/
namespace Verif.DateText
open Verif.Chrono

abbrev Str := List Char

/-- How a call fails. `value` is `ValueError`, `index` is `IndexError`, `key` is `KeyError`, `exc` is a plain
`Exception`, `date` an exception of the date classes; `notWhole` marks a fraction of a second, `fuel` is never produced
(`tokens_total`). -/
inductive PErr
  | value | index | key | exc | date (e : DErr) | notWhole | fuel
deriving DecidableEq, Repr

/-- A timezone as the parsers use it: its `timestamp` method (date_time.py:475-495). -/
abbrev Tz := DateTime → Except PErr Int

/-- Exceptions of the date classes seen by a caller. -/
def liftD {α : Type} : Except DErr α → Except PErr α
  | .ok x => .ok x
  | .error e => .error (.date e)

/-- `FixedOffsetTimezone(...).timestamp`, date_time.py:822-831. -/
def fixedTz (off : Int) : Tz := fun dt => liftD (FixedZone.timestamp ⟨off⟩ dt false)

/-- `UTC`, date_time.py:1020. -/
def utc : Tz := fixedTz 0

/-! ### Python strings -/

/-- `isalpha` of a character. -/
def isAlpha (c : Char) : Bool := (97 ≤ c.toNat && c.toNat ≤ 122) || (65 ≤ c.toNat && c.toNat ≤ 90)

/-- `isdigit` of a character. -/
def isDigit (c : Char) : Bool := 48 ≤ c.toNat && c.toNat ≤ 57

/-- `isspace` of a character. -/
def isSpace (c : Char) : Bool :=
  c.toNat == 32 || (9 ≤ c.toNat && c.toNat ≤ 13) || (28 ≤ c.toNat && c.toNat ≤ 31)

/-- `lower` of a character. -/
def lowerC (c : Char) : Char := if 65 ≤ c.toNat && c.toNat ≤ 90 then Char.ofNat (c.toNat + 32) else c

/-- `str.lower`. -/
def lower (s : Str) : Str := s.map lowerC

/-- `str.isdigit`. -/
def allDigits (s : Str) : Bool := !s.isEmpty && s.all isDigit

/-- `str.isalpha`. -/
def allAlpha (s : Str) : Bool := !s.isEmpty && s.all isAlpha

/-- The value of a string of digits. -/
def digitsVal (s : Str) : Int := s.foldl (fun a c => 10 * a + ((c.toNat : Int) - 48)) 0

/-- `int(s)` for the strings the parsers pass (tokens, and slices of tokens: no sign, no spaces). -/
def pyInt (s : Str) : Except PErr Int := if allDigits s then .ok (digitsVal s) else .error .value

/-- `float(s)` without a sign: digits, optionally a dot and more digits. -/
def unsignedFloat (s : Str) : Except PErr Int :=
  let a := s.takeWhile isDigit
  match s.dropWhile isDigit with
  | [] => if a.isEmpty then .error .value else .ok (digitsVal a)
  | '.' :: f =>
    if f.all isDigit && !(a.isEmpty && f.isEmpty) then
      (if f.all (· == '0') then .ok (digitsVal a) else .error .notWhole)
    else .error .value
  | _ => .error .value

/-- `float(s)` for the strings the parsers pass (at most a sign before the digits; exponents cannot occur). -/
def pyFloat (s : Str) : Except PErr Int :=
  match (s.dropWhile isSpace).reverse.dropWhile isSpace |>.reverse with
  | '+' :: t => unsignedFloat t
  | '-' :: t =>
    match unsignedFloat t with
    | .ok v => .ok (-v)
    | .error e => .error e
  | t => unsignedFloat t

/-- The decimal digits of a natural number. -/
def natStr (n : Nat) : Str :=
  if n < 10 then [Char.ofNat (48 + n)] else natStr (n / 10) ++ [Char.ofNat (48 + n % 10)]
termination_by n

/-- `str(i)`. -/
def pyStr (i : Int) : Str := if i < 0 then '-' :: natStr i.natAbs else natStr i.toNat

/-- Does `p` begin `s`? -/
def startsWith : Str → Str → Bool
  | [], _ => true
  | _ :: _, [] => false
  | a :: p, b :: s => a == b && startsWith p s

/-- `s.replace(pat, rep)` for a nonempty `pat`; `skip` is the number of characters of a match still to be dropped. -/
def replaceGo (pat rep : Str) : Nat → Str → Str
  | _, [] => []
  | skip + 1, _ :: s => replaceGo pat rep skip s
  | 0, c :: s =>
    if startsWith pat (c :: s) then rep ++ replaceGo pat rep (pat.length - 1) s else c :: replaceGo pat rep 0 s

/-- `str.replace`. -/
def replace (pat rep s : Str) : Str := replaceGo pat rep 0 s

/-- Is `p` a contiguous part of `s` (`s.find(p) > -1`)? -/
def contains (p : Str) : Str → Bool
  | [] => p.isEmpty
  | c :: s => startsWith p (c :: s) || contains p s

/-! ### The formatter -/

/-- `DateFormatter.f2d`, date_formatter.py:88-101. -/
def f2d (n : Int) : Str :=
  let res := pyStr n
  if res.length = 1 then '0' :: res else res

/-- `DateFormatter.f3d`, date_formatter.py:103-119. -/
def f3d (n : Int) : Str :=
  let res := pyStr n
  if res.length = 2 then '0' :: res
  else if res.length = 1 then '0' :: '0' :: res
  else res

/-- `DateFormatter.f4d`, date_formatter.py:121-139. -/
def f4d (n : Int) : Str :=
  let res := pyStr n
  if res.length = 3 then '0' :: res
  else if res.length = 2 then '0' :: '0' :: res
  else if res.length = 1 then '0' :: '0' :: '0' :: res
  else res

/-- `INT_TO_MONTH_NAMES`, date_formatter.py:19-34. -/
def monthNames : List (Int × Str) :=
  [(1, "January".toList), (2, "February".toList), (3, "March".toList), (4, "April".toList), (5, "May".toList),
   (6, "June".toList), (7, "July".toList), (8, "August".toList), (9, "September".toList), (10, "October".toList),
   (11, "November".toList), (12, "December".toList)]

/-- `INT_TO_MONTH_ABBR`, date_formatter.py:37-52. -/
def monthAbbrs : List (Int × Str) :=
  [(1, "Jan".toList), (2, "Feb".toList), (3, "Mar".toList), (4, "Apr".toList), (5, "May".toList), (6, "Jun".toList),
   (7, "Jul".toList), (8, "Aug".toList), (9, "Sep".toList), (10, "Oct".toList), (11, "Nov".toList),
   (12, "Dec".toList)]

/-- `INT_TO_DAY_NAMES`, date_formatter.py:55-65. -/
def dayNames : List (Int × Str) :=
  [(0, "Sunday".toList), (1, "Monday".toList), (2, "Tuesday".toList), (3, "Wednesday".toList),
   (4, "Thursday".toList), (5, "Friday".toList), (6, "Saturday".toList)]

/-- `INT_TO_DAY_ABBR`, date_formatter.py:68-70. -/
def dayAbbrs : List (Int × Str) :=
  [(0, "Sun".toList), (1, "Mon".toList), (2, "Tue".toList), (3, "Wed".toList), (4, "Thu".toList),
   (5, "Fri".toList), (6, "Sat".toList)]

/-- Indexing one of the tables above: `KeyError` when the key is missing. -/
def getKey (t : List (Int × Str)) (k : Int) : Except PErr Str :=
  match t.lookup k with
  | some v => .ok v
  | none => .error .key

/-- `convert_to_12h`, date_formatter.py:73-79. -/
def convertTo12h (hour : Int) : Int :=
  if hour = 0 ∨ hour = 12 ∨ hour = 24 then 12 else if hour < 12 then hour else hour - 12

/-- The text of one directive, date_formatter.py:201-248. -/
def formatDirective (dt : DateTime) (c : Char) : Except PErr Str :=
  if c = 'Y' then .ok (f4d dt.date.year)
  else if c = 'm' then .ok (f2d dt.date.month)
  else if c = 'd' then .ok (f2d dt.date.day)
  else if c = 'H' then .ok (f2d dt.timeOfDay.hour)
  else if c = 'M' then .ok (f2d dt.timeOfDay.minute)
  else if c = 'S' then .ok (f2d dt.timeOfDay.second)
  else if c = 'a' then getKey dayAbbrs (weekday dt.date)
  else if c = 'A' then getKey dayNames (weekday dt.date)
  else if c = 'w' then .ok (pyStr (weekday dt.date))
  else if c = 'b' then getKey monthAbbrs dt.date.month
  else if c = 'B' then getKey monthNames dt.date.month
  else if c = 'y' then .ok (f2d (dt.date.year % 100))
  else if c = 'I' then .ok (f2d (convertTo12h dt.timeOfDay.hour))
  else if c = 'p' then .ok (if dt.timeOfDay.hour < 12 then "AM".toList else "PM".toList)
  else if c = 'Z' then .ok "UTC".toList
  else if c = 'z' then .ok "+0000".toList
  else if c = 'j' then .ok (f3d (dayOfYear dt.date.year dt.date.month dt.date.day))
  else if c = 'C' then .ok (f2d (dt.date.year / 100))
  else if c = '%' then .ok "%".toList
  else if c = 'u' then .ok (pyStr (if weekday dt.date = 0 then 7 else weekday dt.date))
  else .error .value

/-- The loop over the format, date_formatter.py:197-253 (the pieces are joined as they are produced). -/
def formatLoop (dt : DateTime) : Str → Except PErr Str
  | [] => .ok []
  | [c] => .ok [c]
  | c :: d :: fmt =>
    if c = '%' then
      match formatDirective dt d with
      | .error e => .error e
      | .ok t =>
        match formatLoop dt fmt with
        | .error e => .error e
        | .ok r => .ok (t ++ r)
    else
      match formatLoop dt (d :: fmt) with
      | .error e => .error e
      | .ok r => .ok (c :: r)

/-- The part of `DateFormatter.format` after the conversion to a wall clock reading, date_formatter.py:155-253. -/
def formatDt (dt : DateTime) (fmt : Str) : Except PErr Str :=
  if fmt = "%Y-%m-%d".toList then
    .ok (f4d dt.date.year ++ '-' :: (f2d dt.date.month ++ '-' :: f2d dt.date.day))
  else if fmt = "%Y-%m-%d %H:%M:%S".toList then
    .ok (f4d dt.date.year ++ '-' :: (f2d dt.date.month ++ '-' :: (f2d dt.date.day ++ ' ' ::
      (f2d dt.timeOfDay.hour ++ ':' :: (f2d dt.timeOfDay.minute ++ ':' :: f2d dt.timeOfDay.second)))))
  else formatLoop dt fmt

/-- `DateFormatter.format(ts, timezone, format)` with a `FixedOffsetTimezone`, date_formatter.py:141-253
(`off` = offset_hours * 3600). -/
def format (ts off : Int) (fmt : Str) : Except PErr Str :=
  match FixedZone.datetime ⟨off⟩ ts with
  | .error e => .error (.date e)
  | .ok dt => formatDt dt fmt

/-- `DateFormatter.isoformat`, date_formatter.py:83-86. -/
def isoformat (ts off : Int) : Except PErr Str := format ts off "%Y-%m-%dT%H:%M:%S".toList

/-! ### Timezones by name -/

/-- `TimezoneChecker.TIMEZONES`, date_time.py:1161-1163, with `EST` from date_time.py:1157. `nyc` is the `timestamp`
method of the `PytzTimezone` `NYC` (date_time.py:1156), which depends on the installed timezone database. -/
def timezones (nyc : Tz) : List (Str × Tz) :=
  [([], utc), ("+0000".toList, utc), ("utc".toList, utc), ("z".toList, utc), ("est".toList, fixedTz (-5 * 3600)),
   ("nyc".toList, nyc)]

/-- The keys of `TimezoneChecker.TIMEZONES`, date_time.py:1161-1163. -/
def tzKeys : List Str := [[], "+0000".toList, "utc".toList, "z".toList, "est".toList, "nyc".toList]

/-- `TimezoneChecker.isValidTimezone`, date_time.py:1166-1175. -/
def isValidTimezone (s : Str) : Bool := tzKeys.contains (lower s)

/-- The offset in seconds of `hh`, `hhmm` or `hhmmss`, date_parser.py:1085-1096 (in exact arithmetic). -/
def offsetOf (t : Str) : Except PErr Int :=
  if t.length = 2 then
    match pyFloat t with
    | .ok h => .ok (h * 3600)
    | .error e => .error e
  else if t.length = 4 then
    match pyFloat (t.take 2), pyFloat (t.drop 2) with
    | .ok h, .ok m => .ok (h * 3600 + m * 60)
    | .error e, _ => .error e
    | .ok _, .error e => .error e
  else if t.length = 6 then
    match pyFloat (t.take 2), pyFloat ((t.drop 2).take 2), pyFloat (t.drop 4) with
    | .ok h, .ok m, .ok s => .ok (h * 3600 + m * 60 + s)
    | .error e, _, _ => .error e
    | .ok _, .error e, _ => .error e
    | .ok _, .ok _, .error e => .error e
  else .error .value

/-- `DateParser.get_timezone_from_string`, date_parser.py:1077-1103. -/
def getTimezone (nyc : Tz) (s : Str) : Except PErr Tz :=
  if isValidTimezone s then
    match (timezones nyc).lookup s with
    | some z => .ok z
    | none => .error .key
  else
    match s with
    | [] => .error .index
    | c :: t =>
      if c = '+' ∨ c = '-' then
        match offsetOf t with
        | .error e => .error e
        | .ok o => .ok (fixedTz (if c = '-' then -o else o))
      else .error .value

/-! ### Parsing with a format -/

/-- `MONTH_TO_INT`, date_parser.py:65-92. -/
def monthToInt : List (Str × Int) :=
  [("jan".toList, 1), ("january".toList, 1), ("feb".toList, 2), ("february".toList, 2), ("mar".toList, 3),
   ("march".toList, 3), ("apr".toList, 4), ("april".toList, 4), ("may".toList, 5), ("jun".toList, 6),
   ("june".toList, 6), ("jul".toList, 7), ("july".toList, 7), ("aug".toList, 8), ("august".toList, 8),
   ("sep".toList, 9), ("sept".toList, 9), ("september".toList, 9), ("oct".toList, 10), ("october".toList, 10),
   ("nov".toList, 11), ("november".toList, 11), ("dec".toList, 12), ("december".toList, 12)]

/-- `is_month` together with the lookup in `MONTH_TO_INT`, date_parser.py:95-104. -/
def month? (s : Str) : Option Int := monthToInt.lookup s

/-- `is4d`, date_parser.py:107-116. -/
def is4d (s : Str) : Bool := s.length == 4 && allDigits s

/-- `is2d`, date_parser.py:119-128. -/
def is2d (s : Str) : Bool := s.length == 2 && allDigits s

/-- The variables of the parsing loop, date_parser.py:135-140. `ampm` is `""`, `"am"` or `"pm"`. -/
structure Fields where
  year : Int
  month : Int
  day : Int
  hour : Int
  minute : Int
  second : Int
  ampm : Str
  tz : Str
deriving DecidableEq, Repr

/-- Initial values, date_parser.py:135-140. -/
def Fields.init : Fields := ⟨-1, -1, -1, 0, 0, 0, [], []⟩

/-- A two digit field, date_parser.py:155-159 and similar. -/
def take2 (s : Str) (k : Int → Fields) : Except PErr (Str × Fields) :=
  if is2d (s.take 2) then
    match pyInt (s.take 2) with
    | .ok v => .ok (s.drop 2, k v)
    | .error e => .error e
  else .error .value

/-- `%B`: the slices of 9, 8, 7, 6, 5, 4 and 3 characters in this order, date_parser.py:197-253. -/
def takeMonthName (s : Str) : List Nat → Except PErr (Str × Int)
  | [] => .error .value
  | k :: ks =>
    match month? (s.take k) with
    | some m => .ok (s.drop k, m)
    | none => takeMonthName s ks

/-- `%Z` and `%z`: the first of the slices that names a timezone, date_parser.py:254-295. -/
def takeTz (s : Str) : List Nat → Except PErr (Str × Str)
  | [] => .error .value
  | k :: ks => if isValidTimezone (s.take k) then .ok (s.drop k, s.take k) else takeTz s ks

/-- One directive, date_parser.py:148-303 and (`withTz = false`) 405-525. -/
def parseDirective (withTz : Bool) (c : Char) (s : Str) (f : Fields) : Except PErr (Str × Fields) :=
  if c = 'Y' then
    if is4d (s.take 4) then
      match pyInt (s.take 4) with
      | .ok v => .ok (s.drop 4, { f with year := v })
      | .error e => .error e
    else .error .value
  else if c = 'm' then take2 s fun v => { f with month := v }
  else if c = 'd' then take2 s fun v => { f with day := v }
  else if c = 'H' then take2 s fun v => { f with hour := v }
  else if c = 'I' then take2 s fun v => { f with hour := v }
  else if c = 'M' then take2 s fun v => { f with minute := v }
  else if c = 'S' then take2 s fun v => { f with second := v }
  else if c = 'b' then
    match month? (s.take 3) with
    | some m => .ok (s.drop 3, { f with month := m })
    | none => .error .value
  else if c = 'B' then
    match takeMonthName s [9, 8, 7, 6, 5, 4, 3] with
    | .ok (s, m) => .ok (s, { f with month := m })
    | .error e => .error e
  else if c = 'Z' then
    if withTz then
      match takeTz s [4, 4, 3, 2] with
      | .ok (s, z) => .ok (s, { f with tz := z })
      | .error e => .error e
    else .error .exc
  else if c = 'z' then
    if withTz then
      match takeTz s [5, 3] with
      | .ok (s, z) => .ok (s, { f with tz := z })
      | .error e => .error e
    else .error .exc
  else if c = 'p' then
    if s.take 2 = "am".toList ∨ s.take 2 = "pm".toList then .ok (s.drop 2, { f with ampm := s.take 2 })
    else .error .value
  else .error .value

/-- The loop over the format, date_parser.py:143-308 and 400-530. -/
def parseLoop (withTz : Bool) : Str → Str → Fields → Except PErr Fields
  | [], _, f => .ok f
  | [_], _, f => .ok f
  | c :: d :: fmt, s, f =>
    if c = '%' then
      match parseDirective withTz d s f with
      | .error e => .error e
      | .ok (s, f) => parseLoop withTz fmt s f
    else parseLoop withTz (d :: fmt) (s.drop 1) f

/-- The AM/PM adjustment of an hour, date_parser.py:310-316, 532-538 and 858-864. -/
def adjustAmPm (ampm : Str) (hour : Int) : Except PErr Int :=
  if ampm = [] then .ok hour
  else if hour > 12 ∨ hour < 1 then .error .value
  else if ampm = "am".toList ∧ hour = 12 then .ok 0
  else if ampm = "pm".toList then .ok (hour + 12)
  else .ok hour

/-- The checks and the construction of the wall clock reading, date_parser.py:310-333 and 532-550. -/
def finishFields (f : Fields) : Except PErr DateTime :=
  match adjustAmPm f.ampm f.hour with
  | .error e => .error e
  | .ok hour =>
    if !isValidDate f.year f.month f.day then .error .value
    else if !isValidTime hour f.minute f.second then .error .value
    else
      liftD (mkDateTime f.year (if f.month = -1 then 1 else f.month) (if f.day = -1 then 1 else f.day)
        hour f.minute f.second)

/-- `DateParser.parse_with_format`, date_parser.py:132-334 (a bad timezone name is reported before the date is built,
date_parser.py:328-333; both cannot fail together because the date has been checked). -/
def parseWithFormat (nyc : Tz) (s fmt : Str) : Except PErr Int :=
  match parseLoop true fmt (lower s) Fields.init with
  | .error e => .error e
  | .ok f =>
    match finishFields f with
    | .error e => .error e
    | .ok dt =>
      match getTimezone nyc f.tz with
      | .error e => .error e
      | .ok z => z dt

/-- `DateParser.parse_with_format_and_timezone`, date_parser.py:368-551. -/
def parseWithFormatAndTimezone (z : Tz) (s fmt : Str) : Except PErr Int :=
  match parseLoop false fmt (lower s) Fields.init with
  | .error e => .error e
  | .ok f =>
    match finishFields f with
    | .error e => .error e
    | .ok dt => z dt

/-! ### Tokens -/

/-- One token, unless it is empty. -/
def tok (s : Str) : List Str := if s.isEmpty then [] else [s]

/-- A character of a numeric token, date_parser.py:772-774. -/
def isNum (c : Char) : Bool := isDigit c || c == '.'

/-- A character of a separator, date_parser.py:793-798. -/
def isSep (c : Char) : Bool := !isSpace c && !isDigit c && !isAlpha c

/-- What one pass of the tokenizer's loop leaves of the string, date_parser.py:759-803. -/
def afterPass (s : Str) : Str := (((s.dropWhile isAlpha).dropWhile isNum).dropWhile isSpace).dropWhile isSep

/-- The tokens of one pass of the loop, date_parser.py:760-803. -/
def passTokens (skip s : Str) : List Str :=
  let s1 := s.dropWhile isAlpha
  let s2 := s1.dropWhile isNum
  let s3 := s2.dropWhile isSpace
  tok (s.takeWhile isAlpha) ++ tok (s1.takeWhile isNum)
    ++ (if !contains [' '] skip && !(s2.takeWhile isSpace).isEmpty then [[' ']] else [])
    ++ (if !contains (s3.takeWhile isSep) skip then tok (s3.takeWhile isSep) else [])

/-- The loop of `DateParser._get_tokens`, date_parser.py:759-804. -/
def tokensGo (skip : Str) : Nat → Str → Except PErr (List Str)
  | _, [] => .ok []
  | 0, _ :: _ => .error .fuel
  | fuel + 1, c :: s =>
    match tokensGo skip fuel (afterPass (c :: s)) with
    | .error e => .error e
    | .ok ts => .ok (passTokens skip (c :: s) ++ ts)

/-- `DateParser._get_tokens`, date_parser.py:744-804. -/
def getTokens (skip s : Str) : Except PErr (List Str) := tokensGo skip s.length s

/-! ### ISO 8601 -/

/-- Does a token end the date part, date_parser.py:643 and 564? -/
def endsDate (t : Str) : Bool := t == ['t'] || t == ['+'] || t == ['-']

/-- The date part and what follows it, date_parser.py:639-648 and 560-569. -/
def splitDate : List Str → List Str × List Str
  | [] => ([], [])
  | t :: ts => if endsDate t then ([], ts) else (t :: (splitDate ts).1, (splitDate ts).2)

/-- The tokens of the time and what follows them, date_parser.py:683-696; `strict` is the loop of
date_parser.py:604-615, which raises at a word. -/
def splitTime (strict : Bool) : List Str → Except PErr (List Str × List Str)
  | [] => .ok ([], [])
  | t :: ts =>
    if t = ['t'] then .ok ([], ts)
    else if t = ['+'] ∨ t = ['-'] then .ok ([], t :: ts)
    else if allAlpha t then (if strict then .error .value else .ok ([], t :: ts))
    else
      match splitTime strict ts with
      | .error e => .error e
      | .ok (a, b) => .ok (t :: a, b)

/-- Three numbers read one after the other. -/
def three (a b c : Except PErr Int) : Except PErr (Int × Int × Int) :=
  match a, b, c with
  | .ok x, .ok y, .ok z => .ok (x, y, z)
  | .error e, _, _ => .error e
  | .ok _, .error e, _ => .error e
  | .ok _, .ok _, .error e => .error e

/-- The year, month and day of the date tokens, date_parser.py:650-672 and 571-593. -/
def isoDate : List Str → Except PErr (Int × Int × Int)
  | [t] =>
    if t.length = 8 then three (pyInt (t.take 4)) (pyInt ((t.drop 4).take 2)) (pyInt ((t.drop 6).take 2))
    else if t.length = 6 then three (pyInt (t.take 4)) (pyInt ((t.drop 4).take 2)) (.ok 1)
    else if t.length = 4 then three (pyInt (t.take 4)) (.ok 1) (.ok 1)
    else .ok (-1, -1, -1)
  | [a, b] => if is4d a then three (pyInt a) (pyInt b) (.ok 1) else .error .value
  | [a, b, c] => if is4d a then three (pyInt a) (pyInt b) (pyInt c) else .error .value
  | _ => .error .value

/-- The numbers of the time tokens, date_parser.py:713-737: any other number of tokens leaves 0, 0, 0. -/
def isoTimeNums : List Str → Except PErr (Int × Int × Int)
  | [t] =>
    if t.length = 6 then three (pyInt (t.take 2)) (pyInt ((t.drop 2).take 2)) (pyFloat ((t.drop 4).take 2))
    else if t.length = 4 then three (pyInt (t.take 2)) (pyInt ((t.drop 2).take 2)) (.ok 0)
    else if t.length = 2 then three (pyInt (t.take 2)) (.ok 0) (.ok 0)
    else .ok (0, 0, 0)
  | [a, b] => three (pyInt a) (pyInt b) (.ok 0)
  | [a, b, c] => three (pyInt a) (pyInt b) (pyFloat c)
  | _ => .ok (0, 0, 0)

/-- `DateParser._parse_iso_time_tokens`, date_parser.py:710-742. -/
def isoTime (ts : List Str) : Except PErr TimeOfDay :=
  match isoTimeNums ts with
  | .error e => .error e
  | .ok (h, m, s) => if !isValidTime h m s then .error .value else liftD (mkTime h m s)

/-- The tokens of an ISO string, date_parser.py:635-637 and 556-558. -/
def isoTokens (s : Str) : Except PErr (List Str) := getTokens "/-:".toList (replace [' '] ['t'] (lower s))

/-- `DateParser.parse_iso_str`, date_parser.py:624-708 (`given = none`) and `DateParser.parse_iso_str_and_timezone`,
date_parser.py:553-622 (`given = some timezone`). `cursor >= len(tokens)` is "nothing is left". -/
def parseIsoWith (nyc : Tz) (given : Option Tz) (s : Str) : Except PErr Int :=
  match isoTokens s with
  | .error e => .error e
  | .ok tokens =>
    match isoDate (splitDate tokens).1 with
    | .error e => .error e
    | .ok (y, m, d) =>
      if !isValidDate y m d then .error .value
      else
        match liftD (mkDateTime y m d 0 0 0) with
        | .error e => .error e
        | .ok midnight =>
          match (given.getD utc) midnight with
          | .error e => .error e
          | .ok ts =>
            if (splitDate tokens).2.isEmpty then .ok ts
            else
              match splitTime given.isSome (splitDate tokens).2 with
              | .error e => .error e
              | .ok (time, rest) =>
                match isoTime time with
                | .error e => .error e
                | .ok tod =>
                  match liftD (mkDateTime y m d tod.hour tod.minute tod.second) with
                  | .error e => .error e
                  | .ok dt =>
                    match given with
                    | some z => z dt
                    | none =>
                      if rest.isEmpty then utc dt
                      else
                        match getTimezone nyc rest.flatten with
                        | .error e => .error e
                        | .ok z => z dt

/-- `DateParser.parse_iso_str`, date_parser.py:624-708. -/
def parseIso (nyc : Tz) (s : Str) : Except PErr Int := parseIsoWith nyc none s

/-- `DateParser.parse_iso_str_and_timezone`, date_parser.py:553-622. -/
def parseIsoIn (z : Tz) (s : Str) : Except PErr Int := parseIsoWith utc (some z) s

/-! ### Other notations -/

/-- The tokens before the first `am` or `pm`, and from it on, date_parser.py:821-832. -/
def splitAmPm : List Str → List Str × List Str
  | [] => ([], [])
  | t :: ts =>
    if t = "am".toList ∨ t = "pm".toList then ([], t :: ts) else (t :: (splitAmPm ts).1, (splitAmPm ts).2)

/-- Hours, minutes and seconds of the time part, date_parser.py:834-856. -/
def nonIsoNums : List Str → Except PErr (Int × Int × Int)
  | [a, c1, b, c2, c] =>
    if c1 = [':'] ∧ allDigits b = true ∧ c2 = [':'] then
      if allDigits a && allDigits c then three (pyInt a) (pyInt b) (pyInt c) else .error .value
    else .error .value
  | [a, c1, b] =>
    if allDigits a = true ∧ c1 = [':'] ∧ allDigits b = true then three (pyInt a) (pyInt b) (.ok 0) else .error .value
  | _ => .error .value

/-- `DateParser.parse_non_iso_time`, date_parser.py:806-868. -/
def nonIsoTime (tokens : List Str) : Except PErr TimeOfDay :=
  if tokens.isEmpty then liftD (mkTime 0 0 0)
  else
    match nonIsoNums (splitAmPm tokens).1 with
    | .error e => .error e
    | .ok (h, m, s) =>
      match adjustAmPm ((splitAmPm tokens).2.headD []) h with
      | .error e => .error e
      | .ok h => if !isValidTime h m s then .error .value else liftD (mkTime h m s)

/-- Two equal separators, `/` or `-`, date_parser.py:893-894 and similar. -/
def sameSep (a b : Str) : Bool := (a == ['/'] && b == ['/']) || (a == ['-'] && b == ['-'])

/-- Year, month, day and the time tokens when the fifth token is a four digit year, date_parser.py:890-953. -/
def fiveYear (t0 t1 t2 t3 t4 : Str) (rest : List Str) : Except PErr ((Int × Int × Int) × List Str) :=
  let mk (m d : Except PErr Int) : Except PErr ((Int × Int × Int) × List Str) :=
    match three (pyInt t4) m d with
    | .ok r => .ok (r, rest)
    | .error e => .error e
  if (month? t2).isSome && sameSep t1 t3 then mk (.ok ((month? t2).getD 0)) (pyInt t0)
  else if (month? t0).isSome && t1 == ['-'] && allDigits t2 && t3 == ['-'] then
    mk (.ok ((month? t0).getD 0)) (pyInt t2)
  else if (month? t0).isSome && sameSep t1 t3 then mk (.ok ((month? t0).getD 0)) (pyInt t2)
  else if (t1 == ['/'] && t3 == ['/']) || ((t1 == ['-'] && t3 == ['-']) && allDigits t0 && allDigits t2) then
    match pyInt t0 with
    | .error e => .error e
    | .ok n => if n > 12 then mk (pyInt t2) (.ok n) else mk (.ok n) (pyInt t2)
  else .error .value

/-- Year, month, day and the time tokens, date_parser.py:886-1068. Reading a token that is not there is an
`IndexError`; `none` of `l[i]?` appears only where the code has checked the length, except at date_parser.py:1038. -/
def nonIsoDate (ts : List Str) : Except PErr ((Int × Int × Int) × List Str) :=
  let t0 := ts[0]?.getD []
  let t1 := ts[1]?.getD []
  let t2 := ts[2]?.getD []
  let t3 := ts[3]?.getD []
  let t4 := ts[4]?.getD []
  let n := ts.length
  let mk (y m d : Except PErr Int) (rest : List Str) : Except PErr ((Int × Int × Int) × List Str) :=
    match three y m d with
    | .ok r => .ok (r, rest)
    | .error e => .error e
  if n ≥ 5 ∧ is4d t4 = true then fiveYear t0 t1 t2 t3 t4 (ts.drop 5)
  else if n ≥ 5 ∧ is4d t0 = true ∧ (month? t2).isSome = true ∧ allDigits t4 = true ∧ sameSep t1 t3 = true then
    mk (pyInt t0) (.ok ((month? t2).getD 0)) (pyInt t4) (ts.drop 5)
  else if n ≥ 3 ∧ (month? t0).isSome = true ∧ allDigits t1 = true ∧ is4d t2 = true then
    mk (pyInt t2) (.ok ((month? t0).getD 0)) (pyInt t1) (ts.drop 3)
  else if n ≥ 3 ∧ (month? t1).isSome = true ∧ allDigits t0 = true ∧ is4d t2 = true then
    mk (pyInt t2) (.ok ((month? t1).getD 0)) (pyInt t0) (ts.drop 3)
  else if n ≥ 3 ∧ is4d t0 = true ∧ (month? t1).isSome = true ∧ allDigits t2 = true then
    mk (pyInt t0) (.ok ((month? t1).getD 0)) (pyInt t2) (ts.drop 3)
  else if n ≥ 5 ∧ is4d t0 = true ∧ allDigits t2 = true ∧ allDigits t4 = true ∧ sameSep t1 t3 = true then
    mk (pyInt t0) (pyInt t2) (pyInt t4) (ts.drop 5)
  else if n ≥ 1 ∧ t0.length = 8 ∧ allDigits t0 = true ∧ n < 2 then .error .index
  else if n ≥ 1 ∧ t0.length = 8 ∧ allDigits t0 = true ∧ t1 = ['-'] then
    mk (pyInt (t0.take 4)) (pyInt ((t0.drop 4).take 2)) (pyInt ((t0.drop 6).take 2)) (ts.drop 2)
  else if n ≥ 5 ∧ is2d t0 = true ∧ is2d t4 = true ∧ (month? t2).isSome = true ∧ sameSep t1 t3 = true then
    match mk (pyInt t4) (.ok ((month? t2).getD 0)) (pyInt t0) (ts.drop 5) with
    | .ok ((y, m, d), r) => .ok ((y + (if y ≥ 1900 then 1900 else 2000), m, d), r)
    | .error e => .error e
  else .error .value

/-- `DateParser.parse_non_iso`, date_parser.py:870-1075. -/
def parseNonIso (z : Tz) (s : Str) : Except PErr Int :=
  match getTokens " ,".toList
      (replace "p.m.".toList "pm".toList (replace "a.m.".toList "am".toList (lower s))) with
  | .error e => .error e
  | .ok tokens =>
    match nonIsoDate tokens with
    | .error e => .error e
    | .ok ((y, m, d), time) =>
      if !isValidDate y m d then .error .value
      else
        match nonIsoTime time with
        | .error e => .error e
        | .ok t =>
          match liftD (mkDateTime y m d t.hour t.minute t.second) with
          | .error e => .error e
          | .ok dt => z dt

/-- `try: a; except ValueError: b`, date_parser.py:363-366 and 343-346. -/
def orElseValue (a b : Except PErr Int) : Except PErr Int :=
  match a with
  | .error .value => b
  | r => r

/-- `DateParser.parse`, date_parser.py:348-366. -/
def parse (nyc : Tz) (s fmt : Str) : Except PErr Int :=
  if fmt ≠ [] then parseWithFormat nyc s fmt else orElseValue (parseIso nyc s) (parseNonIso utc s)

/-- `DateParser.parse_with_timezone`, date_parser.py:336-346. -/
def parseWithTimezone (z : Tz) (s fmt : Str) : Except PErr Int :=
  if fmt ≠ [] then parseWithFormatAndTimezone z s fmt else orElseValue (parseIsoIn z s) (parseNonIso z s)

end Verif.DateText
