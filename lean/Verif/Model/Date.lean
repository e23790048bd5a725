import Verif.Model.Utils
import Verif.PyMore
/-!
Model of HTTP dates: `/repo/verktyg/http/basic.py:694-762`, the function
`email.utils.parsedate_tz` it calls (text of `email/_parseaddr.py` of CPython; `lower`, `upper`
and `isdigit` on ASCII only; of the releases that give up on an empty day, month or year, where earlier ones
raise `IndexError`), and of `datetime` (text of the pure Python `datetime.py` of
CPython).  The functions that index into a string return `PyErr.indexError` where Python would
raise it.
-/
namespace Verif.Date
open Verif

/-! ### the calendar of `datetime.py` -/

/-- `_is_leap`.  Used for basic.py:694-728. -/
def isLeap (y : Nat) : Bool := y % 4 = 0 ∧ (y % 100 ≠ 0 ∨ y % 400 = 0)

/-- `_days_before_year`.  Used for basic.py:731-747. -/
def daysBeforeYear (y : Nat) : Nat := (y - 1) * 365 + (y - 1) / 4 - (y - 1) / 100 + (y - 1) / 400

/-- `_DAYS_IN_MONTH`, with the unused entry at index 0.  Used for basic.py:694-728. -/
def daysInMonthTable : List Nat := [0, 31, 28, 31, 30, 31, 30, 31, 31, 30, 31, 30, 31]

/-- `_DAYS_BEFORE_MONTH`.  Used for basic.py:731-747. -/
def daysBeforeMonthTable : List Nat := [0, 0, 31, 59, 90, 120, 151, 181, 212, 243, 273, 304, 334]

/-- `_days_in_month`, as a function of the kind of year.  Used for basic.py:694-728. -/
def daysInMonth (leap : Bool) (m : Nat) : Nat :=
  if m = 2 ∧ leap then 29 else daysInMonthTable.getD m 0

/-- `_days_before_month`.  Used for basic.py:731-747. -/
def daysBeforeMonth (leap : Bool) (m : Nat) : Nat :=
  daysBeforeMonthTable.getD m 0 + if m > 2 ∧ leap then 1 else 0

/-- `_ymd2ord`.  Used for basic.py:731-747. -/
def ymd2ord (y m d : Nat) : Nat := daysBeforeYear y + daysBeforeMonth (isLeap y) m + d

/-- The end of `_ord2ymd`: month and day for a day of the year, counted from 0.
Used for basic.py:694-728. -/
def monthDay (leap : Bool) (n : Nat) : Nat × Nat :=
  let month := (n + 50) / 32
  let preceding := daysBeforeMonthTable.getD month 0 + if month > 2 ∧ leap then 1 else 0
  if preceding > n then
    let month := month - 1
    let preceding := preceding - (daysInMonthTable.getD month 0 + if month = 2 ∧ leap then 1 else 0)
    (month, n - preceding + 1)
  else (month, n - preceding + 1)

/-- `_ord2ymd`.  Used for basic.py:694-728. -/
def ord2ymd (n : Nat) : Nat × Nat × Nat :=
  let n := n - 1
  let n400 := n / 146097
  let n := n % 146097
  let n100 := n / 36524
  let n := n % 36524
  let n4 := n / 1461
  let n := n % 1461
  let n1 := n / 365
  let n := n % 365
  let year := n400 * 400 + 1 + n100 * 100 + n4 * 4 + n1
  if n1 = 4 ∨ n100 = 4 then (year - 1, 12, 31)
  else
    let leap : Bool := n1 = 3 ∧ (n4 ≠ 24 ∨ n100 = 3)
    (year, (monthDay leap n).1, (monthDay leap n).2)

/-- A `datetime` without time zone and with whole seconds.  Used for basic.py:731-747. -/
structure DateTime where
  year : Nat
  month : Nat
  day : Nat
  hour : Nat
  minute : Nat
  second : Nat
deriving DecidableEq, Repr

/-- The checks of the constructor of `datetime`; `none` where it raises `ValueError` or
`OverflowError`.  Used for basic.py:694-728. -/
def mkDateTime (y m d h mi s : Int) : Option DateTime :=
  if 1 ≤ y ∧ y ≤ 9999 ∧ 1 ≤ m ∧ m ≤ 12 ∧ 1 ≤ d ∧ d ≤ daysInMonth (isLeap y.toNat) m.toNat ∧
      0 ≤ h ∧ h ≤ 23 ∧ 0 ≤ mi ∧ mi ≤ 59 ∧ 0 ≤ s ∧ s ≤ 59 then
    some ⟨y.toNat, m.toNat, d.toNat, h.toNat, mi.toNat, s.toNat⟩
  else none

/-- Seconds since the beginning of the calendar, as in `datetime.__add__`.
Used for basic.py:694-728. -/
def DateTime.total (t : DateTime) : Int :=
  (ymd2ord t.year t.month t.day : Int) * 86400 + t.hour * 3600 + t.minute * 60 + t.second

/-- The `datetime` of a number of seconds; `none` outside of the years 1 to 9999.
Used for basic.py:694-728. -/
def ofTotal (n : Int) : Option DateTime :=
  let days := n / 86400
  let s := (n % 86400).toNat
  if 0 < days ∧ days ≤ 3652059 then
    let ymd := ord2ymd days.toNat
    some ⟨ymd.1, ymd.2.1, ymd.2.2, s / 3600, s % 3600 / 60, s % 60⟩
  else none

/-- `t - timedelta(seconds=n)`; `none` is `OverflowError`.  Used for basic.py:694-728. -/
def sub (t : DateTime) (n : Int) : Option DateTime := ofTotal (t.total - n)

/-- `time.gmtime(n)` for a number of seconds since 1970, within the years of `datetime`.
Used for basic.py:750-762. -/
def gmtime (n : Int) : Option DateTime := ofTotal (n + 719163 * 86400)

/-- `tm_wday`, `date.weekday()`.  Used for basic.py:731-747. -/
def weekday (t : DateTime) : Nat := (ymd2ord t.year t.month t.day + 6) % 7

/-! ### writing dates -/

/-- The names of the days, basic.py:740. -/
def dayNames : List Str := [s%"Mon", s%"Tue", s%"Wed", s%"Thu", s%"Fri", s%"Sat", s%"Sun"]

/-- The names of the months, basic.py:743-744. -/
def monthNames : List Str :=
  [s%"Jan", s%"Feb", s%"Mar", s%"Apr", s%"May", s%"Jun", s%"Jul", s%"Aug", s%"Sep", s%"Oct", s%"Nov", s%"Dec"]

/-- `'%02d' % n`.  Used for basic.py:731-747. -/
def pad2 (n : Nat) : Str := if n < 10 then '0' :: Py.natStr n else Py.natStr n

/-- `_dump_date(d, delim)` for a `datetime` in UTC, basic.py:731-747. -/
def dumpDate (t : DateTime) (delim : Str) : Str :=
  dayNames.getD (weekday t) [] ++ s%", " ++ pad2 t.day ++ delim ++ monthNames.getD (t.month - 1) [] ++ delim ++
  Py.natStr t.year ++ s%" " ++ pad2 t.hour ++ s%":" ++ pad2 t.minute ++ s%":" ++ pad2 t.second ++ s%" GMT"

/-- `http_date(t)`, basic.py:750-762. -/
def httpDate (t : DateTime) : Str := dumpDate t s%" "

/-! ### `email._parseaddr` -/

/-- `_monthnames`.  Used for basic.py:694-728. -/
def months : List Str :=
  [s%"jan", s%"feb", s%"mar", s%"apr", s%"may", s%"jun", s%"jul", s%"aug", s%"sep", s%"oct", s%"nov", s%"dec",
   s%"january", s%"february", s%"march", s%"april", s%"may", s%"june", s%"july", s%"august", s%"september",
   s%"october", s%"november", s%"december"]

/-- `_daynames`.  Used for basic.py:694-728. -/
def days : List Str := [s%"mon", s%"tue", s%"wed", s%"thu", s%"fri", s%"sat", s%"sun"]

/-- `_timezones`.  Used for basic.py:694-728. -/
def timezones : List (Str × Int) :=
  [(s%"UT", 0), (s%"UTC", 0), (s%"GMT", 0), (s%"Z", 0), (s%"AST", -400), (s%"ADT", -300), (s%"EST", -500),
   (s%"EDT", -400), (s%"CST", -600), (s%"CDT", -500), (s%"MST", -700), (s%"MDT", -600), (s%"PST", -800),
   (s%"PDT", -700)]

/-- `str.lower` on ASCII.  Used for basic.py:694-728. -/
def lower (s : Str) : Str := s.map Char.toLower
/-- `str.upper` on ASCII.  Used for basic.py:694-728. -/
def upper (s : Str) : Str := s.map Char.toUpper

/-- The day of the week is removed.  Used for basic.py:694-728. -/
def dropDay : List Str → List Str
  | [] => []
  | w :: r =>
    if w.getLast? = some ',' ∨ lower w ∈ days then r
    else match Py.rsplit1 ',' w with
      | some (_, b) => b :: r
      | none => w :: r

/-- RFC 850 dates.  Used for basic.py:694-728. -/
def unhyphen : List Str → List Str
  | [a, b, c] => if (Py.splitOn '-' a).length = 3 then Py.splitOn '-' a ++ [b, c] else [a, b, c]
  | l => l

/-- A zone written without a space, or no zone.  Used for basic.py:694-728. -/
def addZone : List Str → List Str
  | [a, b, c, s] =>
    let x := if s.contains '+' then '+' else '-'
    if s.contains x ∧ s.takeWhile (· ≠ x) ≠ [] then [a, b, c, s.takeWhile (· ≠ x), s.dropWhile (· ≠ x)]
    else [a, b, c, s, []]
  | l => l

/-- The number of a month name.  Used for basic.py:694-728. -/
def monthNumber (m : Str) : Option Nat :=
  if m ∈ months then
    let i := months.idxOf m + 1
    some (if i > 12 then i - 12 else i)
  else none

/-- Day and month, in either order.  Used for basic.py:694-728. -/
def dayMonth (dd mm : Str) : Option (Str × Nat) :=
  match monthNumber (lower mm) with
  | some m => some (dd, m)
  | none =>
    match monthNumber (lower dd) with
    | some m => some (lower mm, m)
    | none => none

/-- `if s[-1] == ',': s = s[:-1]`.  Used for basic.py:694-728. -/
def dropComma (s : Str) : Except PyErr Str :=
  match s.getLast? with
  | none => .error .indexError
  | some c => .ok (if c = ',' then s.dropLast else s)

/-- `s[0].isdigit()`.  Used for basic.py:694-728. -/
def firstDigit (s : Str) : Except PyErr Bool :=
  match s.head? with
  | none => .error .indexError
  | some c => .ok (48 ≤ c.toNat && c.toNat ≤ 57)

/-- Hours, minutes and seconds.  Used for basic.py:694-728. -/
def splitTime (tm : Str) : Option (Str × Str × Str) :=
  match Py.splitOn ':' tm with
  | [h, m] => some (h, m, s%"0")
  | [h, m, s] => some (h, m, s)
  | [t] =>
    if t.contains '.' then
      match Py.splitOn '.' t with
      | [h, m] => some (h, m, s%"0")
      | [h, m, s] => some (h, m, s)
      | _ => none
    else none
  | _ => none

/-- The zone as written, `None` where Python has `None`.  Used for basic.py:694-728. -/
def zoneNumber (tz : Str) : Option Int :=
  match timezones.lookup (upper tz) with
  | some n => some n
  | none =>
    match Py.intOf (upper tz) with
    | .error _ => none
    | .ok n => if n = 0 ∧ (upper tz).head? = some '-' then none else some n

/-- The zone in seconds; `None` becomes 0 in `parsedate_tz`.  Used for basic.py:694-728. -/
def zoneSeconds (tz : Str) : Int :=
  match zoneNumber tz with
  | none => 0
  | some n => if n < 0 then -((-n) / 100 * 3600 + (-n) % 100 * 60) else n / 100 * 3600 + n % 100 * 60

/-- What `parsedate_tz` returns: year, month, day, hour, minute, second, zone.
Used for basic.py:694-728. -/
structure Parsed where
  year : Int
  month : Nat
  day : Int
  hour : Int
  minute : Int
  second : Int
  zone : Int
deriving DecidableEq, Repr

/-- The conversion to numbers, with two-digit years.  Used for basic.py:694-728. -/
def numbers (yy : Str) (mm : Nat) (dd : Str) (h m s : Str) (tz : Str) : Option Parsed :=
  match Py.intOf yy, Py.intOf dd, Py.intOf h, Py.intOf m, Py.intOf s with
  | .ok y, .ok d, .ok h, .ok m, .ok s =>
    some ⟨if y < 100 then (if y > 68 then y + 1900 else y + 2000) else y, mm, d, h, m, s, zoneSeconds tz⟩
  | _, _, _, _, _ => none

/-- From the exchange of year and zone on.  Used for basic.py:694-728. -/
def finish (dd : Str) (mm : Nat) (yy tm tz : Str) : Except PyErr (Option Parsed) :=
  match firstDigit yy with
  | .error e => .error e
  | .ok isd =>
    let yy' := if isd then yy else tz
    let tz' := if isd then tz else yy
    match dropComma tm with
    | .error e => .error e
    | .ok tm =>
      match splitTime tm with
      | none => .ok none
      | some (h, m, s) => .ok (numbers yy' mm dd h m s tz')

/-- `yy.find(':') > 0`.  Used for basic.py:694-728. -/
def colonInside (yy : Str) : Bool := yy.contains ':' && yy.head? != some ':'

/-- The five parts.  Used for basic.py:694-728. -/
def fields (dd mm yy tm tz : Str) : Except PyErr (Option Parsed) :=
  if dd = [] ∨ mm = [] ∨ yy = [] then .ok none
  else
    match dayMonth dd mm with
    | none => .ok none
    | some (dd, mm) =>
      match dropComma dd with
      | .error e => .error e
      | .ok dd =>
        let yy' := if colonInside yy then tm else yy
        let tm' := if colonInside yy then yy else tm
        match dropComma yy' with
        | .error e => .error e
        | .ok yy => if yy = [] then .ok none else finish dd mm yy tm' tz

/-- `parsedate_tz`.  Used for basic.py:694-728. -/
def parsedateTz (data : Str) : Except PyErr (Option Parsed) :=
  match Utils.words data with
  | [] => .ok none
  | ws =>
    match addZone (unhyphen (dropDay ws)) with
    | dd :: mm :: yy :: tm :: tz :: _ => fields dd mm yy tm tz
    | _ => .ok none

/-- `parse_date(value)`, basic.py:694-728. -/
def parseDate (value : Str) : Except PyErr (Option DateTime) :=
  if value = [] then .ok none
  else
    match parsedateTz (Py.strip value) with
    | .error e => .error e
    | .ok none => .ok none
    | .ok (some t) =>
      let year := if 0 ≤ t.year ∧ t.year ≤ 68 then t.year + 2000
        else if 69 ≤ t.year ∧ t.year ≤ 99 then t.year + 1900 else t.year
      match mkDateTime year t.month t.day t.hour t.minute t.second with
      | none => .ok none
      | some d => .ok (sub d t.zone)

end Verif.Date
