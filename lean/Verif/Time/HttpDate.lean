import Verif.Persist.FileModel
import Verif.Persist.Codec
/-!
Dates as text: `FormatDateTimeAsIMFFix`, `FormatDateTimeAsRFC850`, `FormatDateTime<UTC>`, their parsers
(bricks/time/chrono.h:159-312) and `ParseHTTPDate` (bricks/net/http/headers/headers.h:58-77), C81.

The C library (`gmtime_r`, `timegm`, `strftime`, `strptime`) is modelled here from its documented behaviour in
the "C" locale, as glibc implements it; `std::chrono::system_clock::duration` is nanoseconds, as in libstdc++.
Local time is not modelled.
-/
namespace Current.HttpDate
open Current.Persist

/-! ### The C library -/

/-- `struct tm`, as far as it is used: the year and the month count from 1900 and 0 in C; here `year` is the
year itself, `mon` is 0..11. -/
structure Tm where
  year : Nat := 1900
  mon : Nat := 0
  mday : Nat := 0
  hour : Nat := 0
  min : Nat := 0
  sec : Nat := 0
  wday : Nat := 0
deriving DecidableEq, Repr

def isLeap (y : Nat) : Bool := y % 4 = 0 && (y % 100 ≠ 0 || y % 400 = 0)

def yearLen (y : Nat) : Nat := if isLeap y then 366 else 365

def monthLens (y : Nat) : List Nat := [31, if isLeap y then 29 else 28, 31, 30, 31, 30, 31, 31, 30, 31, 30, 31]

/-- The year that day `n` (counted from the first day of year `y`) is in, and the day of that year. -/
def findYear : Nat → Nat → Nat → Nat × Nat
  | 0, y, n => (y, n)
  | f + 1, y, n => if n < yearLen y then (y, n) else findYear f (y + 1) (n - yearLen y)

/-- The month that a day of a year is in, and the day of that month, both from 0. -/
def findMonth : List Nat → Nat → Nat × Nat
  | [], n => (0, n)
  | l :: ls, n => if n < l then (0, n) else let r := findMonth ls (n - l); (r.1 + 1, r.2)

/-- 1970-01-01 counted from the first day of year 0. -/
def epochDay : Int := 719528

/-- `gmtime_r`, for the years from 0 on (glibc `__offtime`). -/
def gmtime (s : Int) : Tm :=
  let n := (s / 86400 + epochDay).toNat
  let r := (s % 86400).toNat
  let yd := findYear n 0 n
  let md := findMonth (monthLens yd.1) yd.2
  { year := yd.1, mon := md.1, mday := md.2 + 1, hour := r / 3600, min := r / 60 % 60, sec := r % 60, wday := (n + 6) % 7 }

/-- The number of days in the years before `y`. -/
def daysBeforeYear (y : Nat) : Nat := 365 * y + (y + 3) / 4 - (y + 99) / 100 + (y + 399) / 400

/-- `timegm`: the day of the month is not checked against the length of the month, the weekday is not used. -/
def timegm (t : Tm) : Int :=
  ((daysBeforeYear t.year : Int) + ((monthLens t.year).take t.mon).sum + t.mday - 1 - epochDay) * 86400 + t.hour * 3600 + t.min * 60 + t.sec

def abDays : List Str := [['S', 'u', 'n'], ['M', 'o', 'n'], ['T', 'u', 'e'], ['W', 'e', 'd'], ['T', 'h', 'u'], ['F', 'r', 'i'], ['S', 'a', 't']]

def fullDays : List Str :=
  [['S', 'u', 'n', 'd', 'a', 'y'], ['M', 'o', 'n', 'd', 'a', 'y'], ['T', 'u', 'e', 's', 'd', 'a', 'y'],
   ['W', 'e', 'd', 'n', 'e', 's', 'd', 'a', 'y'], ['T', 'h', 'u', 'r', 's', 'd', 'a', 'y'], ['F', 'r', 'i', 'd', 'a', 'y'],
   ['S', 'a', 't', 'u', 'r', 'd', 'a', 'y']]

def abMonths : List Str :=
  [['J', 'a', 'n'], ['F', 'e', 'b'], ['M', 'a', 'r'], ['A', 'p', 'r'], ['M', 'a', 'y'], ['J', 'u', 'n'],
   ['J', 'u', 'l'], ['A', 'u', 'g'], ['S', 'e', 'p'], ['O', 'c', 't'], ['N', 'o', 'v'], ['D', 'e', 'c']]

def fullMonths : List Str :=
  [['J', 'a', 'n', 'u', 'a', 'r', 'y'], ['F', 'e', 'b', 'r', 'u', 'a', 'r', 'y'], ['M', 'a', 'r', 'c', 'h'], ['A', 'p', 'r', 'i', 'l'],
   ['M', 'a', 'y'], ['J', 'u', 'n', 'e'], ['J', 'u', 'l', 'y'], ['A', 'u', 'g', 'u', 's', 't'],
   ['S', 'e', 'p', 't', 'e', 'm', 'b', 'e', 'r'], ['O', 'c', 't', 'o', 'b', 'e', 'r'], ['N', 'o', 'v', 'e', 'm', 'b', 'e', 'r'],
   ['D', 'e', 'c', 'e', 'm', 'b', 'e', 'r']]

/-- What a format string consists of. -/
inductive Item where
  /-- `%a` -/ | shortDay
  /-- `%A` -/ | longDay
  /-- `%b` -/ | month
  /-- `%d` -/ | mday
  /-- `%m` -/ | monthNo
  /-- `%Y` -/ | year
  /-- `%y` -/ | year2
  /-- `%H` -/ | hour
  /-- `%M` -/ | minute
  /-- `%S` -/ | second
  | lit (c : Char)
deriving DecidableEq, Repr

def itemOf : Char → Item
  | 'a' => .shortDay
  | 'A' => .longDay
  | 'b' => .month
  | 'd' => .mday
  | 'm' => .monthNo
  | 'Y' => .year
  | 'y' => .year2
  | 'H' => .hour
  | 'M' => .minute
  | 'S' => .second
  | c => .lit c

/-- The format string, read. -/
def items : Str → List Item
  | '%' :: c :: s => itemOf c :: items s
  | c :: s => .lit c :: items s
  | [] => []

/-- Two digits. -/
def two (n : Nat) : Str := if n < 10 then '0' :: dec n else dec n

def printItem (t : Tm) : Item → Str
  | .shortDay => abDays.getD t.wday ['?']
  | .longDay => fullDays.getD t.wday ['?']
  | .month => abMonths.getD t.mon ['?']
  | .mday => two t.mday
  | .monthNo => two (t.mon + 1)
  | .year => dec t.year
  | .year2 => two (t.year % 100)
  | .hour => two t.hour
  | .minute => two t.min
  | .second => two t.sec
  | .lit c => [c]

/-- `strftime` (the years are 1000..9999, all of four digits). -/
def strftime (fmt : Str) (t : Tm) : Str := (items fmt).flatMap (printItem t)

def lower (c : Char) : Char := if 'A' ≤ c ∧ c ≤ 'Z' then Char.ofNat (c.toNat + 32) else c

/-- `strncasecmp(name, s, strlen(name)) == 0`; what follows the name. -/
def nameAt : Str → Str → Option Str
  | [], s => some s
  | _ :: _, [] => none
  | a :: n, c :: s => if lower a = lower c then nameAt n s else none

/-- The full name, or else the short one. -/
def nameAny (full short : Str) (s : Str) : Option Str := (nameAt full s).orElse fun _ => nameAt short s

/-- The first of the names `s` starts with (no two of them can match the same text). -/
def findName : Nat → List Str → List Str → Str → Option (Nat × Str)
  | i, f :: fs, a :: as, s => match nameAny f a s with
    | some r => some (i, r)
    | none => findName (i + 1) fs as s
  | _, _, _, _ => none

/-- glibc `get_number(from, to, n)`, from its first digit on: `val` so far, `n` more digits at most. -/
def moreDigits (hi : Nat) : Nat → Nat → Str → Nat × Str
  | 0, v, s => (v, s)
  | n + 1, v, c :: s => if v * 10 ≤ hi ∧ c.isDigit then moreDigits hi n (v * 10 + (c.toNat - 48)) s else (v, c :: s)
  | _ + 1, v, [] => (v, [])

def firstDigit (lo hi n : Nat) : Str → Option (Nat × Str)
  | c :: s =>
    if c.isDigit then
      let r := moreDigits hi (n - 1) (c.toNat - 48) s
      if lo ≤ r.1 ∧ r.1 ≤ hi then some r else none
    else none
  | [] => none

def getNumber (lo hi n : Nat) (s : Str) : Option (Nat × Str) := firstDigit lo hi n (s.dropWhile (· = ' '))

def scanItem (t : Tm) (s : Str) : Item → Option (Tm × Str)
  | .shortDay | .longDay => (findName 0 fullDays abDays s).map fun p => ({ t with wday := p.1 }, p.2)
  | .month => (findName 0 fullMonths abMonths s).map fun p => ({ t with mon := p.1 }, p.2)
  | .mday => (getNumber 1 31 2 s).map fun p => ({ t with mday := p.1 }, p.2)
  | .monthNo => (getNumber 1 12 2 s).map fun p => ({ t with mon := p.1 - 1 }, p.2)
  | .year => (getNumber 0 9999 4 s).map fun p => ({ t with year := p.1 }, p.2)
  | .year2 => (getNumber 0 99 2 s).map fun p => ({ t with year := if p.1 ≥ 69 then 1900 + p.1 else 2000 + p.1 }, p.2)
  | .hour => (getNumber 0 23 2 s).map fun p => ({ t with hour := p.1 }, p.2)
  | .minute => (getNumber 0 59 2 s).map fun p => ({ t with min := p.1 }, p.2)
  | .second => (getNumber 0 61 2 s).map fun p => ({ t with sec := p.1 }, p.2)
  | .lit c => if isSpace c then some (t, s.dropWhile isSpace) else
    match s with
    | d :: s => if c = d then some (t, s) else none
    | [] => none

def scanItems : List Item → Tm → Str → Option (Tm × Str)
  | [], t, s => some (t, s)
  | i :: is, t, s => match scanItem t s i with
    | some (t, s) => scanItems is t s
    | none => none

/-- `strptime`, of which the code only asks whether it is null: what follows the date is not looked at. -/
def strptime (s fmt : Str) : Option Tm := (scanItems (items fmt) {} s).map (·.1)

/-! ### chrono.h -/

/-- A number of `n` units of `k` nanoseconds as `system_clock::duration`: 64-bit nanoseconds. Overflow is
undefined behaviour of C++; what it does on the processors in use is to wrap around. -/
def toNs (n k : Int) : Int := (n * k + 2 ^ 63) % 2 ^ 64 - 2 ^ 63

/-- chrono.h:193-194: `time_point<system_clock> tp(t); to_time_t(tp)`, which rounds toward zero. -/
def toTimeT (t : Int) : Int := Int.tdiv (toNs t 1000) 1000000000

/-- chrono.h:163. -/
def fmtIMF : Str := ['%', 'a', ',', ' ', '%', 'd', ' ', '%', 'b', ' ', '%', 'Y', ' ', '%', 'H', ':', '%', 'M', ':', '%', 'S', ' ', 'G', 'M', 'T']

/-- chrono.h:164. -/
def fmt850 : Str := ['%', 'A', ',', ' ', '%', 'd', '-', '%', 'b', '-', '%', 'y', ' ', '%', 'H', ':', '%', 'M', ':', '%', 'S', ' ', 'G', 'M', 'T']

/-- chrono.h:220: the default format. -/
def fmtDefault : Str := ['%', 'Y', '/', '%', 'm', '/', '%', 'd', ' ', '%', 'H', ':', '%', 'M', ':', '%', 'S']

/-- chrono.h:219-230, `FormatDateTime<UTC>`, with formats whose result fits into the 1025 characters. -/
def format (t : Int) (fmt : Str) : Str := strftime fmt (gmtime (toTimeT t))

/-- chrono.h:232-234. -/
def formatIMF (t : Int) : Str := format t fmtIMF

/-- chrono.h:236-238. -/
def format850 (t : Int) : Str := format t fmt850

/-- chrono.h:166. -/
inductive Padding where
  | lower
  | upper
deriving DecidableEq

/-- chrono.h:240-271, `DateTimeStringToTimestamp<UTC>`. -/
def parse (s fmt : Str) (p : Padding) : Int :=
  match strptime s fmt with
  | some tm =>
    let result := Int.tdiv (toNs (timegm tm) 1000000000) 1000
    match p with
    | .lower => result
    | .upper => result + (1000000 - 1)
  | none => 0

/-- headers.h:60-77; `none` is `InvalidHTTPDateException`. -/
def parseHTTPDate (s : Str) (p : Padding := .upper) : Option Int :=
  let t := parse s fmtIMF p
  if t ≠ 0 then some t
  else
    let t := parse s fmt850 p
    if t ≠ 0 then some t else none

/-! ### What is promised -/

/-- A day of the calendar: `month` is 1..12, `weekday` is 0 for Sunday. -/
structure Day where
  year : Nat
  month : Nat
  day : Nat
  weekday : Nat
deriving DecidableEq, Repr

/-- Gregorian leap years. -/
def LeapYear (y : Nat) : Prop := 4 ∣ y ∧ (100 ∣ y → 400 ∣ y)

instance (y : Nat) : Decidable (LeapYear y) := inferInstanceAs (Decidable (_ ∧ (_ → _)))

/-- Thirty days hath September, April, June and November. -/
def daysInMonth (y m : Nat) : Nat :=
  if m = 4 ∨ m = 6 ∨ m = 9 ∨ m = 11 then 30 else if m = 2 then (if LeapYear y then 29 else 28) else 31

def Day.Ok (d : Day) : Prop := 1 ≤ d.month ∧ d.month ≤ 12 ∧ 1 ≤ d.day ∧ d.day ≤ daysInMonth d.year d.month ∧ d.weekday < 7

instance (d : Day) : Decidable d.Ok := inferInstanceAs (Decidable (_ ∧ _ ∧ _ ∧ _ ∧ _))

/-- Tomorrow. -/
def Day.next (d : Day) : Day :=
  if d.day < daysInMonth d.year d.month then ⟨d.year, d.month, d.day + 1, (d.weekday + 1) % 7⟩
  else if d.month < 12 then ⟨d.year, d.month + 1, 1, (d.weekday + 1) % 7⟩
  else ⟨d.year + 1, 1, 1, (d.weekday + 1) % 7⟩

/-- The calendar: the first of January 1970 was a Thursday, and so on, in both directions. -/
inductive IsDay : Int → Day → Prop where
  | epoch : IsDay 0 ⟨1970, 1, 1, 4⟩
  | next {n : Int} {d : Day} : IsDay n d → IsDay (n + 1) d.next
  | prev {n : Int} {d : Day} : d.Ok → IsDay n d.next → IsDay (n - 1) d

end Current.HttpDate
