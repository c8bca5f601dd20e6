import Verif.Common
/-
Model of `src/base/TimeSpan.cpp` and `src/base/DateTime.cpp`.

`int` values are Lean integers within the `int` range; overflow of `int` arithmetic is `Out.ub`. `mktime` is
modelled by its contract for the UTC time zone (proleptic Gregorian calendar, out-of-range month, day and
clock fields carried over); its normalisation of the fields is `normMonth` for the month field only, which
is the field the properties look at. Not modelled: `localtime`/`addSeconds`, `parse`, formatted `toString`,
daylight saving.
-/
namespace Verif.Time
open Verif

/-- `n` is a C `int`. -/
def IsInt32 (n : Int) : Prop := -2147483648 ≤ n ∧ n ≤ 2147483647

instance (n : Int) : Decidable (IsInt32 n) := inferInstanceAs (Decidable (_ ∧ _))

/-- Result of `int` arithmetic. -/
def chk (n : Int) : Out Int := if IsInt32 n then .ok n else .ub

/-- Conversion of a 64-bit script integer to a C `int` parameter (two's complement truncation). -/
def toInt32 (n : Int) : Int := (n + 2147483648) % 4294967296 - 2147483648

/-! ### TimeSpan -/

/-- `TimeSpan.h`: the four fields. -/
structure TimeSpan where
  days : Int
  hours : Int
  minutes : Int
  seconds : Int
  deriving DecidableEq, Repr

/-- `TimeSpan::TimeSpan(int,int,int,int)`, `TimeSpan.cpp` 16-33. -/
def mkTimeSpan (days hours minutes seconds : Int) : Out TimeSpan :=
  if hours < -23 ∨ hours > 23 then .err
  else if minutes < -59 ∨ minutes > 59 then .err
  else if seconds < -59 ∨ seconds > 59 then .err
  else .ok ⟨days, hours, minutes, seconds⟩

/-- `TimeSpan::getTotalHours`, `TimeSpan.cpp` 55-58. -/
def getTotalHours (t : TimeSpan) : Out Int := do
  let a ← chk (t.days * 24)
  chk (a + t.hours)

/-- `TimeSpan::getTotalMinutes`, `TimeSpan.cpp` 60-63. -/
def getTotalMinutes (t : TimeSpan) : Out Int := do
  let a ← chk (t.days * 60)
  let a ← chk (a * 24)
  let b ← chk (t.hours * 60)
  let c ← chk (a + b)
  chk (c + t.minutes)

/-- `TimeSpan::getTotalSeconds`, `TimeSpan.cpp` 65-68. -/
def getTotalSeconds (t : TimeSpan) : Out Int := do
  let a ← chk (t.days * 60)
  let a ← chk (a * 60)
  let a ← chk (a * 24)
  let b ← chk (t.hours * 60)
  let b ← chk (b * 60)
  let c ← chk (a + b)
  let d ← chk (t.minutes * 60)
  let e ← chk (c + d)
  chk (e + t.seconds)

/-- `operator<(TimeSpan,TimeSpan)`, `TimeSpan.cpp` 70-95. -/
def tsLt (a b : TimeSpan) : Bool :=
  if a.days < b.days then true
  else if a.days > b.days then false
  else if a.hours < b.hours then true
  else if a.hours > b.hours then false
  else if a.minutes < b.minutes then true
  else if a.minutes > b.minutes then false
  else if a.seconds < b.seconds then true
  else false

/-- `TimeSpan.cpp` 97-100. -/
def tsGt (a b : TimeSpan) : Bool := tsLt b a
/-- `TimeSpan.cpp` 102-105. -/
def tsLe (a b : TimeSpan) : Bool := !tsGt a b
/-- `TimeSpan.cpp` 107-110. -/
def tsGe (a b : TimeSpan) : Bool := !tsLt a b
/-- `TimeSpan.cpp` 112-118. -/
def tsEq (a b : TimeSpan) : Bool :=
  a.days == b.days && a.hours == b.hours && a.minutes == b.minutes && a.seconds == b.seconds
/-- `TimeSpan.cpp` 120-123. -/
def tsNe (a b : TimeSpan) : Bool := !tsEq a b

/-! ### DateTime -/

/-- `struct tm` fields used (`DateTime.h` 58, `<ctime>`). -/
structure Tm where
  year : Int
  mon : Int
  mday : Int
  hour : Int
  min : Int
  sec : Int
  deriving DecidableEq, Repr

/-- `DateTime::period`, `DateTime.h` 13. -/
inductive Period where
  | undefined | am | pm
  deriving DecidableEq, Repr

/-- `DateTime::_isLeapYear`, `DateTime.cpp` 130-133 (C remainder). -/
def isLeapYear (year : Int) : Bool :=
  (Int.tmod year 4 == 0 && Int.tmod year 100 != 0) || Int.tmod year 400 == 0

/-- `DateTime.cpp` 40-61: check the hour and convert it to 24-hour form. -/
def hour24 (p : Period) (hour : Int) : Out Int :=
  match p with
  | .undefined => if hour < 0 ∨ hour > 23 then .err else .ok hour
  | p =>
    if hour < 1 ∨ hour > 12 then .err
    else if hour = 12 ∧ p = .am then .ok 0
    else if p = .pm ∧ hour < 12 then .ok (hour + 12)
    else .ok hour

/-- `DateTime::DateTime(int,int,int,int,int,int,period)`, `DateTime.cpp` 19-77. The fields satisfy the
calendar ranges, so the normalisation of the final `mktime` call leaves them unchanged (UTC). -/
def mkDateTime (year month day hour minute second : Int) (p : Period) : Out Tm :=
  if month < 1 ∨ month > 12 then .err
  else if day < 1 then .err
  else if (month = 1 ∨ month = 3 ∨ month = 5 ∨ month = 7 ∨ month = 8 ∨ month = 10 ∨ month = 12) ∧ day > 31 then .err
  else if (month = 4 ∨ month = 6 ∨ month = 9 ∨ month = 11) ∧ day > 30 then .err
  else if month = 2 ∧ isLeapYear year = true ∧ day > 29 then .err
  else if month = 2 ∧ ¬ isLeapYear year = true ∧ day > 28 then .err
  else
    (hour24 p hour).bind fun hour =>
    if minute < 0 ∨ minute > 59 then .err
    else if second < 0 ∨ second > 59 then .err
    else (chk (year - 1900)).map fun y => ⟨y, month - 1, day, hour, minute, second⟩

/-- `DateTimeModule_constructor`, `module/DateTimeModule.cpp` 16-35: the script constructor passes its 64-bit
integers to `int` parameters. -/
def newDateTime (year month day hour minute second : Int) : Out Tm :=
  mkDateTime (toInt32 year) (toInt32 month) (toInt32 day) (toInt32 hour) (toInt32 minute) (toInt32 second) .undefined

/-- `DateTime::getYear`/`getMonth`, `DateTime.cpp` 285-293. -/
def getYear (t : Tm) : Int := t.year + 1900
def getMonth (t : Tm) : Int := t.mon + 1

/-- `DateTime::addYears`, `DateTime.cpp` 330-333. -/
def addYears (t : Tm) (n : Int) : Out Tm := (chk (t.year + n)).map fun y => { t with year := y }

/-- `DateTime::addMonths`, `DateTime.cpp` 335-351 (`nb_months / 12` is integer division, so `ceil` does
nothing). -/
def addMonths (t : Tm) (n : Int) : Out Tm :=
  let nbYear := Int.tdiv n 12
  let nbMonths := Int.tmod n 12
  if t.mon + nbMonths > 11 then
    (chk (t.year + (nbYear + 1))).map fun y => { t with mon := t.mon + nbMonths - 12, year := y }
  else
    (chk (t.year + nbYear)).map fun y => { t with mon := t.mon + nbMonths, year := y }

/-! ### `mktime` contract -/

/-- Days before the first of (zero-based) month `m` in a year. -/
def monthStart (leap : Bool) : Nat → Int
  | 0 => 0
  | 1 => 31
  | 2 => 59 + leap.toInt
  | 3 => 90 + leap.toInt
  | 4 => 120 + leap.toInt
  | 5 => 151 + leap.toInt
  | 6 => 181 + leap.toInt
  | 7 => 212 + leap.toInt
  | 8 => 243 + leap.toInt
  | 9 => 273 + leap.toInt
  | 10 => 304 + leap.toInt
  | _ => 334 + leap.toInt

/-- Days from 0001-01-01 to the first of January of the year. -/
def yearStart (y : Int) : Int := 365 * (y - 1) + (y - 1) / 4 - (y - 1) / 100 + (y - 1) / 400

/-- C library `mktime` (UTC), seconds since 0001-01-01 instead of 1970-01-01 (a constant shift). The month is
carried into the year. -/
def mktime (t : Tm) : Int :=
  let y := t.year + 1900 + t.mon / 12
  let m := (t.mon % 12).toNat
  ((((yearStart y + monthStart (isLeapYear y) m + t.mday - 1) * 24 + t.hour) * 60) + t.min) * 60 + t.sec

/-- `operator<`, `DateTime.cpp` 518-521. -/
def dtLt (a b : Tm) : Bool := mktime a < mktime b
/-- `operator>`, `DateTime.cpp` 523-526. -/
def dtGt (a b : Tm) : Bool := mktime b < mktime a
/-- `operator<=`, `DateTime.cpp` 528-531. -/
def dtLe (a b : Tm) : Bool := !(decide (mktime a > mktime b))
/-- `operator>=`, `DateTime.cpp` 533-536. -/
def dtGe (a b : Tm) : Bool := !(decide (mktime a < mktime b))
/-- `operator==`, `DateTime.cpp` 538-541. -/
def dtEq (a b : Tm) : Bool := mktime a == mktime b
/-- `operator!=`, `DateTime.cpp` 543-546. -/
def dtNe (a b : Tm) : Bool := !(mktime a == mktime b)

/-- `operator-(DateTime,DateTime)`, `DateTime.cpp` 548-592. `difftime/86400` truncated to `int`: modelled as
truncated integer division (exact for differences below 2^53 seconds). -/
def dtSub (a b : Tm) : Out TimeSpan :=
  (chk (Int.tdiv (mktime a - mktime b) 86400)).bind fun days =>
  if dtGe a b then
    mkTimeSpan days (a.hour - b.hour) (a.min - b.min) (a.sec - b.sec)
  else
    let (seconds, minutes) := if a.sec > b.sec then (a.sec - b.sec - 60, (1 : Int)) else (a.sec - b.sec, 0)
    let (minutes, hours) :=
      if a.min > b.min then (minutes + (a.min - b.min - 60), (1 : Int)) else (minutes + (a.min - b.min), 0)
    let hours := if a.hour > b.hour then hours + (a.hour - b.hour - 24) else hours + (a.hour - b.hour)
    mkTimeSpan days hours minutes seconds

end Verif.Time
