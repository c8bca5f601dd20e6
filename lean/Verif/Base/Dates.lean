import Verif.Base.Time
/-
Model of dates over their life: made by the constructor, moved by `addSeconds`, `addMinutes`, `addHours`, `addDays`, `addMonths` and
`addYears`, subtracted (`src/base/DateTime.cpp` 19-77, 299-386, 548-560, `src/module/DateTimeModule.cpp` 16-86).

On top of `Verif.Base.Time`. Simplifications: the local time zone is UTC, without summer time; `now` and `setUtc` are not modelled.
-/
namespace Verif.Dates
open Verif Verif.Time

/-- A date: the fields of `struct tm` that are read. -/
structure Dt where
  tm : Tm
  wday : Int
  yday : Int
  deriving DecidableEq, Repr

/-- The month (from zero) of a day (from zero) of a year. -/
def monthIndex (leap : Bool) (doy : Int) : Nat :=
  if doy < monthStart leap 1 then 0
  else if doy < monthStart leap 2 then 1
  else if doy < monthStart leap 3 then 2
  else if doy < monthStart leap 4 then 3
  else if doy < monthStart leap 5 then 4
  else if doy < monthStart leap 6 then 5
  else if doy < monthStart leap 7 then 6
  else if doy < monthStart leap 8 then 7
  else if doy < monthStart leap 9 then 8
  else if doy < monthStart leap 10 then 9
  else if doy < monthStart leap 11 then 10
  else 11

/-- The year and the day in it (from zero) of a day counted from 0001-01-01, by cycles of 400, 100, 4 years and one. -/
def civil (n : Int) : Int × Int :=
  let q := n / 146097
  let r := n % 146097
  let c := min (r / 36524) 3
  let r2 := r - c * 36524
  let f := r2 / 1461
  let r3 := r2 - f * 1461
  let y := min (r3 / 365) 3
  (400 * q + 100 * c + 4 * f + y + 1, r3 - 365 * y)

/-- C library `localtime` (UTC), of seconds since 0001-01-01 as in `Verif.Time.mktime`. It gives NULL, which is then dereferenced by
`_copyFrom`, if the year does not fit. -/
def localtime (n : Int) : Out Dt :=
  let day := n / 86400
  let s := n % 86400
  let (y, doy) := civil day
  let m := monthIndex (isLeapYear y) doy
  (chk (y - 1900)).map fun ty =>
    { tm := ⟨ty, m, doy - monthStart (isLeapYear y) m + 1, s / 3600, s / 60 % 60, s % 60⟩, wday := (day + 1) % 7, yday := doy }

/-- What `mktime` does to its argument: the fields are brought into range, day of week and of year are set. -/
def normalise (t : Tm) : Out Dt := localtime (mktime t)

/-- `new DateTime(y, mo, d, h, mi, s)`: `DateTimeModule.cpp` 16-35 and `DateTime.cpp` 19-77, with the last line. -/
def make (y mo d h mi s : Int) : Out Dt := (newDateTime y mo d h mi s).bind normalise

/-- Which of `addSeconds`, `addMinutes`, `addHours`, `addDays`. -/
inductive Span where
  | second | minute | hour | day
  deriving DecidableEq, Repr

/-- `DateTime::addSeconds`, `DateTime.cpp` 374-386, of an `int`. -/
def addSeconds (t : Dt) (n : Int) : Out Dt := localtime (mktime t.tm + n)

/-- `DateTimeModule_add*`, `DateTimeModule.cpp` 54-72: 64-bit integers to `int`; `DateTime.cpp` 353-366: a product of two `int`. -/
def add (t : Dt) (u : Span) (n : Int) : Out Dt :=
  match u with
  | .second => addSeconds t (toInt32 n)
  | .minute => (chk (toInt32 n * 60)).bind (addSeconds t)
  | .hour => (chk (toInt32 n * 3600)).bind (addSeconds t)
  | .day => (chk (toInt32 n * 86400)).bind (addSeconds t)

/-- What scripts do with a date. -/
inductive Op where
  | add (u : Span) (n : Int)
  | addMonths (n : Int)
  | addYears (n : Int)
  /-- it is subtracted from another one, or another one from it -/
  | sub
  deriving DecidableEq, Repr

/-- One of these: `addMonths` and `addYears` change fields only (`Verif.Time.addMonths`, `addYears`); subtraction calls `mktime` with both
operands (`DateTime.cpp` 553-554). -/
def step (t : Dt) : Op → Out Dt
  | .add u n => add t u n
  | .addMonths n => (addMonths t.tm (toInt32 n)).map fun m => { t with tm := m }
  | .addYears n => (addYears t.tm (toInt32 n)).map fun m => { t with tm := m }
  | .sub => normalise t.tm

/-- A life. -/
def run (t : Dt) : List Op → Out Dt
  | [] => .ok t
  | op :: ops => (step t op).bind fun t1 => run t1 ops

end Verif.Dates
