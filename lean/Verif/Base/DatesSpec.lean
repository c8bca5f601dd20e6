import Verif.Base.TimeProps
import Verif.Base.Dates
/-
Specification of dates: days of the calendar that follow each other, days of the week that follow each other, the clock.
-/
namespace Verif.Dates
open Verif Verif.Time

/-- A day of the calendar. -/
structure Day where
  y : Int
  m : Int
  d : Int
  deriving DecidableEq, Repr

def Day.Real (d : Day) : Prop := (1 ≤ d.m ∧ d.m ≤ 12) ∧ 1 ≤ d.d ∧ d.d ≤ daysIn d.y d.m

/-- The day after. -/
def Day.next (d : Day) : Day :=
  if d.d < daysIn d.y d.m then ⟨d.y, d.m, d.d + 1⟩
  else if d.m < 12 then ⟨d.y, d.m + 1, 1⟩
  else ⟨d.y + 1, 1, 1⟩

/-- The day before. -/
def Day.prev (d : Day) : Day :=
  if 1 < d.d then ⟨d.y, d.m, d.d - 1⟩
  else if 1 < d.m then ⟨d.y, d.m - 1, daysIn d.y (d.m - 1)⟩
  else ⟨d.y - 1, 12, 31⟩

def Day.later (d : Day) : Nat → Day
  | 0 => d
  | n + 1 => (d.later n).next

def Day.earlier (d : Day) : Nat → Day
  | 0 => d
  | n + 1 => (d.earlier n).prev

/-- So many days later, or earlier if negative. -/
def Day.shift (d : Day) (n : Int) : Day := if 0 ≤ n then d.later n.toNat else d.earlier (-n).toNat

/-- Days of the week, 0 = Sunday: 1970-01-01 was a Thursday, and they follow each other. -/
inductive Weekday : Day → Int → Prop
  | epoch : Weekday ⟨1970, 1, 1⟩ 4
  | next {d w} : Weekday d w → Weekday d.next ((w + 1) % 7)
  | prev {d w} : Weekday d w → Weekday d.prev ((w + 6) % 7)

/-- How many seconds. -/
def Span.seconds : Span → Int
  | .second => 1
  | .minute => 60
  | .hour => 3600
  | .day => 86400

/-- A day, the seconds since midnight, and whether the day has not been set by `addMonths` or `addYears` since. -/
structure Spec where
  day : Day
  clock : Int
  fresh : Bool
  deriving DecidableEq, Repr

/-- What is expected. -/
def Spec.step (S : Spec) : Op → Spec
  | .add u n => ⟨S.day.shift ((S.clock + n * u.seconds) / 86400), (S.clock + n * u.seconds) % 86400, true⟩
  | .addMonths n => ⟨⟨S.day.y + (S.day.m - 1 + n) / 12, (S.day.m - 1 + n) % 12 + 1, S.day.d⟩, S.clock, false⟩
  | .addYears n => ⟨⟨S.day.y + n, S.day.m, S.day.d⟩, S.clock, false⟩
  | .sub => { S with fresh := true }

def Spec.run (S : Spec) : List Op → Spec
  | [] => S
  | op :: ops => (S.step op).run ops

/-- Where the code does it: spans of less than 2^31 seconds, years that fit, days that exist in the new month, months that are counted
back within a year. -/
def Spec.Fine (S : Spec) : Op → Prop
  | .add u n => IsInt32 n ∧ IsInt32 (n * u.seconds) ∧ IsInt32 ((S.step (.add u n)).day.y - 1900)
  | .addMonths n => IsInt32 n ∧ 0 ≤ S.day.m - 1 + Int.tmod n 12 ∧ (S.step (.addMonths n)).day.Real ∧
      IsInt32 ((S.step (.addMonths n)).day.y - 1900)
  | .addYears n => IsInt32 n ∧ (S.step (.addYears n)).day.Real ∧ IsInt32 ((S.step (.addYears n)).day.y - 1900)
  | .sub => True

def Spec.FineAll (S : Spec) : List Op → Prop
  | [] => True
  | op :: ops => S.Fine op ∧ (S.step op).FineAll ops

/-- The getters give the day and the clock. -/
def Reads (t : Dt) (S : Spec) : Prop :=
  t.tm.year + 1900 = S.day.y ∧ t.tm.mon + 1 = S.day.m ∧ t.tm.mday = S.day.d ∧ t.tm.hour * 3600 + t.tm.min * 60 + t.tm.sec = S.clock ∧
    (0 ≤ t.tm.hour ∧ t.tm.hour ≤ 23) ∧ (0 ≤ t.tm.min ∧ t.tm.min ≤ 59) ∧ (0 ≤ t.tm.sec ∧ t.tm.sec ≤ 59)

/-- The day of the week is the one of the day, and the day of the year counts the days from the first of January. -/
def Named (t : Dt) (d : Day) : Prop := Weekday d t.wday ∧ 0 ≤ t.yday ∧ Day.later ⟨d.y, 1, 1⟩ t.yday.toNat = d

end Verif.Dates
