/-
Specification of dates as texts: what the fields of a format mean.
-/
import Verif.Base.DateText

namespace Verif.DateText
open Verif Verif.Time

/-- A date and a time of the day. -/
structure When where
  year : Nat
  month : Nat
  day : Nat
  hour : Nat
  minute : Nat
  second : Nat
  deriving DecidableEq, Repr

def leap (y : Nat) : Prop := (y % 4 = 0 ∧ y % 100 ≠ 0) ∨ y % 400 = 0

instance (y : Nat) : Decidable (leap y) := inferInstanceAs (Decidable (_ ∨ _))

def monthLength (y m : Nat) : Nat :=
  if m = 2 then (if leap y then 29 else 28)
  else if m = 4 ∨ m = 6 ∨ m = 9 ∨ m = 11 then 30
  else 31

/-- It exists in the calendar and on the clock, with a year of at most four digits. -/
def When.Real (d : When) : Prop :=
  d.year ≤ 9999 ∧ (1 ≤ d.month ∧ d.month ≤ 12) ∧ (1 ≤ d.day ∧ d.day ≤ monthLength d.year d.month) ∧
    d.hour ≤ 23 ∧ d.minute ≤ 59 ∧ d.second ≤ 59

/-- The date of the engine that it is. -/
def When.tm (d : When) : Tm := ⟨d.year - 1900, d.month - 1, d.day, d.hour, d.minute, d.second⟩

/-- Numbers of a fixed number of digits. -/
def last (n : Nat) : Char := Nat.digitChar (n % 10)
def two (n : Nat) : Text := [last (n / 10), last n]
def four (n : Nat) : Text := [last (n / 1000), last (n / 100), last (n / 10), last n]
def oneOrTwo (n : Nat) : Text := if n < 10 then [last n] else two n

/-- The hour on a clock with twelve hours. -/
def on12 (h : Nat) : Nat := if h % 12 = 0 then 12 else h % 12

/-- A format is a row of runs: one character so many times. -/
abbrev Run := Char × Nat

def formatText (rs : List Run) : Text := rs.flatMap fun r => List.replicate r.2 r.1

/-- A run stands for itself only if its neighbours are other characters. -/
def Apart : List Run → Prop
  | [] => True
  | [r] => 1 ≤ r.2
  | r :: q :: rs => 1 ≤ r.2 ∧ r.1 ≠ q.1 ∧ Apart (q :: rs)

/-! ### Reading -/

/-- The fields that can be read. -/
inductive Field where
  | year | month | day | hour24 | hour12 | minute | second | half
  deriving DecidableEq, Repr

def fieldOf (r : Run) : Option Field :=
  if r = ('y', 4) then some .year
  else if r = ('M', 2) then some .month
  else if r = ('d', 2) then some .day
  else if r = ('H', 2) then some .hour24
  else if r = ('h', 2) then some .hour12
  else if r = ('m', 2) then some .minute
  else if r = ('s', 2) then some .second
  else if r = ('t', 2) then some .half
  else none

/-- How a field of a date is written. -/
def Field.text (d : When) : Field → Text
  | .year => four d.year
  | .month => two d.month
  | .day => two d.day
  | .hour24 => two d.hour
  | .hour12 => two (on12 d.hour)
  | .minute => two d.minute
  | .second => two d.second
  | .half => if d.hour < 12 then "AM".toList else "PM".toList

/-- `t` is what a date has where the format has the run: the field, or any text as long as the run. -/
def Says (d : When) (r : Run) (t : Text) : Prop :=
  match fieldOf r with
  | some k => t = k.text d
  | none => t.length = r.2

/-- The same for a whole format. -/
def SaysAll (d : When) : List Run → List Text → Prop
  | [], [] => True
  | r :: rs, t :: ts => Says d r t ∧ SaysAll d rs ts
  | _, _ => False

def Names (rs : List Run) (k : Field) : Prop := ∃ r ∈ rs, fieldOf r = some k

/-- The format gives the hour in one way. -/
def Sound (rs : List Run) : Prop :=
  ¬ (Names rs .hour24 ∧ Names rs .hour12) ∧ (Names rs .half → Names rs .hour12)

/-- What the format does not name is the first of January 1970, midnight; without AM or PM it is the morning. -/
def Told (rs : List Run) (d : When) : Prop :=
  (Names rs .year ∨ d.year = 1970) ∧ (Names rs .month ∨ d.month = 1) ∧ (Names rs .day ∨ d.day = 1) ∧
  (Names rs .minute ∨ d.minute = 0) ∧ (Names rs .second ∨ d.second = 0) ∧
  (Names rs .hour24 ∨ (Names rs .hour12 ∧ (Names rs .half ∨ d.hour < 12)) ∨ d.hour = 0)

/-- No hour of a clock with twelve hours comes after AM or PM. -/
def Ordered : List Run → Prop
  | [] => True
  | r :: rs => (fieldOf r = some .half → ¬ Names rs .hour12) ∧ Ordered rs

/-- Reading a text `ts` written as the format `rs` says gives the date. -/
def ReadsBack (rs : List Run) (ts : List Text) (d : When) : Prop :=
  parse (formatText rs) ts.flatten = .ok d.tm

/-! ### Writing -/

/-- What a run of a format is to be written as: `none` if it has no meaning. -/
def writes (d : When) (r : Run) : Option Text :=
  if r = ('y', 4) then some (four d.year)
  else if r = ('y', 2) then some (two (d.year % 100))
  else if r = ('M', 2) then some (two d.month)
  else if r = ('M', 1) then some (oneOrTwo d.month)
  else if r = ('d', 2) then some (two d.day)
  else if r = ('d', 1) then some (oneOrTwo d.day)
  else if r = ('H', 2) then some (two d.hour)
  else if r = ('H', 1) then some (oneOrTwo d.hour)
  else if r = ('h', 2) then some (two (on12 d.hour))
  else if r = ('h', 1) then some (oneOrTwo (on12 d.hour))
  else if r = ('m', 2) then some (two d.minute)
  else if r = ('m', 1) then some (oneOrTwo d.minute)
  else if r = ('s', 2) then some (two d.second)
  else if r = ('s', 1) then some (oneOrTwo d.second)
  else if r = ('t', 2) then some (if d.hour < 12 then "AM".toList else "PM".toList)
  else if r.1.isAlpha then none
  else some (List.replicate r.2 r.1)

/-- The text of a date in a format. -/
def written (d : When) (rs : List Run) : Text := rs.flatMap fun r => (writes d r).getD []

/-- The format ends with a single letter that follows another letter. -/
def Clipped (rs : List Run) : Prop :=
  ∃ pre c n x, rs = pre ++ [(c, n), (x, 1)] ∧ Char.isAlpha c = true ∧ Char.isAlpha x = true

end Verif.DateText
