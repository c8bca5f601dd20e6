/-
Model of dates as texts: `DateTime::toString`, `DateTime::toString(format)`, `DateTime::parse` (src/base/DateTime.cpp).
Texts have no zero byte in them; formats are shorter than 32768 bytes (`toLowerCase` counts in a `short`, see C10).
-/
import Verif.Common
import Verif.Base.Time

namespace Verif.DateText
open Verif Verif.Time

abbrev Text := List Char

/-! ### Numbers in texts: `sprintf` and `strtol` by their C contract -/

/-- A digit. -/
def digit (n : Nat) : Char := Char.ofNat (48 + n % 10)

/-- The decimal digits of a number; `fuel` bounds their number. -/
def decimals : Nat → Nat → Text
  | 0, _ => []
  | fuel + 1, n => if n < 10 then [digit n] else decimals fuel (n / 10) ++ [digit n]

/-- `sprintf` with `%0wd`; `%d` is `w = 0`. Ten digits are enough for an `int`. -/
def sprintD (w : Nat) (n : Int) : Text :=
  let d := decimals 10 n.natAbs
  if n < 0 then '-' :: (List.replicate (w - 1 - d.length) '0' ++ d) else List.replicate (w - d.length) '0' ++ d

/-- The value of a digit. -/
def digitVal (c : Char) : Option Nat := if '0' ≤ c ∧ c ≤ '9' then some (c.toNat - 48) else none

/-- The digits at the start of a text: their value, and how many there are. -/
def digitsVal : Nat → Text → Nat × Nat
  | acc, [] => (acc, 0)
  | acc, c :: r =>
    match digitVal c with
    | none => (acc, 0)
    | some v => ((digitsVal (10 * acc + v) r).1, (digitsVal (10 * acc + v) r).2 + 1)

/-- Blanks of the C locale (`isspace`). -/
def isSpace (c : Char) : Bool := c = ' ' ∨ ('\t' ≤ c ∧ c ≤ '\r')

/-- `strtol` with base ten: blanks, a sign, digits; `none` if there are no digits. The texts that it is given here are too
short for an overflow. -/
def strtol (t : Text) : Option Int :=
  let t := t.dropWhile isSpace
  let s := match t with
    | '-' :: r => (true, r)
    | '+' :: r => (false, r)
    | _ => (false, t)
  let g := digitsVal 0 s.2
  if g.2 = 0 then none else some (if s.1 then -(g.1 : Int) else g.1)

/-- The letters of formats, DateTime.cpp 161-162, 420-421. -/
def isLetter (c : Char) : Bool := ('a' ≤ c ∧ c ≤ 'z') ∨ ('A' ≤ c ∧ c ≤ 'Z')

/-! ### Writing -/

/-- `DateTime::toString()`, DateTime.cpp 135-147. -/
def toText (t : Tm) : Text :=
  sprintD 0 (getYear t) ++ ['-'] ++ sprintD 2 (getMonth t) ++ ['-'] ++ sprintD 2 t.mday ++ [' '] ++
    sprintD 2 t.hour ++ [':'] ++ sprintD 2 t.min ++ [':'] ++ sprintD 2 t.sec

/-- The hour on a clock with twelve hours, DateTime.cpp 206-237; `w` is the width. -/
def hour12 (w : Nat) (h : Int) : Text :=
  if h = 0 then "12".toList else if h > 12 then sprintD w (h - 12) else sprintD w h

/-- What a pattern is replaced by, DateTime.cpp 175-262. -/
def render (t : Tm) (p : Text) : Text :=
  if p = "yyyy".toList then sprintD 4 (getYear t)
  else if p = "yy".toList then sprintD 2 (Int.tmod (getYear t) 100)
  else if p = "MM".toList then sprintD 2 (getMonth t)
  else if p = "M".toList then sprintD 1 (getMonth t)
  else if p = "dd".toList then sprintD 2 t.mday
  else if p = "d".toList then sprintD 1 t.mday
  else if p = "HH".toList then sprintD 2 t.hour
  else if p = "H".toList then sprintD 1 t.hour
  else if p = "hh".toList then hour12 2 t.hour
  else if p = "h".toList then hour12 1 t.hour
  else if p = "mm".toList then sprintD 2 t.min
  else if p = "m".toList then sprintD 1 t.min
  else if p = "ss".toList then sprintD 2 t.sec
  else if p = "s".toList then sprintD 1 t.sec
  else if p = "tt".toList then (if t.hour ≥ 12 then "PM".toList else "AM".toList)
  else []

/-- `Character::toLowerCase`. -/
def lower (c : Char) : Char := if 'A' ≤ c ∧ c ≤ 'Z' then Char.ofNat (c.toNat + 32) else c

/-- DateTime.cpp 160-171: a letter extends the pattern, or begins one. -/
def extend (p : Text) (c : Char) : Text :=
  if isLetter c then
    if p = [] then [c] else if p.getLast? = some c then p ++ [c] else p
  else p

/-- One character of the format, DateTime.cpp 159-272: the pattern that is being read and what has been written so far;
`last`: it is the last character. -/
def fmtStep (t : Tm) (last : Bool) (c : Char) (s : Text × Text) : Text × Text :=
  let p := extend s.1 c
  let s := if p ≠ [] ∧ (p.getLast? ≠ some c ∨ last) then (([] : Text), s.2 ++ render t p) else (p, s.2)
  if ¬ isLetter c then (s.1, s.2 ++ [c])
  else if s.1 = [] then ([c], s.2)
  else s

/-- The loop of DateTime.cpp 158-273. -/
def fmtLoop (t : Tm) : Text → Text × Text → Text × Text
  | [], s => s
  | c :: r, s => fmtLoop t r (fmtStep t r.isEmpty c s)

/-- `DateTime::toString(format)`, DateTime.cpp 149-276. -/
def format (t : Tm) (f : Text) : Text :=
  if f = [] then toText t else (fmtLoop t (f.map lower) ([], [])).2

/-! ### Reading -/

/-- What `DateTime::parse` has found, DateTime.cpp 407-416. -/
structure Found where
  year : Int := 1970
  month : Int := 1
  day : Int := 1
  hour : Int := 0
  minute : Int := 0
  second : Int := 0
  period : Period := .undefined
  deriving DecidableEq, Repr

/-- The local variables of `DateTime::parse`. -/
structure PSt where
  pat : Text
  first : Nat
  letter : Bool
  found : Found
  deriving DecidableEq, Repr

/-- `_parseIntValue`, DateTime.cpp 485-500. -/
def intAt (value : Text) (i n : Nat) : Out Int :=
  match strtol ((value.drop i).take n) with
  | none => .err
  | some v => .ok v

/-- A pattern that has come to its end, DateTime.cpp 434-472. -/
def take (value : Text) (i : Nat) (p : Text) (f : Found) : Out Found :=
  if i + p.length ≤ value.length then
    if p = "yyyy".toList then (intAt value i 4).map fun v => { f with year := v }
    else if p = "MM".toList then (intAt value i 2).map fun v => { f with month := v }
    else if p = "dd".toList then (intAt value i 2).map fun v => { f with day := v }
    else if p = "HH".toList then (intAt value i 2).map fun v => { f with hour := v }
    else if p = "hh".toList then (intAt value i 2).map fun v => { f with hour := v, period := .am }
    else if p = "mm".toList then (intAt value i 2).map fun v => { f with minute := v }
    else if p = "ss".toList then (intAt value i 2).map fun v => { f with second := v }
    else if p = "tt".toList then
      if (value.drop i).take 2 = "AM".toList then .ok { f with period := .am }
      else if (value.drop i).take 2 = "PM".toList then .ok { f with period := .pm }
      else .err
    else .ok f
  else .ok f

/-- DateTime.cpp 419-431: a letter extends the pattern, or begins one, and is remembered for good. -/
def note (i : Nat) (c : Char) (s : PSt) : PSt :=
  if isLetter c then
    { s with letter := true, pat := extend s.pat c, first := if s.pat = [] then i else s.first }
  else s

/-- One character of the format, DateTime.cpp 417-480. `pattern_temp[-1]` of an empty pattern is an exception
(String.cpp 174-179). -/
def parseStep (value : Text) (i : Nat) (last : Bool) (c : Char) (s : PSt) : Out PSt :=
  let s := note i c s
  match s.pat.getLast? with
  | none => .err
  | some l =>
    (if c ≠ l ∨ last then (take value s.first s.pat s.found).map fun f => { s with pat := [], found := f }
      else .ok s).map fun s => if s.letter ∧ s.pat = [] then { s with pat := [c], first := i } else s

/-- The loop of DateTime.cpp 417-480. -/
def parseLoop (value : Text) : Nat → Text → PSt → Out PSt
  | _, [], s => .ok s
  | i, c :: r, s => (parseStep value i r.isEmpty c s).bind fun s => parseLoop value (i + 1) r s

/-- `DateTime::parse`, DateTime.cpp 405-483. -/
def parse (f value : Text) : Out Tm :=
  if f = [] then .err
  else (parseLoop value 0 f ⟨[], 0, false, {}⟩).bind fun s =>
    mkDateTime s.found.year s.found.month s.found.day s.found.hour s.found.minute s.found.second s.found.period

end Verif.DateText
