import Verif.Base.Integer
import Verif.Vm.Float
/-
Text of floating point numbers: `src/base/Float.cpp`. `zs_float` is `double` on a 64-bit platform.

The C library is taken at its word: `sprintf("%f")` prints the exact value rounded to six decimals (ties to even), `strtof`
returns the nearest `float` (ties to even) and sets `errno` to `ERANGE` for an overflow and for an inexact result below
the smallest normal `float`. Locale: "C".
-/
namespace Verif.FloatText
open Verif.Str (Bytes lowerChar)
open Verif.Integer (isDigit isHexaDigit digitVal strtoDigits isSpace)
open Verif.Vm (Word)
open Verif.Vm.Ieee

/-! ### Printing -/

/-- `n / d` rounded to the nearest natural number, ties to even. -/
def nearest (n d : Nat) : Nat :=
  let q := n / d
  let r := n % d
  if d < 2 * r ∨ (2 * r = d ∧ q % 2 = 1) then q + 1 else q

/-- The decimal digits of `n`, with at most this number of steps. -/
def natText : Nat → Nat → Bytes
  | 0, _ => []
  | f + 1, n => if n < 10 then [UInt8.ofNat (48 + n)] else natText f (n / 10) ++ [UInt8.ofNat (48 + n % 10)]

/-- The last `k` decimal digits of `n`. -/
def lastDigits : Nat → Nat → Bytes
  | 0, _ => []
  | k + 1, n => lastDigits k (n / 10) ++ [UInt8.ofNat (48 + n % 10)]

/-- `Float::toString` (`Float.cpp` 32–39): `sprintf("%f")`. The buffer of 100000 bytes holds every `double` (at most 309
digits before the point). -/
def toText (w : Word) : Bytes :=
  (if neg? w then [45] else []) ++
    (if isNaN w then [110, 97, 110]
     else if isInf w then [105, 110, 102]
     else
       let n := nearest (mag w * 10 ^ 6) (2 ^ 1074)
       natText ((n / 10 ^ 6).log2 + 1) (n / 10 ^ 6) ++ 46 :: lastDigits 6 (n % 10 ^ 6))

/-! ### Reading -/

/-- Outcome of `strtof`: a finite number in units of `2^-149`, and whether `errno` was set; or one of the special ones. -/
inductive Flt where
  | fin (v : Nat) (erange : Bool)
  | inf (erange : Bool)
  | nan
  deriving DecidableEq, Repr

/-- The nearest `float` to `n / d` (`d` not zero). -/
def round32 (n d : Nat) : Flt :=
  let x := n * 2 ^ 149
  let s := (x / d).log2 - 23
  let v := nearest x (d * 2 ^ s) * 2 ^ s
  if 2 ^ 277 ≤ v then .inf true else .fin v (decide (v < 2 ^ 23) && decide (v * d ≠ x))

/-- `mant * base ^ e`, rounded. -/
def scaleRound (mant base : Nat) (e : Int) : Flt :=
  if 0 ≤ e then round32 (mant * base ^ e.toNat) 1 else round32 mant (base ^ (-e).toNat)

/-- An exponent, if one follows: the letter, an optional sign and at least one digit. -/
def exponent (letter : UInt8) (s : Bytes) : Int × Bytes :=
  match s with
  | [] => (0, s)
  | c :: r =>
    if lowerChar c = letter then
      let neg := r.head? = some 45
      let r' := if r.head? = some 45 ∨ r.head? = some 43 then r.tail else r
      if (r'.takeWhile isDigit).isEmpty then (0, s)
      else
        let n : Int := strtoDigits 10 (r'.takeWhile isDigit) 0
        (if neg then -n else n, r'.dropWhile isDigit)
    else (0, s)

/-- Digits with an optional point: the digits before and after it and the rest. -/
def mantissa (dig : UInt8 → Bool) (s : Bytes) : Bytes × Bytes × Bytes :=
  let ip := s.takeWhile dig
  let r := s.dropWhile dig
  if r.head? = some 46 then (ip, r.tail.takeWhile dig, r.tail.dropWhile dig) else (ip, [], r)

/-- A decimal number: its value and the rest; `none` if there is no digit. -/
def strtofDec (s : Bytes) : Option (Flt × Bytes) :=
  let m := mantissa isDigit s
  if (m.1 ++ m.2.1).isEmpty then none
  else
    let e := exponent 101 m.2.2
    some (scaleRound (strtoDigits 10 (m.1 ++ m.2.1) 0) 10 (e.1 - m.2.1.length), e.2)

/-- A hexadecimal number after its `0x`. -/
def strtofHex (s : Bytes) : Option (Flt × Bytes) :=
  let m := mantissa isHexaDigit s
  if (m.1 ++ m.2.1).isEmpty then none
  else
    let e := exponent 112 m.2.2
    some (scaleRound (strtoDigits 16 (m.1 ++ m.2.1) 0) 2 (e.1 - 4 * m.2.1.length), e.2)

/-- The letters, in either case, at the head of the text: what follows them. -/
def word (w s : Bytes) : Option Bytes := if (s.take w.length).map lowerChar = w then some (s.drop w.length) else none

def wordChar (c : UInt8) : Bool := isDigit c || (97 ≤ lowerChar c && lowerChar c ≤ 122) || c == 95

/-- C library `strtof` behind blanks and sign. -/
def strtofBody (s : Bytes) : Option (Flt × Bytes) :=
  match word [105, 110, 102] s with
  | some r => some (.inf false, (word [105, 110, 105, 116, 121] r).getD r)
  | none =>
    match word [110, 97, 110] s with
    | some r =>
      some (.nan, if r.head? = some 40 ∧ (r.tail.dropWhile wordChar).head? = some 41 then
        (r.tail.dropWhile wordChar).tail else r)
    | none =>
      match (Integer.hexaPrefix s).bind strtofHex with
      | some p => some p
      | none => strtofDec s

/-- C library `strtof`: sign, value, rest; `none` if nothing could be read. -/
def strtof (s : Bytes) : Option (Bool × Flt × Bytes) :=
  let s := s.dropWhile isSpace
  let r := if s.head? = some 45 ∨ s.head? = some 43 then s.tail else s
  (strtofBody r).map fun p => (decide (s.head? = some 45), p)

/-- The conversion of a `float` to a `double`. -/
def toDouble (neg : Bool) : Flt → Word
  | .fin v _ => mk neg (roundBits (v * 2 ^ 925) 1)
  | .inf _ => mk neg infBits
  | .nan => nan

/-- Lines 21–25: a positive infinity is refused; with `errno` set so is all that is below `FLT_MIN`. -/
def refused (neg : Bool) : Flt → Bool
  | .fin v erange => erange && (neg || decide (v < 2 ^ 23))
  | .inf erange => !neg || erange
  | .nan => false

/-- `Float::parse` (`Float.cpp` 10–30); `none` is `NULL`. -/
def parse (s : Bytes) : Option Word :=
  match strtof s with
  | none => none
  | some (neg, f, rest) =>
    if refused neg f then none
    else if s.isEmpty || !rest.isEmpty then none
    else some (toDouble neg f)

end Verif.FloatText
