import Verif.Base.StrProps
/-
Model of `src/base/Integer.cpp`.

`String` values are their character sequences (`Bytes`, no NUL): `StrEditProps.lean` and
`StrProps.lean` prove that `+`, `+=`, element access, `toLowerCase` and `getSubstring` of the `String`
class act on that sequence. `zs_int` is 64 bit (`intptr_t` on a 64-bit platform). The `double` product in
`_number*=0.1` is modelled exactly (IEEE binary64, round to nearest even).
-/
namespace Verif.Integer
open Verif Verif.Str

def INT_MAX : Int := 9223372036854775807
def INT_MIN : Int := -9223372036854775808

/-- `n` is a `zs_int`. -/
def IsInt (n : Int) : Prop := INT_MIN ≤ n ∧ n ≤ INT_MAX

/-! ### Characters (`src/base/Character.cpp`) -/

/-- `Character::isDigit`, `Character.cpp` 25-27. -/
def isDigit (c : UInt8) : Bool := 48 ≤ c && c ≤ 57

/-- `Character::isHexaDigit`, `Character.cpp` 29-31. -/
def isHexaDigit (c : UInt8) : Bool :=
  (48 ≤ c && c ≤ 57) || (97 ≤ lowerChar c && lowerChar c ≤ 102)

/-! ### `double` arithmetic of the digit loop -/

/-- Round the natural number `n` to 53 significant bits, ties to even. The same function rounds any
dyadic rational `n * 2^-k`, because rounding is invariant under scaling by powers of two. -/
def round53 (n : Nat) : Nat :=
  if n < 2 ^ 53 then n else
  let s := n.log2 - 52
  let q := n / 2 ^ s
  let r := n % 2 ^ s
  let q' := if 2 ^ (s - 1) < r ∨ (r = 2 ^ (s - 1) ∧ q % 2 = 1) then q + 1 else q
  q' * 2 ^ s

/-- The `double` nearest to 0.1 is `tenth * 2^-55`. -/
def tenth : Nat := 3602879701896397

/-- `_number*=0.1`, `Integer.cpp` 49, for non-negative `_number`: conversion to `double`, product,
truncation back to integer. -/
def mulTenth (n : Nat) : Nat := round53 (round53 n * tenth) / 2 ^ 55

/-! ### `toString` -/

/-- `Integer.cpp` 45-51: the digit loop (least significant first); `none` = not finished within `fuel`
iterations. -/
def digitLoop : (fuel : Nat) → Nat → Option Bytes
  | 0, _ => none
  | fuel + 1, n => if n ≠ 0 then (digitLoop fuel (mulTenth n)).map (UInt8.ofNat (n % 10 + 48) :: ·) else some []

/-- `Integer.cpp` 54-60: one pass of the swap loop, `k` further iterations starting at `i`. -/
def swapLoop : (k : Nat) → (i : Nat) → Bytes → Bytes
  | 0, _, b => b
  | k + 1, i, b =>
    let j := b.length - i - 1
    let aux1 := b.getD j 0
    let b := b.set j (b.getD i 0)
    swapLoop k (i + 1) (b.set i aux1)

/-- `Integer.cpp` 54-60. -/
def reverse (b : Bytes) : Bytes := swapLoop (b.length / 2) 0 b

/-! ### `isInteger` (`Integer.cpp` 94-157) -/

inductive Kind where
  | int | hexa | binary | invalid
  deriving DecidableEq, Repr

/-- `*str == ' ' || *str == 0`. -/
def endOrBlank : Bytes → Bool
  | [] => true
  | c :: _ => c == 32

/-- `Integer.cpp` 103-113: skip binary digits, then test for `b`. -/
def binaryMark : Bytes → Bool
  | [] => false
  | c :: cs => if c == 48 || c == 49 then binaryMark cs else lowerChar c == 98

/-- `Integer.cpp` 120-127: `0x` prefix. -/
def hexaPrefix : Bytes → Option Bytes
  | a :: b :: r => if a == 48 && lowerChar b == 120 then some r else none
  | _ => none

/-- `Integer::isInteger`, `Integer.cpp` 94-157. -/
def isInteger (l : Bytes) : Kind :=
  if l.isEmpty then .invalid
  else if binaryMark l then .binary
  else match hexaPrefix l with
    | some r =>
      if (r.takeWhile isHexaDigit).isEmpty then .invalid
      else if endOrBlank (r.dropWhile isHexaDigit) then .hexa else .invalid
    | none =>
      if endOrBlank (l.dropWhile isDigit) then .int else .invalid

/-! ### `parse` -/

/-- Value of a digit character, C library. -/
def digitVal (c : UInt8) : Option Nat :=
  if isDigit c then some (c.toNat - 48)
  else if 97 ≤ lowerChar c && lowerChar c ≤ 122 then some ((lowerChar c).toNat - 87) else none

/-- C library: the digits of the given base at the head of the text, as a number. -/
def strtoDigits (base : Nat) : Bytes → Nat → Nat
  | [], acc => acc
  | c :: cs, acc => match digitVal c with
    | some d => if d < base then strtoDigits base cs (acc * base + d) else acc
    | none => acc

/-- C library `isspace` in the C locale. -/
def isSpace (c : UInt8) : Bool := c == 32 || (9 ≤ c && c ≤ 13)

/-- `strtoll` contract: blanks, sign, `0x` prefix for base 16, digits, saturation. -/
def strtoll (l : Bytes) (base : Nat) : Int :=
  let l := l.dropWhile isSpace
  let (neg, l) := match l with
    | 45 :: r => (true, r)
    | 43 :: r => (false, r)
    | _ => (false, l)
  let l := if base = 16 then (hexaPrefix l).getD l else l
  let v := strtoDigits base l 0
  if neg then max INT_MIN (-(v : Int)) else min INT_MAX v

/-- `Integer::parse`, `Integer.cpp` 11-32 (`none` = `NULL`). `getSubstring(0,length()-1)` drops the last
character. -/
def parse (l : Bytes) : Option Int :=
  match isInteger l with
  | .int => some (strtoll l 10)
  | .hexa => some (strtoll l 16)
  | .binary => some (strtoll l.dropLast 2)
  | .invalid => none

/-- `(int)` conversion of the padding width, `Integer.cpp` 72-73: `int len=num_zeros-(int)length`, modulo
2^32 (two's complement). -/
def toInt32 (n : Int) : Int := (n + 2 ^ 31) % 2 ^ 32 - 2 ^ 31

/-- `Integer.cpp` 64-84: the `dN` format. -/
def padFormat (format result : Bytes) : Bytes :=
  match format with
  | 100 :: r => match parse r with
    | some z => List.replicate (toInt32 (z - result.length)).toNat 48 ++ result
    | none => result
  | _ => result

/-- `Integer::toString`, `Integer.cpp` 34-91. Negating the least integer overflows (`ub`); `none` = the
digit loop did not finish within `fuel` iterations. -/
def toString (fuel : Nat) (number : Int) (format : Bytes) : Option (Out Bytes) :=
  if number = INT_MIN then some .ub else
  let negative := decide (number < 0)
  let n := number.natAbs
  (if n ≠ 0 then digitLoop fuel n else some [48]).map fun result =>
  let result := padFormat (format.map lowerChar) (reverse result)
  .ok (if negative then 45 :: result else result)

end Verif.Integer
