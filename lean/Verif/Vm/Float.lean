/-
`zs_float` on a 64-bit platform (`src/Config.h.in` 9-34): a `double` kept as its 64-bit pattern in the
`value` word of a stack element (`ZS_READ_INTPTR_FLOAT` / `ZS_WRITE_INTPTR_FLOAT` reinterpret bits).

`FloatOps` is an arbitrary implementation of the floating point operations used by the virtual machine;
most theorems hold for every such implementation. `ieee` is the IEEE-754 binary64 implementation (round
to nearest, ties to even), defined by exact integer arithmetic; it is used where a property needs the
order of numbers and for counterexamples. Simplification: every NaN result of `ieee` is one quiet NaN
pattern (hardware may keep the payload of an operand); no theorem looks at the payload of a NaN.
-/
namespace Verif.Vm

/-- A machine word: `zs_int` = `intptr_t`, 64 bit. -/
abbrev Word := BitVec 64

/-- The floating point operations the VM uses: C's `+ - * /`, `fmod`, unary minus, conversion from
`zs_int`, and the comparisons `== < <=` (`!=` is the complement of `==`, `>` and `>=` are `<` and `<=`
with swapped operands, in C as in IEEE-754). -/
structure FloatOps where
  add : Word → Word → Word
  sub : Word → Word → Word
  mul : Word → Word → Word
  div : Word → Word → Word
  fmod : Word → Word → Word
  neg : Word → Word
  ofInt : Int → Word
  eq : Word → Word → Bool
  lt : Word → Word → Bool
  le : Word → Word → Bool

/-- `x == 0` for a `zs_float` `x`. -/
def FloatOps.isZero (F : FloatOps) (x : Word) : Bool := F.eq x (F.ofInt 0)

namespace Ieee

/-- Sign bit. -/
def neg? (w : Word) : Bool := 2 ^ 63 ≤ w.toNat
/-- Biased exponent field. -/
def expo (w : Word) : Nat := w.toNat / 2 ^ 52 % 2048
/-- Fraction field. -/
def frac (w : Word) : Nat := w.toNat % 2 ^ 52

def isNaN (w : Word) : Bool := expo w = 2047 && frac w ≠ 0
def isInf (w : Word) : Bool := expo w = 2047 && frac w = 0

/-- Magnitude in units of `2^-1074`. For an infinity this is `2^2098`, above every finite magnitude. -/
def mag (w : Word) : Nat := if expo w = 0 then frac w else (2 ^ 52 + frac w) * 2 ^ (expo w - 1)

/-- The number denoted by a pattern that is not a NaN, in units of `2^-1074`. -/
def scaled (w : Word) : Int := if neg? w then - (mag w : Int) else mag w

/-- The pattern with the given sign and the given lower 63 bits. -/
def mk (s : Bool) (b : Nat) : Word := BitVec.ofNat 64 ((if s then 2 ^ 63 else 0) + b)

def nan : Word := mk false (2047 * 2 ^ 52 + 2 ^ 51)
def infBits : Nat := 2047 * 2 ^ 52

/-- Bits of the nearest `double` (ties to even) to `n / d` units of `2^-1074`; too large gives infinity. -/
def roundBits (n d : Nat) : Nat :=
  let m := n / d
  let e := if m < 2 ^ 53 then 0 else m.log2 - 52
  let u := d * 2 ^ e
  let q := n / u
  let r := n % u
  let q' := if u < 2 * r ∨ (2 * r = u ∧ q % 2 = 1) then q + 1 else q
  min (e * 2 ^ 52 + q') infBits

def neg (w : Word) : Word := w ^^^ mk true 0

def add (a b : Word) : Word :=
  if isNaN a || isNaN b then nan
  else if isInf a then (if isInf b && neg? a != neg? b then nan else a)
  else if isInf b then b
  else
    let s := scaled a + scaled b
    mk (if s = 0 then neg? a && neg? b else s < 0) (roundBits s.natAbs 1)

def sub (a b : Word) : Word := add a (neg b)

def mul (a b : Word) : Word :=
  let s := neg? a != neg? b
  if isNaN a || isNaN b then nan
  else if isInf a || isInf b then (if mag a = 0 || mag b = 0 then nan else mk s infBits)
  else mk s (roundBits (mag a * mag b) (2 ^ 1074))

def div (a b : Word) : Word :=
  let s := neg? a != neg? b
  if isNaN a || isNaN b then nan
  else if isInf a then (if isInf b then nan else mk s infBits)
  else if isInf b then mk s 0
  else if mag b = 0 then (if mag a = 0 then nan else mk s infBits)
  else mk s (roundBits (mag a * 2 ^ 1074) (mag b))

/-- C `fmod`: exact, sign of the dividend. -/
def fmod (a b : Word) : Word :=
  if isNaN a || isNaN b || isInf a || mag b = 0 then nan
  else if isInf b then a
  else mk (neg? a) (roundBits (mag a % mag b) 1)

def ofInt (i : Int) : Word := mk (i < 0) (roundBits (i.natAbs * 2 ^ 1074) 1)

def eq (a b : Word) : Bool := !isNaN a && !isNaN b && decide (scaled a = scaled b)
def lt (a b : Word) : Bool := !isNaN a && !isNaN b && decide (scaled a < scaled b)
def le (a b : Word) : Bool := !isNaN a && !isNaN b && decide (scaled a ≤ scaled b)

end Ieee

/-- IEEE-754 binary64. -/
def ieee : FloatOps where
  add := Ieee.add
  sub := Ieee.sub
  mul := Ieee.mul
  div := Ieee.div
  fmod := Ieee.fmod
  neg := Ieee.neg
  ofInt := Ieee.ofInt
  eq := Ieee.eq
  lt := Ieee.lt
  le := Ieee.le

section sanity
/- `0.5 + 0.25 = 0.75`, `1/3`, `0.1 + 0.2 = 0.30000000000000004`, `fmod 7 3 = 1`, `3 * 0.5 = 1.5`, `2^53 + 1` rounds to
even: the bit patterns are those of a C compiler. -/
example : Ieee.add 0x3FE0000000000000 0x3FD0000000000000 = 0x3FE8000000000000 := by decide +kernel
example : Ieee.div (Ieee.ofInt 1) (Ieee.ofInt 3) = 0x3FD5555555555555 := by decide +kernel
example : Ieee.add 0x3FB999999999999A 0x3FC999999999999A = 0x3FD3333333333334 := by decide +kernel
example : Ieee.fmod (Ieee.ofInt 7) (Ieee.ofInt 3) = Ieee.ofInt 1 := by decide +kernel
example : Ieee.mul (Ieee.ofInt 3) 0x3FE0000000000000 = 0x3FF8000000000000 := by decide +kernel
example : Ieee.ofInt 9007199254740993 = Ieee.ofInt 9007199254740992 := by decide +kernel
example : Ieee.sub (Ieee.ofInt (-5)) (Ieee.ofInt 2) = Ieee.ofInt (-7) := by decide +kernel
end sanity

end Verif.Vm
