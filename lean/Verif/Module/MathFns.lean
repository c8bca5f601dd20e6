import Verif.Vm.Numbers
/-
Model of the functions of `Math` (`src/module/MathModule.cpp`, registered in `src/ScriptEngine.cpp` 46-59) as a script calls them
(`src/vm/vm_native_function.cpp` 343-433). There is one function of each name, so none is searched (`vm_call.cpp` 457).

`floor`, `ceil`, `round`, `fabs` and `sqrt` of the C library are taken at their word; `sinf`, `cosf` and `powf` are arbitrary functions of single
precision numbers. A single precision number is kept as the `double` of the same value, and a single precision operation is the
rounding of the double precision one (for these operations the same as rounding once).
-/
namespace Verif.MathFns
open Verif Verif.Vm Verif.Vm.Native
open Verif.Vm.Ieee

/-- The conversion of a `double` to a `float`. -/
def narrow (x : Word) : Word :=
  if isNaN x then nan else if isInf x then x else FloatText.toDouble (neg? x) (FloatText.round32 (mag x) (2 ^ 1074))

/-- The functions of the C library that are not modelled, and what `rand()` gives. -/
structure Lib where
  sinf : Word → Word
  cosf : Word → Word
  powf : Word → Word → Word
  rand : Nat

/-- `RAND_MAX` of the GNU C library. -/
def RAND_MAX : Nat := 2147483647

/-- The functions. -/
inductive Fun where
  | sin | cos | abs | pow | random | max | min | floor | ceil | round | degToRad | sqrt
  deriving DecidableEq, Repr

/-- The parameters besides the engine, `MathModule.cpp` 19-85. -/
def arity : Fun → Nat
  | .random => 0
  | .pow | .max | .min => 2
  | .sin | .cos | .abs | .floor | .ceil | .round | .degToRad | .sqrt => 1

/-- The `double` that is `± n`. -/
def whole (s : Bool) (n : Nat) : Word := mk s (roundBits (n * 2 ^ 1074) 1)

/-- `n / d` rounded up. -/
def up (n d : Nat) : Nat := (n + (d - 1)) / d

/-- C `floor`. -/
def floor (x : Word) : Word :=
  if isNaN x || isInf x then x
  else if neg? x then whole true (up (mag x) (2 ^ 1074)) else whole false (mag x / 2 ^ 1074)

/-- C `ceil`. -/
def ceil (x : Word) : Word :=
  if isNaN x || isInf x then x
  else if neg? x then whole true (mag x / 2 ^ 1074) else whole false (up (mag x) (2 ^ 1074))

/-- C `round`: halves away from zero. -/
def round (x : Word) : Word :=
  if isNaN x || isInf x then x else whole (neg? x) ((2 * mag x + 2 ^ 1074) / (2 * 2 ^ 1074))

/-- C `fabs`: the sign bit is cleared. -/
def fabs (x : Word) : Word := mk false (x.toNat % 2 ^ 63)

/-- `MathModule_random`, `MathModule.cpp` 44-55, with the constant of line 7: single precision throughout. The seed is not
modelled. -/
def random (r : Nat) : Word :=
  narrow (mul (narrow (ofInt r)) (narrow (div (ofInt 1) (narrow (ofInt RAND_MAX)))))

/-- `Math::PI`, `MathModule.cpp` 14-17: `M_PI` of `math.h`, which `@base.h` 42 includes before `MathModule.h` 7. -/
def PI : Word := 0x400921FB54442D18

/-- `MathModule_degToRad`, `MathModule.cpp` 19-22. -/
def degToRad (x : Word) : Word := div (mul x PI) (ofInt 180)

/-- The greatest number of `k` more bits behind `r` whose square is not above `n`. -/
def rootFrom (n : Nat) : Nat → Nat → Nat
  | 0, r => r
  | k + 1, r => if (r + 2 ^ k) * (r + 2 ^ k) ≤ n then rootFrom n k (r + 2 ^ k) else rootFrom n k r

/-- The square root rounded down, for numbers of up to 3172 bits. -/
def root (n : Nat) : Nat := rootFrom n 1586 0

/-- C `sqrt`: the float nearest to the root; what is behind the integer part counts as a half of its last place. -/
def sqrt (x : Word) : Word :=
  if isNaN x then nan
  else if mag x = 0 then x
  else if neg? x then nan
  else if isInf x then x
  else
    let n := mag x * 2 ^ 1074
    mk false (roundBits (2 * root n + if root n * root n = n then 0 else 1) 2)

/-- The bodies: `sin`, `cos`, `abs`, `pow` (`MathModule.cpp` 24-42), `max`, `min` (57-65), `sqrt` (67-70), `floor`, `ceil`, `round` (72-85). -/
def run (L : Lib) : Fun → List Word → Word
  | .sin, [x] => narrow (L.sinf (narrow x))
  | .cos, [x] => narrow (L.cosf (narrow x))
  | .abs, [x] => fabs x
  | .pow, [x, y] => narrow (L.powf (narrow x) (narrow y))
  | .random, [] => random L.rand
  | .max, [x, y] => if lt y x then x else y
  | .min, [x, y] => if lt x y then x else y
  | .floor, [x] => floor x
  | .ceil, [x] => ceil x
  | .round, [x] => round x
  | .degToRad, [x] => degToRad x
  | .sqrt, [x] => sqrt x
  | _, _ => 0

/-- What the function reads through its parameters. -/
def reads : List Conv → Out (List Word)
  | [] => .ok []
  | c :: cs => (Numbers.readFloat c).bind fun x => (reads cs).map fun xs => x :: xs

/-- A call `Math::f(args)`, `vm_native_function.cpp` 388-433: the number of arguments must be right, then all are converted, then
the function runs. -/
def call (w : World) (L : Lib) (f : Fun) (args : List Stk) : Out Word :=
  if args.length ≠ arity f then .err
  else (passArgs w ieee args (List.replicate (arity f) T_FLOAT_PTR)).bind fun cs => (reads cs).map (run L f)

section sanity
/- `floor -2.5 = -3`, `ceil -2.5 = -2`, `round -2.5 = -3`, `round 2.4 = 2`, `abs -2.5 = 2.5`. -/
example : floor 0xC004000000000000 = ofInt (-3) := by decide +kernel
example : ceil 0xC004000000000000 = ofInt (-2) := by decide +kernel
example : round 0xC004000000000000 = ofInt (-3) := by decide +kernel
example : round 0x4003333333333333 = ofInt 2 := by decide +kernel
example : degToRad (ofInt 180) = PI := by decide +kernel
example : sqrt (ofInt 2) = 0x3FF6A09E667F3BCD := by decide +kernel
example : fabs 0xC004000000000000 = 0x4004000000000000 := by decide +kernel
end sanity

end Verif.MathFns
