import Verif.Module.MathFnsSpec
/-
What a user expects of `Math::degToRad` and `Math::sqrt`. A float `x` that is finite has the value `scaled x / 2^1074`.
-/
namespace Verif.MathFnsSpec
open Verif Verif.Vm Verif.Vm.Native Verif.Vm.NumbersSpec

/-- The float `x` is what the script hands over for a number: a float as it is, an integer rounded to a float. -/
inductive Reads : Arg → Word → Prop where
  | float (x : Word) : Reads (.float x) x
  | int (i : Int) : Reads (.int i) (Ieee.ofInt i)

/-- The first number is at most the second one: two integers as integers, others as floats. -/
def AtMost : Arg → Arg → Prop
  | .int i, .int j => i ≤ j
  | a, b => ∃ x y, Reads a x ∧ Reads b y ∧ Ieee.le x y = true

/-- `y` is `x * PI / 180` up to one part in `2^51`, for the `PI` of the scripts, which has the value `pi / 2^1074`. -/
def IsRadians (x y : Word) (pi : Nat) : Prop :=
  Finite y ∧ (180 * 2 ^ 1074 * Ieee.scaled y - Ieee.scaled x * pi).natAbs * 2 ^ 51 ≤ (Ieee.scaled x).natAbs * pi

/-- `y` is the root of `x`. -/
def IsRoot (x y : Word) : Prop := Finite x ∧ Finite y ∧ 0 ≤ Ieee.scaled y ∧ Ieee.scaled y * Ieee.scaled y = Ieee.scaled x * 2 ^ 1074

/-- `y` is not negative and its square is `x` up to one part in `2^51`. -/
def IsNearRoot (x y : Word) : Prop :=
  Finite y ∧ 0 ≤ Ieee.scaled y ∧
    (Ieee.scaled y * Ieee.scaled y - Ieee.scaled x * 2 ^ 1074).natAbs * 2 ^ 51 ≤ (Ieee.scaled x).natAbs * 2 ^ 1074

end Verif.MathFnsSpec
