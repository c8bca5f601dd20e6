import Verif.Vm.NumbersSpec
/-
What a user expects of the functions of `Math`, in terms of numbers. A float `x` that is finite has the value `scaled x / 2^1074`.
-/
namespace Verif.MathFnsSpec
open Verif Verif.Vm Verif.Vm.Native Verif.Vm.NumbersSpec

/-- The argument is a number. -/
def Num : Arg → Prop
  | .int _ => True
  | .float _ => True
  | _ => False

/-- The float `x` is the number that the script hands over: a float as it is, an integer of up to 53 bits exactly. -/
inductive Denotes : Arg → Word → Prop where
  | float (x : Word) : Denotes (.float x) x
  | int (i : Int) (x : Word) : i.natAbs ≤ 2 ^ 53 → IsExactly x (decide (i < 0)) i.natAbs 0 → Denotes (.int i) x

/-- A finite float. -/
def Finite (x : Word) : Prop := Ieee.isNaN x = false ∧ Ieee.isInf x = false

/-- The float `r` is the integer `z`. -/
def IsInt (r : Word) (z : Int) : Prop := Finite r ∧ Ieee.scaled r = z * 2 ^ 1074

/-- `z` is the greatest integer that is not above `x`. -/
def IsFloor (x : Word) (z : Int) : Prop := z * 2 ^ 1074 ≤ Ieee.scaled x ∧ Ieee.scaled x < (z + 1) * 2 ^ 1074

/-- `z` is the least integer that is not below `x`. -/
def IsCeil (x : Word) (z : Int) : Prop := (z - 1) * 2 ^ 1074 < Ieee.scaled x ∧ Ieee.scaled x ≤ z * 2 ^ 1074

/-- `z` is the integer that is nearest to `x`, of two such the one farther from zero. -/
def IsRound (x : Word) (z : Int) : Prop :=
  (0 ≤ Ieee.scaled x → (2 * z - 1) * 2 ^ 1074 ≤ 2 * Ieee.scaled x ∧ 2 * Ieee.scaled x < (2 * z + 1) * 2 ^ 1074) ∧
  (Ieee.scaled x < 0 → (2 * z - 1) * 2 ^ 1074 < 2 * Ieee.scaled x ∧ 2 * Ieee.scaled x ≤ (2 * z + 1) * 2 ^ 1074)

/-- `x` is a single precision number: not finite, or of 24 significant bits, a multiple of `2^-149` and below `2^128`. -/
def IsSingle (x : Word) : Prop := Finite x → ∃ v, Single v ∧ Ieee.mag x = v * 2 ^ 925

end Verif.MathFnsSpec
