import Verif.Vm.NumOrderSpec
/-
The sign of a difference and the order of the numbers of a script (C150).
-/
namespace Verif.Vm.NumOrder
open Verif Verif.Vm

/-- A script that subtracts `y` from `x` gets `r`. -/
def Difference (x y r : V) : Prop :=
  ∀ (m : Mem) (ca cb : Bool), arith ieee m .sub (held ca x) (held cb y) = .val (enc r)

/-- The difference of `x` and `y` is below, at or above zero exactly as `x` is below, at or above `y`. -/
def SameSign (x y : V) : Prop := ∃ r, Difference x y r ∧ (Holds .lt r (.int 0) ↔ Holds .lt x y) ∧ (Holds .eq r (.int 0) ↔ Holds .eq x y) ∧
  (Holds .gt r (.int 0) ↔ Holds .gt x y)

/-- C150, full. -/
def DifferenceTells : Prop := ∀ x y : V, x.isNum = true → y.isNum = true → SameSign x y

/-- An integer, or a float that is not infinite. -/
def NotInfinite : V → Prop
  | .int _ => True
  | .flt w => Ieee.isInf w = false
  | _ => False

/-- If both are integers their difference is an integer of 64 bits. -/
def DiffFits : V → V → Prop
  | .int a, .int c => -(2 : Int) ^ 63 ≤ a.toInt - c.toInt ∧ a.toInt - c.toInt < 2 ^ 63
  | _, _ => True

end Verif.Vm.NumOrder
