import Verif.Vm.NumOrderSpec
/-
Multiplication and the order of the numbers of a script (C149).
-/
namespace Verif.Vm.NumOrder
open Verif Verif.Vm

/-- A script that multiplies `x` with `c` gets `r`. -/
def Product (x c r : V) : Prop :=
  ∀ (m : Mem) (ca cb : Bool), arith ieee m .mul (held ca x) (held cb c) = .val (enc r)

/-- If both are integers their product is an integer of 64 bits. -/
def Fits : V → V → Prop
  | .int a, .int c => -(2 : Int) ^ 63 ≤ a.toInt * c.toInt ∧ a.toInt * c.toInt < 2 ^ 63
  | _, _ => True

/-- C149, full: multiplying both sides with the same number, not negative, keeps the order. -/
def MulKeeps : Prop := ∀ x y c : V, x.isNum = true → y.isNum = true → c.isNum = true → Holds .le x y → Holds .le (.int 0) c →
  ∃ r s, Product x c r ∧ Product y c s ∧ Holds .le r s

end Verif.Vm.NumOrder
