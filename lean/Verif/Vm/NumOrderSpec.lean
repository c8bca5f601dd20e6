import Verif.Vm.Operation
import Verif.Vm.Spec
/-
The order of the numbers of a script, integers and floats together (C143, C144), and addition (C145).
-/
namespace Verif.Vm.NumOrder
open Verif Verif.Vm

/-- A script that compares `x` with `y`, in variables or constants, gets `true`. -/
def Holds (op : CmpOp) (x y : V) : Prop :=
  ∀ (m : Mem) (ca cb : Bool), compare ieee m op (held ca x) (held cb y) = .val (enc (.bool true))

/-- A script that adds `c` to `x` gets `r`. -/
def Sum (x c r : V) : Prop :=
  ∀ (m : Mem) (ca cb : Bool), arith ieee m .add (held ca x) (held cb c) = .val (enc r)

/-- An integer of at most 53 bits, or a float that is a number and finite. -/
def Modest : V → Prop
  | .int w => w.toInt.natAbs ≤ 2 ^ 53
  | .flt w => Ieee.isNaN w = false ∧ Ieee.isInf w = false
  | _ => False

/-- C144, full: `<=` and `==` are transitive on the numbers. -/
def Ordered : Prop := ∀ x y z : V, x.isNum = true → y.isNum = true → z.isNum = true →
  (Holds .le x y → Holds .le y z → Holds .le x z) ∧
  (Holds .eq x y → Holds .eq y z → Holds .eq x z)

/-- C145, full: adding the same number on both sides keeps the order. -/
def AddKeeps : Prop := ∀ x y c : V, x.isNum = true → y.isNum = true → c.isNum = true → Holds .le x y →
  ∃ r s, Sum x c r ∧ Sum y c s ∧ Holds .le r s

end Verif.Vm.NumOrder
