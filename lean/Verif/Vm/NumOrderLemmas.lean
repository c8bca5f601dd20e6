import Verif.Vm.FloatOrder
import Verif.Vm.CompareProps
import Verif.Vm.OperationProps
import Verif.Module.MathFnsLemmas
import Verif.Vm.NumOrderSpec
namespace Verif.Vm.NumOrder
open Verif Verif.Vm

/-- The number in units of `2^-1074`. -/
def key (x : V) : Int := Ieee.scaled (x.asFlt ieee)

def bad (x : V) : Bool := Ieee.isNaN (x.asFlt ieee)

theorem compare_num (m : Mem) (op : CmpOp) (ca cb : Bool) (x y : V) (hx : x.isNum = true) (hy : y.isNum = true) :
    compare ieee m op (held ca x) (held cb y) = .val (enc (.bool (match x, y with
      | .int a, .int b => cmpInt op a.toInt b.toInt
      | x, y => cmpFlt ieee op (x.asFlt ieee) (y.asFlt ieee)))) := by
  unfold compare
  cases x <;> cases hx <;> cases y <;> cases hy <;> simp only [held_primitive, mkBool_enc, held_value]
  · rw [if_pos ⟨by decide, by decide⟩]; rfl
  · rw [if_neg (by decide), if_neg (by decide), if_pos ⟨by decide, by decide⟩]; rfl
  · rw [if_neg (by decide), if_neg (by decide), if_neg (by decide), if_pos ⟨by decide, by decide⟩]; rfl
  · rw [if_neg (by decide), if_neg (by decide), if_neg (by decide), if_neg (by decide), if_pos ⟨by decide, by decide⟩]; rfl

theorem val_bool {b c : Bool} : (Eff.val (enc (.bool b)) = Eff.val (enc (.bool c))) ↔ b = c := by
  cases b <;> cases c <;> simp [enc]

theorem holds_num {op : CmpOp} {x y : V} (hx : x.isNum = true) (hy : y.isNum = true) : Holds op x y ↔ (match x, y with
      | .int a, .int b => cmpInt op a.toInt b.toInt
      | x, y => cmpFlt ieee op (x.asFlt ieee) (y.asFlt ieee)) = true := by
  constructor
  · intro h
    have := h noMem false false
    rw [compare_num _ _ _ _ _ _ hx hy] at this
    exact val_bool.1 this
  · intro h m ca cb
    rw [compare_num _ _ _ _ _ _ hx hy]
    exact val_bool.2 h

theorem holds_int {op : CmpOp} {a b : Word} : Holds op (.int a) (.int b) ↔ cmpInt op a.toInt b.toInt = true := holds_num rfl rfl

theorem flt_lt {a b : Word} : cmpFlt ieee .lt a b = true ↔ Ieee.isNaN a = false ∧ Ieee.isNaN b = false ∧ Ieee.scaled a < Ieee.scaled b := by
  show Ieee.lt a b = true ↔ _
  unfold Ieee.lt
  simp only [Bool.and_eq_true, Bool.not_eq_true', decide_eq_true_eq, and_assoc]

theorem flt_le {a b : Word} : cmpFlt ieee .le a b = true ↔ Ieee.isNaN a = false ∧ Ieee.isNaN b = false ∧ Ieee.scaled a ≤ Ieee.scaled b := by
  show Ieee.le a b = true ↔ _
  unfold Ieee.le
  simp only [Bool.and_eq_true, Bool.not_eq_true', decide_eq_true_eq, and_assoc]

theorem flt_eq {a b : Word} : cmpFlt ieee .eq a b = true ↔ Ieee.isNaN a = false ∧ Ieee.isNaN b = false ∧ Ieee.scaled a = Ieee.scaled b := by
  show Ieee.eq a b = true ↔ _
  unfold Ieee.eq
  simp only [Bool.and_eq_true, Bool.not_eq_true', decide_eq_true_eq, and_assoc]

/-- Not both are integers. -/
def Mixed (x y : V) : Prop := ¬ ∃ a b, x = .int a ∧ y = .int b

theorem holds_mixed {op : CmpOp} {x y : V} (hx : x.isNum = true) (hy : y.isNum = true) (h : Mixed x y) :
    Holds op x y ↔ cmpFlt ieee op (x.asFlt ieee) (y.asFlt ieee) = true := by
  rw [holds_num hx hy]
  cases x <;> cases hx <;> cases y <;> cases hy
  · exact absurd ⟨_, _, rfl, rfl⟩ h
  all_goals exact Iff.rfl

theorem mixed_lt {x y : V} (hx : x.isNum = true) (hy : y.isNum = true) (h : Mixed x y) :
    Holds .lt x y ↔ bad x = false ∧ bad y = false ∧ key x < key y := (holds_mixed hx hy h).trans flt_lt

theorem mixed_le {x y : V} (hx : x.isNum = true) (hy : y.isNum = true) (h : Mixed x y) :
    Holds .le x y ↔ bad x = false ∧ bad y = false ∧ key x ≤ key y := (holds_mixed hx hy h).trans flt_le

theorem mixed_eq {x y : V} (hx : x.isNum = true) (hy : y.isNum = true) (h : Mixed x y) :
    Holds .eq x y ↔ bad x = false ∧ bad y = false ∧ key x = key y := (holds_mixed hx hy h).trans flt_eq

theorem ints_lt {a b : Word} : Holds .lt (.int a) (.int b) ↔ a.toInt < b.toInt := holds_int.trans decide_eq_true_iff
theorem ints_le {a b : Word} : Holds .le (.int a) (.int b) ↔ a.toInt ≤ b.toInt := holds_int.trans decide_eq_true_iff
theorem ints_eq {a b : Word} : Holds .eq (.int a) (.int b) ↔ a.toInt = b.toInt := holds_int.trans decide_eq_true_iff

theorem ofInt_scaled (a : Int) : Ieee.isNaN (Ieee.ofInt a) = false ∧ Ieee.scaled (Ieee.ofInt a) =
    if decide (a < 0) = true then -(Ieee.val (Ieee.roundBits (a.natAbs * 2 ^ 1074) 1) : Int)
    else (Ieee.val (Ieee.roundBits (a.natAbs * 2 ^ 1074) 1) : Int) := by
  unfold Ieee.ofInt
  exact ⟨(Ieee.mk_facts (Ieee.roundBits_le _ _)).2.2.2.2.1, Ieee.scaled_mk (Ieee.roundBits_le _ _)⟩

theorem int_good (a : Word) : bad (.int a) = false := (ofInt_scaled a.toInt).1

/-- Converting integers to floats keeps the order. -/
theorem ofInt_mono {a b : Int} (h : a ≤ b) : Ieee.scaled (Ieee.ofInt a) ≤ Ieee.scaled (Ieee.ofInt b) := by
  rw [(ofInt_scaled a).2, (ofInt_scaled b).2]
  exact Ieee.sign_mono (fun n => Ieee.val (Ieee.roundBits (n * 2 ^ 1074) 1))
    (by show Ieee.val (Ieee.roundBits (0 * 2 ^ 1074) 1) = 0; rw [Nat.zero_mul, Ieee.roundBits_zero Nat.one_pos, Ieee.val_zero])
    (fun n n' h => Ieee.val_mono (Ieee.roundBits_mono (Nat.mul_le_mul_right _ h))) _ _ _ _ h (fun _ => rfl) (fun _ => rfl)

theorem int_mono {a b : Word} (h : a.toInt ≤ b.toInt) : key (.int a) ≤ key (.int b) := ofInt_mono h

theorem int_lt {a b : Word} (h : key (.int a) < key (.int b)) : a.toInt < b.toInt := by
  apply Classical.byContradiction
  intro hn
  have := int_mono (a := b) (b := a) (by omega)
  omega

theorem exact_scaled {a : Int} (h : a.natAbs ≤ 2 ^ 53) : Ieee.isNaN (Ieee.ofInt a) = false ∧ Ieee.isInf (Ieee.ofInt a) = false ∧
    Ieee.scaled (Ieee.ofInt a) = a * 2 ^ 1074 := by
  obtain ⟨⟨f1, f2⟩, f3, f4⟩ := MathFns.ofInt_exact (n := a) h
  refine ⟨f1, f2, ?_⟩
  unfold Ieee.scaled
  rw [f3, f4, Int.natCast_mul, Int.natCast_pow]
  by_cases ha : a < 0
  · rw [if_pos (decide_eq_true ha), show ((a.natAbs : Nat) : Int) = -a from Int.ofNat_natAbs_of_nonpos (Int.le_of_lt ha), Int.neg_mul, Int.neg_neg]
    rfl
  · rw [if_neg (by rw [decide_eq_false ha]; exact Bool.false_ne_true), Int.natAbs_of_nonneg (Int.not_lt.1 ha)]
    rfl

end Verif.Vm.NumOrder
