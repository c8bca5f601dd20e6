import Verif.Vm.NumOrderProps
import Verif.Vm.NumSubSpec
namespace Verif.Vm.Ieee
open Verif Verif.Vm

theorem neg_bits (w : Word) : (neg w).toNat % 2 ^ 63 = w.toNat % 2 ^ 63 ∧ (neg w).toNat / 2 ^ 63 = 1 - w.toNat / 2 ^ 63 := by
  have e : (neg w).toNat = w.toNat ^^^ 2 ^ 63 := by unfold neg; rw [BitVec.toNat_xor]; rfl
  have hw := w.isLt
  rw [e, Nat.xor_mod_two_pow, Nat.xor_div_two_pow, Nat.mod_self, Nat.xor_zero, Nat.div_self (Nat.two_pow_pos _)]
  refine ⟨rfl, ?_⟩
  have : w.toNat / 2 ^ 63 = 0 ∨ w.toNat / 2 ^ 63 = 1 := by omega
  rcases this with h | h <;> rw [h] <;> rfl

theorem neg_facts (w : Word) : neg? (neg w) = !neg? w ∧ expo (neg w) = expo w ∧ frac (neg w) = frac w := by
  obtain ⟨h1, h2⟩ := neg_bits w
  have hw := w.isLt
  have hv := (neg w).isLt
  unfold neg? expo frac
  generalize (neg w).toNat = v at *
  generalize w.toNat = u at *
  refine ⟨?_, by omega, by omega⟩
  by_cases h : 2 ^ 63 ≤ u
  · rw [decide_eq_true h, decide_eq_false (by omega)]; rfl
  · rw [decide_eq_false h, decide_eq_true (by omega)]; rfl

theorem neg_values (w : Word) : isNaN (neg w) = isNaN w ∧ isInf (neg w) = isInf w ∧ scaled (neg w) = -scaled w := by
  obtain ⟨h1, h2, h3⟩ := neg_facts w
  have hm : mag (neg w) = mag w := by unfold mag; rw [h2, h3]
  refine ⟨by unfold isNaN; rw [h2, h3], by unfold isInf; rw [h2, h3], ?_⟩
  unfold scaled
  rw [h1, hm]
  cases neg? w <;> simp

theorem round_pos {n : Nat} (h : 0 < n) : 0 < val (roundBits n 1) :=
  Nat.lt_of_lt_of_le (show 0 < val (roundBits 1 1) by decide +kernel) (val_mono (roundBits_mono h))

/-- The difference of two finite floats has the sign of their comparison. -/
theorem sub_sign {a c : Word} (ha : isNaN a = false ∧ isInf a = false) (hc : isNaN c = false ∧ isInf c = false) :
    isNaN (sub a c) = false ∧ (scaled (sub a c) < 0 ↔ scaled a < scaled c) ∧ (scaled (sub a c) = 0 ↔ scaled a = scaled c) ∧
      (0 < scaled (sub a c) ↔ scaled c < scaled a) := by
  obtain ⟨n1, n2, n3⟩ := neg_values c
  obtain ⟨s, hs, e⟩ := add_finite ha (c := neg c) ⟨n1.trans hc.1, n2.trans hc.2⟩
  unfold sub
  rw [e, scaled_mk (roundBits_le _ _)]
  refine ⟨(mk_facts (roundBits_le _ _)).2.2.2.2.1, ?_⟩
  rw [n3] at hs ⊢
  generalize scaled a = x at *
  generalize scaled c = y at *
  by_cases h : x + -y = 0
  · rw [h, show (0 : Int).natAbs = 0 from rfl, roundBits_zero Nat.one_pos, val_zero]
    cases s <;> simp <;> omega
  · have hp := round_pos (n := (x + -y).natAbs) (by omega)
    rw [hs h]
    generalize val (roundBits (x + -y).natAbs 1) = v at *
    by_cases h1 : x + -y < 0
    · rw [if_pos (decide_eq_true h1)]; omega
    · rw [if_neg (by rw [decide_eq_false h1]; exact Bool.false_ne_true)]; omega

theorem ofInt_finite {a : Int} (h : a.natAbs ≤ 2 ^ 63) : isInf (ofInt a) = false := by
  unfold ofInt
  rw [(mk_facts (roundBits_le _ _)).2.2.2.2.2]
  apply decide_eq_false
  apply Nat.ne_of_lt
  exact Nat.lt_of_le_of_lt (roundBits_mono (Nat.mul_le_mul_right _ h)) (show roundBits (2 ^ 63 * 2 ^ 1074) 1 < infBits by decide +kernel)

end Verif.Vm.Ieee

namespace Verif.Vm.NumOrder
open Verif Verif.Vm

theorem difference_int {a c : Word} (h : -(2 : Int) ^ 63 ≤ a.toInt - c.toInt ∧ a.toInt - c.toInt < 2 ^ 63) :
    ∃ r : Word, r.toInt = a.toInt - c.toInt ∧ Difference (.int a) (.int c) (.int r) := by
  refine ⟨BitVec.ofInt 64 (a.toInt - c.toInt), BitVec.toInt_ofInt_eq_self (by decide) h.1 h.2, fun m ca cb => ?_⟩
  obtain ⟨r, hr, e⟩ := (int_arith_exact_partial ieee m ca cb a c).2.1 h
  rw [e, ← hr, BitVec.ofInt_toInt]

theorem difference_mixed {x c : V} (hx : x.isNum = true) (hc : c.isNum = true) (h : Mixed x c) :
    Difference x c (.flt (Ieee.sub (x.asFlt ieee) (c.asFlt ieee))) := fun m ca cb => float_arith_exact ieee m .sub ca cb x c hx hc h

theorem mixed_gt {x y : V} (hx : x.isNum = true) (hy : y.isNum = true) (h : Mixed x y) :
    Holds .gt x y ↔ bad y = false ∧ bad x = false ∧ key y < key x := (holds_mixed hx hy h).trans flt_lt

theorem ints_gt {a b : Word} : Holds .gt (.int a) (.int b) ↔ b.toInt < a.toInt := holds_int.trans decide_eq_true_iff

theorem notInfinite_facts {x : V} (h : NotInfinite x) : x.isNum = true ∧ Ieee.isInf (x.asFlt ieee) = false := by
  cases x with
  | int w =>
    have h1 := w.toInt_lt
    have h2 := w.le_toInt
    exact ⟨rfl, Ieee.ofInt_finite (by omega)⟩
  | flt w => exact ⟨rfl, h⟩
  | _ => exact h.elim

theorem nan_sub {a c : Word} (h : Ieee.isNaN a = true ∨ Ieee.isNaN c = true) : Ieee.isNaN (Ieee.sub a c) = true := by
  have : Ieee.isNaN a || Ieee.isNaN (Ieee.neg c) := by
    rw [(Ieee.neg_values c).1]
    rcases h with h | h <;> rw [h] <;> simp
  unfold Ieee.sub Ieee.add
  rw [if_pos this]
  decide

end Verif.Vm.NumOrder
