import Verif.Vm.NumOrderProps
import Verif.Vm.NumMulSpec
namespace Verif.Vm.Ieee
open Verif Verif.Vm

theorem near_scale (m w : Nat) {d : Nat} (hd : 0 < d) : near (m * d) (d * w) = near m w := by
  unfold near
  have h1 : m * d / (d * w) = m / w := by rw [Nat.mul_comm d w]; exact Nat.mul_div_mul_right _ _ hd
  have h2 : m * d % (d * w) = m % w * d := by rw [Nat.mul_comm d w]; exact Nat.mul_mod_mul_right _ _ _
  rw [h1, h2]
  have e1 : d * w < 2 * (m % w * d) ↔ w < 2 * (m % w) := by
    rw [← Nat.mul_assoc, Nat.mul_comm d w]; exact Nat.mul_lt_mul_right hd
  have e2 : 2 * (m % w * d) = d * w ↔ 2 * (m % w) = w := by
    rw [← Nat.mul_assoc, Nat.mul_comm d w]; exact Nat.mul_left_inj (Nat.ne_of_gt hd)
  simp only [e1, e2]

theorem roundBits_scale (m : Nat) {d : Nat} (hd : 0 < d) : roundBits (m * d) d = roundBits m 1 := by
  rw [roundBits_eq, roundBits_eq, Nat.mul_div_cancel _ hd, Nat.div_one, near_scale _ _ hd, Nat.one_mul]

theorem mul_finite {a c : Word} (ha : isNaN a = false ∧ isInf a = false) (hc : isNaN c = false ∧ isInf c = false) :
    mul a c = mk (neg? a != neg? c) (roundBits (mag a * mag c) (2 ^ 1074)) := by
  unfold mul
  rw [ha.1, ha.2, hc.1, hc.2]
  rfl

theorem sign_facts (w : Word) : (scaled w).natAbs = mag w ∧ (scaled w ≠ 0 → neg? w = decide (scaled w < 0)) := by
  unfold scaled
  cases neg? w
  · simp
  · simp; omega

theorem mul_mono {a b c : Word} (ha : isNaN a = false ∧ isInf a = false) (hb : isNaN b = false ∧ isInf b = false)
    (hc : isNaN c = false ∧ isInf c = false) (h0 : 0 ≤ scaled c) (h : scaled a ≤ scaled b) : scaled (mul a c) ≤ scaled (mul b c) := by
  have hU : 0 < 2 ^ 1074 := Nat.two_pow_pos _
  rw [mul_finite ha hc, mul_finite hb hc, scaled_mk (roundBits_le _ _), scaled_mk (roundBits_le _ _)]
  by_cases hz : mag c = 0
  · rw [hz, Nat.mul_zero, Nat.mul_zero, roundBits_zero hU, val_zero]
    split <;> split <;> decide
  · have hn : neg? c = false := by
      have := sign_facts c
      rw [this.2 (by intro h; rw [h] at this; exact hz this.1.symm)]
      exact decide_eq_false (by omega)
    rw [hn, Bool.bne_false, Bool.bne_false, ← (sign_facts a).1, ← (sign_facts b).1]
    exact sign_mono (fun n => val (roundBits (n * mag c) (2 ^ 1074)))
      (by show val (roundBits (0 * mag c) (2 ^ 1074)) = 0; rw [Nat.zero_mul, roundBits_zero hU, val_zero])
      (fun n n' h => val_mono (roundBits_mono (Nat.mul_le_mul_right _ h))) _ _ _ _ h (sign_facts a).2 (sign_facts b).2

end Verif.Vm.Ieee

namespace Verif.Vm.NumOrder
open Verif Verif.Vm

theorem product_int {a c : Word} (h : -(2 : Int) ^ 63 ≤ a.toInt * c.toInt ∧ a.toInt * c.toInt < 2 ^ 63) :
    ∃ r : Word, r.toInt = a.toInt * c.toInt ∧ Product (.int a) (.int c) (.int r) := by
  refine ⟨BitVec.ofInt 64 (a.toInt * c.toInt), BitVec.toInt_ofInt_eq_self (by decide) h.1 h.2, fun m ca cb => ?_⟩
  obtain ⟨r, hr, e⟩ := (int_arith_exact_partial ieee m ca cb a c).2.2 h
  rw [e, ← hr, BitVec.ofInt_toInt]

theorem product_mixed {x c : V} (hx : x.isNum = true) (hc : c.isNum = true) (h : Mixed x c) :
    Product x c (.flt (Ieee.mul (x.asFlt ieee) (c.asFlt ieee))) := fun m ca cb => float_arith_exact ieee m .mul ca cb x c hx hc h

theorem sign_product {a c : Int} (h : a * c ≠ 0) : decide (a * c < 0) = (decide (a < 0) != decide (c < 0)) := by
  have ha : a ≠ 0 := by intro e; rw [e, Int.zero_mul] at h; exact h rfl
  have hc : c ≠ 0 := by intro e; rw [e, Int.mul_zero] at h; exact h rfl
  by_cases h1 : a < 0 <;> by_cases h2 : c < 0
  · have := Int.mul_pos_of_neg_of_neg h1 h2
    rw [decide_eq_true h1, decide_eq_true h2, decide_eq_false (by omega)]; rfl
  · have := Int.mul_neg_of_neg_of_pos h1 (show 0 < c by omega)
    rw [decide_eq_true h1, decide_eq_false h2, decide_eq_true this]; rfl
  · have := Int.mul_neg_of_pos_of_neg (show 0 < a by omega) h2
    rw [decide_eq_false h1, decide_eq_true h2, decide_eq_true this]; rfl
  · have := Int.mul_pos (show 0 < a by omega) (show 0 < c by omega)
    rw [decide_eq_false h1, decide_eq_false h2, decide_eq_false (by omega)]; rfl

/-- The product of two integers of 53 bits is the same as an integer, rounded, and as a float. -/
theorem product_same {a c : Int} (ha : a.natAbs ≤ 2 ^ 53) (hc : c.natAbs ≤ 2 ^ 53) :
    Ieee.scaled (Ieee.ofInt (a * c)) = Ieee.scaled (Ieee.mul (Ieee.ofInt a) (Ieee.ofInt c)) := by
  obtain ⟨fa, a3, a4⟩ := MathFns.ofInt_exact (n := a) ha
  obtain ⟨fc, c3, c4⟩ := MathFns.ofInt_exact (n := c) hc
  have hU : 0 < 2 ^ 1074 := Nat.two_pow_pos _
  have e : ∀ A C U : Nat, A * U * (C * U) = A * C * U * U := fun A C U => by
    rw [Nat.mul_assoc A U, Nat.mul_left_comm U C U, ← Nat.mul_assoc, ← Nat.mul_assoc]
  rw [Ieee.mul_finite fa fc, a3, a4, c3, c4, (ofInt_scaled _).2, Ieee.scaled_mk (Ieee.roundBits_le _ _), e, Ieee.roundBits_scale _ hU,
    Int.natAbs_mul]
  by_cases h0 : a * c = 0
  · have hz : a.natAbs * c.natAbs = 0 := by rw [← Int.natAbs_mul, h0]; rfl
    rw [hz, Nat.zero_mul, Ieee.roundBits_zero Nat.one_pos, Ieee.val_zero]
    split <;> split <;> rfl
  · rw [sign_product h0]

theorem mul_good {a c : Word} (ha : Ieee.isNaN a = false ∧ Ieee.isInf a = false) (hc : Ieee.isNaN c = false ∧ Ieee.isInf c = false) :
    Ieee.isNaN (Ieee.mul a c) = false := by
  rw [Ieee.mul_finite ha hc]
  exact (Ieee.mk_facts (Ieee.roundBits_le _ _)).2.2.2.2.1

/-- What multiplying gives, as a number. -/
theorem product_key {x c : V} (hx : Modest x) (hc : Modest c) (hf : Fits x c) :
    ∃ r, Product x c r ∧ r.isNum = true ∧ bad r = false ∧ key r = Ieee.scaled (Ieee.mul (x.asFlt ieee) (c.asFlt ieee)) ∧
      ∀ n, r = .int n → ∃ a b, x = .int a ∧ c = .int b ∧ n.toInt = a.toInt * b.toInt := by
  by_cases h : ∃ a b, x = .int a ∧ c = .int b
  · obtain ⟨a, b, rfl, rfl⟩ := h
    obtain ⟨n, hn, hs⟩ := product_int (a := a) (c := b) hf
    refine ⟨.int n, hs, rfl, int_good _, ?_, ?_⟩
    · show Ieee.scaled (Ieee.ofInt n.toInt) = _
      rw [hn]
      exact product_same hx hc
    · intro n' e
      cases e
      exact ⟨a, b, rfl, rfl, hn⟩
  · refine ⟨_, product_mixed (modest_num hx) (modest_num hc) h, rfl, mul_good (modest_finite hx) (modest_finite hc), rfl, ?_⟩
    intro n e
    cases e

end Verif.Vm.NumOrder
