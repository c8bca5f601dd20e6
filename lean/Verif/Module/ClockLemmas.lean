import Verif.Vm.FloatOrder
import Verif.Module.MathFnsLemmas
import Verif.Module.ClockSpec
namespace Verif.ClockSpec
open Verif Verif.Vm Verif.Clock

/-- `1 / 1000` in units of `2^-1074`. -/
def thousandth : Nat := (2 ^ 52 + 0x0624DD2F1A9FC) * 2 ^ 1012

theorem perMs_facts : Ieee.isNaN perMs = false ∧ Ieee.isInf perMs = false ∧ Ieee.neg? perMs = false ∧ Ieee.mag perMs = thousandth := by
  decide +kernel

theorem thousandth_facts : 2 ^ 53 ≤ thousandth ∧ thousandth * 2 ^ 44 < 2 ^ 2096 ∧
    1000 * thousandth * 2 ^ 53 ≤ 2 ^ 1074 * 2 ^ 53 + 2 ^ 1074 ∧ 2 ^ 1074 * 2 ^ 53 ≤ 1000 * thousandth * 2 ^ 53 + 2 ^ 1074 := by
  decide +kernel

/-- The value of the clock after `k` milliseconds. -/
def after (k : Int) : Word := Ieee.mul (Ieee.ofInt k) perMs

theorem close {A B U M v k : Nat} (hA : A = k * M) (hB : B = k * U) (v1 : v * 2 ^ 53 ≤ A * 2 ^ 53 + A) (v2 : A * 2 ^ 53 ≤ v * 2 ^ 53 + A)
    (m1 : 1000 * M * 2 ^ 53 ≤ U * 2 ^ 53 + U) (m2 : U * 2 ^ 53 ≤ 1000 * M * 2 ^ 53 + U) :
    1000 * v * 2 ^ 51 ≤ B * 2 ^ 51 + B ∧ B * 2 ^ 51 ≤ 1000 * v * 2 ^ 51 + B := by
  have h1 := Nat.mul_le_mul_left k m1
  have h2 := Nat.mul_le_mul_left k m2
  have e1 : k * (1000 * M * 2 ^ 53) = 1000 * A * 2 ^ 53 := by rw [hA, Nat.mul_left_comm 1000 k M, Nat.mul_assoc k]
  have e2 : k * (U * 2 ^ 53 + U) = B * 2 ^ 53 + B := by rw [hB, Nat.mul_add, Nat.mul_assoc]
  have e3 : k * (U * 2 ^ 53) = B * 2 ^ 53 := by rw [hB, Nat.mul_assoc]
  have e4 : k * (1000 * M * 2 ^ 53 + U) = 1000 * A * 2 ^ 53 + B := by rw [Nat.mul_add, e1, hB]
  rw [e1, e2] at h1
  rw [e3, e4] at h2
  clear hA hB m1 m2 e1 e2 e3 e4
  omega

theorem after_facts {k : Int} (hk : k.natAbs ≤ 2 ^ 44) :
    ∃ v : Nat, after k = Ieee.mk (decide (k < 0)) (Ieee.roundBits (k.natAbs * thousandth * 2 ^ 1074) (2 ^ 1074)) ∧
      Ieee.isNaN (after k) = false ∧ Ieee.isInf (after k) = false ∧
      Ieee.scaled (after k) = (if k < 0 then -(v : Int) else v) ∧
      1000 * v * 2 ^ 51 ≤ k.natAbs * 2 ^ 1074 * 2 ^ 51 + k.natAbs * 2 ^ 1074 ∧
      k.natAbs * 2 ^ 1074 * 2 ^ 51 ≤ 1000 * v * 2 ^ 51 + k.natAbs * 2 ^ 1074 := by
  obtain ⟨⟨f1, f2⟩, f3, f4⟩ := MathFns.ofInt_exact (n := k) (Nat.le_trans hk (by decide))
  obtain ⟨p1, p2, p3, p4⟩ := perMs_facts
  obtain ⟨t1, t2, t3, t4⟩ := thousandth_facts
  have he : after k = Ieee.mk (decide (k < 0)) (Ieee.roundBits (k.natAbs * thousandth * 2 ^ 1074) (2 ^ 1074)) := by
    unfold after Ieee.mul
    rw [f1, f2, f3, f4, p1, p2, p3, p4, Nat.mul_right_comm]
    simp only [Bool.or_false, Bool.false_eq_true, if_false, Bool.bne_false]
  have hU : 0 < 2 ^ 1074 := Nat.two_pow_pos _
  have key : Ieee.roundBits (k.natAbs * thousandth * 2 ^ 1074) (2 ^ 1074) < Ieee.infBits ∧
      1000 * Ieee.val (Ieee.roundBits (k.natAbs * thousandth * 2 ^ 1074) (2 ^ 1074)) * 2 ^ 51 ≤
        k.natAbs * 2 ^ 1074 * 2 ^ 51 + k.natAbs * 2 ^ 1074 ∧
      k.natAbs * 2 ^ 1074 * 2 ^ 51 ≤ 1000 * Ieee.val (Ieee.roundBits (k.natAbs * thousandth * 2 ^ 1074) (2 ^ 1074)) * 2 ^ 51 +
        k.natAbs * 2 ^ 1074 := by
    generalize k.natAbs = n at *
    by_cases h0 : n = 0
    · subst h0
      rw [Nat.zero_mul, Nat.zero_mul, Nat.zero_mul, Ieee.roundBits_zero hU, Ieee.val_zero]
      exact ⟨by decide, Nat.zero_le _, Nat.zero_le _⟩
    · have n1 : 1 ≤ n := Nat.pos_of_ne_zero h0
      have l1 : 2 ^ 53 ≤ n * thousandth := Nat.le_trans t1 (by simpa using Nat.mul_le_mul_right thousandth n1)
      have l2 : n * thousandth < 2 ^ 2096 := Nat.lt_of_le_of_lt (by rw [Nat.mul_comm]; exact Nat.mul_le_mul_left _ hk) t2
      obtain ⟨r1, r2, r3⟩ := Ieee.round_rel hU l2 l1
      exact ⟨r1, close rfl rfl r2 r3 t3 t4⟩
  obtain ⟨k1, k2, k3⟩ := key
  have mf := Ieee.mk_facts (s := decide (k < 0)) (Nat.le_of_lt k1)
  refine ⟨_, he, ?_, ?_, ?_, k2, k3⟩
  · rw [he]; exact mf.2.2.2.2.1
  · rw [he, mf.2.2.2.2.2]; exact decide_eq_false (Nat.ne_of_lt k1)
  · rw [he, Ieee.scaled_mk (Nat.le_of_lt k1)]
    by_cases hk0 : k < 0
    · simp only [hk0, decide_true, if_true]
    · simp only [hk0, decide_false, Bool.false_eq_true, if_false]

theorem dist_gen {S C : Int} {B v : Nat} (h : (S = v ∧ C = B) ∨ (S = -(v : Int) ∧ C = -(B : Int)))
    (h1 : 1000 * v * 2 ^ 51 ≤ B * 2 ^ 51 + B) (h2 : B * 2 ^ 51 ≤ 1000 * v * 2 ^ 51 + B) :
    (1000 * S - C).natAbs * 2 ^ 51 ≤ B := by
  have : ((1000 * S - C).natAbs = 1000 * v - B ∧ B ≤ 1000 * v) ∨ ((1000 * S - C).natAbs = B - 1000 * v ∧ 1000 * v ≤ B) := by
    clear h1 h2
    omega
  generalize (1000 * S - C).natAbs = D at *
  generalize 1000 * v = V at *
  clear h
  rcases this with ⟨e, _⟩ | ⟨e, _⟩ <;> subst e
  · rw [Nat.sub_mul, Nat.sub_le_iff_le_add, Nat.add_comm]; exact h1
  · rw [Nat.sub_mul, Nat.sub_le_iff_le_add, Nat.add_comm]; exact h2

theorem seconds_gen {k S W : Int} {U v : Nat} (hW : W = U) (hS : S = if k < 0 then -(v : Int) else v)
    (h1 : 1000 * v * 2 ^ 51 ≤ k.natAbs * U * 2 ^ 51 + k.natAbs * U)
    (h2 : k.natAbs * U * 2 ^ 51 ≤ 1000 * v * 2 ^ 51 + k.natAbs * U) :
    (1000 * S - k * W).natAbs * 2 ^ 51 ≤ k.natAbs * U := by
  subst hW
  have hB : ((k.natAbs * U : Nat) : Int) = if k < 0 then -(k * U) else k * U := by
    rw [Int.natCast_mul]
    split
    · rw [show ((k.natAbs : Nat) : Int) = -k by omega, Int.neg_mul]
    · rw [show ((k.natAbs : Nat) : Int) = k by omega]
  generalize k.natAbs * U = B at *
  generalize k * (U : Int) = C at *
  subst hS
  split at hB <;> rename_i hk
  · rw [if_pos hk]; exact dist_gen (by omega) h1 h2
  · rw [if_neg hk]; exact dist_gen (by omega) h1 h2

/-- The clock is exact up to one part in `2^51`. -/
theorem after_seconds {k : Int} (hk : k.natAbs ≤ 2 ^ 44) : Seconds (after k) k := by
  obtain ⟨v, _, h1, h2, h3, h4, h5⟩ := after_facts hk
  exact ⟨h1, h2, seconds_gen (Int.natCast_pow 2 1074).symm h3 h4 h5⟩

theorem apart_gen {k k' S S' U : Int} (hU : 0 < U) (hk : k.natAbs ≤ 2 ^ 44) (hk' : k'.natAbs ≤ 2 ^ 44) (h : k < k')
    (h1 : (1000 * S - k * U).natAbs * 2 ^ 51 ≤ k.natAbs * U.natAbs) (h2 : (1000 * S' - k' * U).natAbs * 2 ^ 51 ≤ k'.natAbs * U.natAbs) : S < S' := by
  have b1 : k.natAbs * U.natAbs ≤ 2 ^ 44 * U.natAbs := Nat.mul_le_mul_right _ hk
  have b2 : k'.natAbs * U.natAbs ≤ 2 ^ 44 * U.natAbs := Nat.mul_le_mul_right _ hk'
  have b3 : (k + 1) * U ≤ k' * U := Int.mul_le_mul_of_nonneg_right (by omega) (by omega)
  rw [Int.add_mul, Int.one_mul] at b3
  have h1' := Nat.le_trans h1 b1
  have h2' := Nat.le_trans h2 b2
  clear h1 h2 b1 b2
  generalize k * U = C at *
  generalize k' * U = C' at *
  omega

theorem after_lt {k k' : Int} (hk : k.natAbs ≤ 2 ^ 44) (hk' : k'.natAbs ≤ 2 ^ 44) (h : k < k') : Ieee.lt (after k) (after k') = true := by
  obtain ⟨a1, _, a3⟩ := after_seconds hk
  obtain ⟨b1, _, b3⟩ := after_seconds hk'
  have hp : (0 : Int) < 2 ^ 1074 := Int.pow_pos (by decide)
  have := apart_gen (U := 2 ^ 1074) hp hk hk' h (by rw [Int.natAbs_pow]; exact a3) (by rw [Int.natAbs_pow]; exact b3)
  unfold Ieee.lt
  rw [a1, b1, decide_eq_true this]
  rfl

theorem after_le {k k' : Int} (hk : k.natAbs ≤ 2 ^ 44) (hk' : k'.natAbs ≤ 2 ^ 44) (h : k ≤ k') : Ieee.le (after k) (after k') = true := by
  by_cases e : k = k'
  · subst e
    obtain ⟨a1, _, _⟩ := after_seconds hk
    unfold Ieee.le
    rw [a1, decide_eq_true (Int.le_refl _)]
    rfl
  · have := after_lt hk hk' (by omega)
    unfold Ieee.lt at this
    unfold Ieee.le
    simp only [Bool.and_eq_true, decide_eq_true_eq] at this ⊢
    exact ⟨this.1, Int.le_of_lt this.2⟩

theorem calls_from {b : Int} (hb : b ≠ 0) : ∀ (h : List Moment) (i : Nat), (callsFrom b h)[i]? = (h[i]?).map fun m => after (m.reading - b)
  | [], i => by simp [callsFrom]
  | m :: h, i => by
    have hc : clock b m.reading = (b, after (m.reading - b)) := by unfold clock; rw [if_neg hb]; rfl
    rw [callsFrom, hc]
    cases i with
    | zero => rfl
    | succ i => simpa using calls_from hb h i

/-- What every call gives. -/
theorem calls_eq {h : List Moment} {first : Moment} (h0 : h[0]? = some first) (hr : 0 < first.reading) (i : Nat) :
    (calls h)[i]? = (h[i]?).map fun m => after (m.reading - first.reading) := by
  cases h with
  | nil => simp at h0
  | cons m h =>
    simp only [List.getElem?_cons_zero, Option.some.injEq] at h0
    subst h0
    have hc : clock 0 m.reading = (m.reading, after 0) := by unfold clock; rw [if_pos rfl]; rfl
    unfold calls
    rw [callsFrom, hc]
    cases i with
    | zero => simp
    | succ i => simpa using calls_from (b := m.reading) (by omega) h i

end Verif.ClockSpec
