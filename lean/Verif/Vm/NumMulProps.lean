import Verif.Vm.NumMulLemmas
/-
Multiplication and the order of numbers (C149).
-/
namespace Verif.Vm.NumOrder
open Verif Verif.Vm

/-- C149: for integers of at most 53 bits and finite floats, in any mixture, multiplying with the same number, not negative, keeps `<=`,
as long as products of integers are integers of 64 bits.
Missing: longer integers, longer products, infinities, see the counterexamples. -/
theorem mul_keeps_partial (x y c : V) (hx : Modest x) (hy : Modest y) (hc : Modest c) (fx : Fits x c) (fy : Fits y c)
    (h : Holds .le x y) (h0 : Holds .le (.int 0) c) : ∃ r s, Product x c r ∧ Product y c s ∧ Holds .le r s := by
  obtain ⟨r, r1, r2, r3, r4, r5⟩ := product_key hx hc fx
  obtain ⟨s, s1, s2, s3, s4, s5⟩ := product_key hy hc fy
  refine ⟨r, s, r1, s1, ?_⟩
  have le_key : ∀ {x y : V}, x.isNum = true → y.isNum = true → Holds .le x y → key x ≤ key y := by
    intro x y hx hy h
    by_cases hm : ∃ a b, x = .int a ∧ y = .int b
    · obtain ⟨a, b, rfl, rfl⟩ := hm
      exact int_mono (ints_le.1 h)
    · exact ((mixed_le hx hy hm).1 h).2.2
  have hk := le_key (modest_num hx) (modest_num hy) h
  have hc0 : 0 ≤ key c := by
    have := le_key (x := .int 0) rfl (modest_num hc) h0
    rwa [show key (.int 0) = 0 from by decide +kernel] at this
  have hs : key r ≤ key s := by
    rw [r4, s4]
    exact Ieee.mul_mono (modest_finite hx) (modest_finite hy) (modest_finite hc) hc0 hk
  by_cases hm : ∃ n k, r = .int n ∧ s = .int k
  · obtain ⟨n, k, rfl, rfl⟩ := hm
    obtain ⟨a, b, rfl, rfl, e1⟩ := r5 n rfl
    obtain ⟨a', b', rfl, e, e2⟩ := s5 k rfl
    cases e
    rw [ints_le] at h h0 ⊢
    rw [e1, e2]
    exact Int.mul_le_mul_of_nonneg_right h h0
  · rw [mixed_le r2 s2 hm]
    exact ⟨r3, s3, hs⟩

/-- C149: multiplying two integers with a positive one keeps `<=` and `<`, and with a negative one turns them round, whatever their size, as
long as the products are integers of 64 bits. Missing: products that are not, see `mul_overflow_violated`. -/
theorem mul_integers_partial (a b c : Word) (ha : Fits (.int a) (.int c)) (hb : Fits (.int b) (.int c)) :
    ∃ r s, Product (.int a) (.int c) r ∧ Product (.int b) (.int c) s ∧
      (0 < c.toInt → (Holds .le r s ↔ Holds .le (.int a) (.int b)) ∧ (Holds .lt r s ↔ Holds .lt (.int a) (.int b))) ∧
      (c.toInt < 0 → (Holds .le r s ↔ Holds .le (.int b) (.int a)) ∧ (Holds .lt r s ↔ Holds .lt (.int b) (.int a))) := by
  obtain ⟨r, hr, h1⟩ := product_int ha
  obtain ⟨s, hs, h2⟩ := product_int hb
  refine ⟨_, _, h1, h2, fun hc => ?_, fun hc => ?_⟩
  · rw [ints_le, ints_le, ints_lt, ints_lt, hr, hs]
    exact ⟨Int.mul_le_mul_right hc, Int.mul_lt_mul_right hc⟩
  · rw [ints_le, ints_le, ints_lt, ints_lt, hr, hs]
    have hc' : 0 < -c.toInt := by omega
    have e1 : b.toInt * -c.toInt ≤ a.toInt * -c.toInt ↔ b.toInt ≤ a.toInt := Int.mul_le_mul_right hc'
    have e2 : b.toInt * -c.toInt < a.toInt * -c.toInt ↔ b.toInt < a.toInt := Int.mul_lt_mul_right hc'
    rw [Int.mul_neg, Int.mul_neg] at e1 e2
    exact ⟨by rw [← e1]; omega, by rw [← e2]; omega⟩

/-- C149: 9007199254740993 <= 9007199254740992.0, but three times they are 27021597764222979 and 27021597764222976.0. -/
theorem mul_violated : ¬ MulKeeps := by
  intro h
  obtain ⟨r, s, h1, h2, h3⟩ := h (.int 9007199254740993) (.flt 0x4340000000000000) (.int 3) rfl rfl rfl
    ((holds_num rfl rfl).2 (by decide +kernel)) (ints_le.2 (by decide))
  have e1 := h1 noMem false false
  have e2 := h2 noMem false false
  have f1 : arith ieee noMem .mul (held false (.int 9007199254740993)) (held false (.int 3)) = .val (enc (.int 27021597764222979)) := by
    decide +kernel
  have f2 : arith ieee noMem .mul (held false (.flt 0x4340000000000000)) (held false (.int 3)) = .val (enc (.flt 0x4358000000000000)) := by
    decide +kernel
  have h4 := h3 noMem false false
  rw [f1] at e1
  rw [f2] at e2
  injection e1 with e1
  injection e2 with e2
  have e1' : held false r = held false (.int 27021597764222979) := e1.symm
  have e2' : held false s = held false (.flt 0x4358000000000000) := e2.symm
  rw [e1', e2'] at h4
  exact absurd h4 (by decide +kernel)

/-- C149: twice the largest integer is undefined behaviour, so there is no product to compare. -/
theorem mul_overflow_violated : ∃ x y c : V, Holds .le x y ∧ Holds .le (.int 0) c ∧ ∀ s, ¬ Product y c s := by
  refine ⟨.int 0, .int 0x7FFFFFFFFFFFFFFF, .int 2, ints_le.2 (by decide), ints_le.2 (by decide), fun s h => ?_⟩
  have := h noMem false false
  rw [show arith ieee noMem .mul (held false (.int 0x7FFFFFFFFFFFFFFF)) (held false (.int 2)) = .ub from by decide] at this
  cases this

/-- C149: 0 <= 1, but times infinity they are not a number and infinity, which do not compare. -/
theorem mul_infinity_violated : ∃ x y c r s : V, Holds .le x y ∧ Holds .le (.int 0) c ∧ Product x c r ∧ Product y c s ∧ ¬ Holds .le r s := by
  refine ⟨.int 0, .int 1, .flt 0x7FF0000000000000, .flt Ieee.nan, .flt 0x7FF0000000000000,
    ints_le.2 (by decide), (holds_num rfl rfl).2 (by decide +kernel), ?_, ?_, ?_⟩
  · intro m ca cb
    rw [product_mixed (x := .int 0) (c := .flt 0x7FF0000000000000) rfl rfl mixed_right m ca cb]
    decide +kernel
  · intro m ca cb
    rw [product_mixed (x := .int 1) (c := .flt 0x7FF0000000000000) rfl rfl mixed_right m ca cb]
    decide +kernel
  · rw [mixed_le rfl rfl mixed_left]
    rintro ⟨h, _, _⟩
    exact absurd h (by decide +kernel)

/-- A case of `mul_keeps_partial`: 0.5 <= 1, so 0.5 * 3 <= 1 * 3. -/
example : Modest (.flt 0x3FE0000000000000) ∧ Modest (.int 1) ∧ Modest (.int 3) ∧ Fits (.flt 0x3FE0000000000000) (.int 3) ∧
    Fits (.int 1) (.int 3) ∧ Holds .le (.flt 0x3FE0000000000000) (.int 1) ∧ Holds .le (.int 0) (.int 3) :=
  ⟨⟨by decide +kernel, by decide +kernel⟩, by unfold Modest; decide, by unfold Modest; decide, trivial, by unfold Fits; decide,
    (holds_num rfl rfl).2 (by decide +kernel), ints_le.2 (by decide)⟩

end Verif.Vm.NumOrder
