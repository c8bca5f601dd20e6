import Verif.Vm.NumOrderLemmas
/-
The order of numbers (C143, C144) and addition (C145).
-/
namespace Verif.Vm.NumOrder
open Verif Verif.Vm

/-! ## C143 -/

theorem mixed_left {w : Word} {y : V} : Mixed (.flt w) y := by rintro ⟨_, _, h, _⟩; cases h
theorem mixed_right {w : Word} {x : V} : Mixed x (.flt w) := by rintro ⟨_, _, _, h⟩; cases h

/-- C143: `<` is transitive on all numbers, integers and floats together. -/
theorem less_transitive (x y z : V) (hx : x.isNum = true) (hy : y.isNum = true) (hz : z.isNum = true)
    (h1 : Holds .lt x y) (h2 : Holds .lt y z) : Holds .lt x z := by
  cases x <;> cases hx <;> cases y <;> cases hy <;> cases z <;> cases hz
  · rw [ints_lt] at *; omega
  · rw [ints_lt] at h1; rw [mixed_lt rfl rfl mixed_right] at *
    have := int_mono (Int.le_of_lt h1)
    exact ⟨int_good _, h2.2.1, by omega⟩
  · rw [ints_lt]; rw [mixed_lt rfl rfl mixed_right] at h1; rw [mixed_lt rfl rfl mixed_left] at h2
    exact int_lt (by omega)
  · rw [mixed_lt rfl rfl mixed_right] at *
    exact ⟨h1.1, h2.2.1, by omega⟩
  · rw [ints_lt] at h2; rw [mixed_lt rfl rfl mixed_left] at *
    have := int_mono (Int.le_of_lt h2)
    exact ⟨h1.1, int_good _, by omega⟩
  all_goals
    rw [mixed_lt rfl rfl mixed_left] at *
    first
    | exact ⟨h1.1, h2.2.1, by omega⟩
    | (rw [mixed_lt rfl rfl mixed_right] at h2; exact ⟨h1.1, h2.2.1, by omega⟩)

/-- C143: no number is less than itself. -/
theorem less_irreflexive (x : V) (hx : x.isNum = true) : ¬ Holds .lt x x := by
  cases x <;> cases hx
  · rw [ints_lt]; omega
  · rw [mixed_lt rfl rfl mixed_left]; omega

/-- C143: of two numbers at most one is less than the other. -/
theorem less_asymmetric (x y : V) (hx : x.isNum = true) (hy : y.isNum = true) (h : Holds .lt x y) : ¬ Holds .lt y x :=
  fun h' => less_irreflexive x hx (less_transitive x y x hx hy hx h h')

/-- A case of `less_transitive`: 2 < 2.5 and 2.5 < 3. -/
example : Holds .lt (.int 2) (.flt 0x4004000000000000) ∧ Holds .lt (.flt 0x4004000000000000) (.int 3) ∧ Holds .lt (.int 2) (.int 3) :=
  ⟨(holds_num rfl rfl).2 (by decide +kernel), (holds_num rfl rfl).2 (by decide +kernel), ints_lt.2 (by decide)⟩

/-! ## C144 -/

/-- Integers on both sides of a float are of at most 53 bits. -/
def Exact : V → V → V → Prop
  | .int a, .flt _, .int b => a.toInt.natAbs ≤ 2 ^ 53 ∧ b.toInt.natAbs ≤ 2 ^ 53
  | _, _, _ => True

theorem exact_key {a b : Word} (ha : a.toInt.natAbs ≤ 2 ^ 53) (hb : b.toInt.natAbs ≤ 2 ^ 53) :
    (key (.int a) ≤ key (.int b) ↔ a.toInt ≤ b.toInt) := by
  have e1 : key (.int a) = a.toInt * 2 ^ 1074 := (exact_scaled ha).2.2
  have e2 : key (.int b) = b.toInt * 2 ^ 1074 := (exact_scaled hb).2.2
  rw [e1, e2]
  exact Int.mul_le_mul_right (Int.pow_pos (by decide))

/-- C144: `<=` is transitive, unless two integers of which one has more than 53 bits are on both sides of a float.
Missing: such integers, see `ordered_violated`. -/
theorem le_transitive_partial (x y z : V) (hx : x.isNum = true) (hy : y.isNum = true) (hz : z.isNum = true) (he : Exact x y z)
    (h1 : Holds .le x y) (h2 : Holds .le y z) : Holds .le x z := by
  cases x <;> cases hx <;> cases y <;> cases hy <;> cases z <;> cases hz
  · rw [ints_le] at *; omega
  · rw [ints_le] at h1; rw [mixed_le rfl rfl mixed_right] at *
    have := int_mono h1
    exact ⟨int_good _, h2.2.1, by omega⟩
  · rw [ints_le]; rw [mixed_le rfl rfl mixed_right] at h1; rw [mixed_le rfl rfl mixed_left] at h2
    exact (exact_key he.1 he.2).1 (by omega)
  · rw [mixed_le rfl rfl mixed_right] at *
    exact ⟨h1.1, h2.2.1, by omega⟩
  · rw [ints_le] at h2; rw [mixed_le rfl rfl mixed_left] at *
    have := int_mono h2
    exact ⟨h1.1, int_good _, by omega⟩
  all_goals
    rw [mixed_le rfl rfl mixed_left] at *
    first
    | exact ⟨h1.1, h2.2.1, by omega⟩
    | (rw [mixed_le rfl rfl mixed_right] at h2; exact ⟨h1.1, h2.2.1, by omega⟩)

/-- Two numbers are equal exactly if each is at most the other. -/
theorem eq_iff (x y : V) (hx : x.isNum = true) (hy : y.isNum = true) : Holds .eq x y ↔ Holds .le x y ∧ Holds .le y x := by
  cases x <;> cases hx <;> cases y <;> cases hy
  · rw [ints_eq, ints_le, ints_le]; omega
  · rw [mixed_eq rfl rfl mixed_right, mixed_le rfl rfl mixed_right, mixed_le rfl rfl mixed_left]
    exact ⟨fun h => ⟨⟨h.1, h.2.1, by omega⟩, h.2.1, h.1, by omega⟩, fun h => ⟨h.1.1, h.1.2.1, by omega⟩⟩
  · rw [mixed_eq rfl rfl mixed_left, mixed_le rfl rfl mixed_left, mixed_le rfl rfl mixed_right]
    exact ⟨fun h => ⟨⟨h.1, h.2.1, by omega⟩, h.2.1, h.1, by omega⟩, fun h => ⟨h.1.1, h.1.2.1, by omega⟩⟩
  · rw [mixed_eq rfl rfl mixed_left, mixed_le rfl rfl mixed_left, mixed_le rfl rfl mixed_left]
    exact ⟨fun h => ⟨⟨h.1, h.2.1, by omega⟩, h.2.1, h.1, by omega⟩, fun h => ⟨h.1.1, h.1.2.1, by omega⟩⟩

theorem exact_swap {x y z : V} (h : Exact x y z) : Exact z y x := by
  cases x <;> cases y <;> cases z <;> first | exact ⟨h.2, h.1⟩ | trivial

/-- C144: `==` is transitive, unless two integers of which one has more than 53 bits are on both sides of a float.
Missing: such integers, see `ordered_violated`. -/
theorem eq_transitive_partial (x y z : V) (hx : x.isNum = true) (hy : y.isNum = true) (hz : z.isNum = true) (he : Exact x y z)
    (h1 : Holds .eq x y) (h2 : Holds .eq y z) : Holds .eq x z := by
  rw [eq_iff _ _ hx hy] at h1
  rw [eq_iff _ _ hy hz] at h2
  rw [eq_iff _ _ hx hz]
  exact ⟨le_transitive_partial x y z hx hy hz he h1.1 h2.1, le_transitive_partial z y x hz hy hx (exact_swap he) h2.2 h1.2⟩

/-- C144: 9007199254740993 == 9007199254740992.0 and 9007199254740992.0 == 9007199254740992, but 9007199254740993 is not
9007199254740992. -/
theorem ordered_violated : ¬ Ordered := by
  intro h
  have := (h (.int 9007199254740993) (.flt 0x4340000000000000) (.int 9007199254740992) rfl rfl rfl).2
    ((holds_num rfl rfl).2 (by decide +kernel)) ((holds_num rfl rfl).2 (by decide +kernel))
  rw [ints_eq] at this
  exact absurd this (by decide)

/-- The same numbers with `<=`. -/
theorem le_transitive_violated : ∃ x y z : V, Holds .le x y ∧ Holds .le y z ∧ ¬ Holds .le x z := by
  refine ⟨.int 9007199254740993, .flt 0x4340000000000000, .int 9007199254740992, (holds_num rfl rfl).2 (by decide +kernel),
    (holds_num rfl rfl).2 (by decide +kernel), ?_⟩
  rw [ints_le]
  decide

/-! ## C145 -/

theorem sum_int {a c : Word} (h : -(2 : Int) ^ 63 ≤ a.toInt + c.toInt ∧ a.toInt + c.toInt < 2 ^ 63) :
    ∃ r : Word, r.toInt = a.toInt + c.toInt ∧ Sum (.int a) (.int c) (.int r) := by
  refine ⟨BitVec.ofInt 64 (a.toInt + c.toInt), BitVec.toInt_ofInt_eq_self (by decide) h.1 h.2, fun m ca cb => ?_⟩
  obtain ⟨r, hr, e⟩ := (int_arith_exact_partial ieee m ca cb a c).1 h
  rw [e, ← hr, BitVec.ofInt_toInt]

theorem sum_mixed {x c : V} (hx : x.isNum = true) (hc : c.isNum = true) (h : Mixed x c) :
    Sum x c (.flt (Ieee.add (x.asFlt ieee) (c.asFlt ieee))) := fun m ca cb => float_arith_exact ieee m .add ca cb x c hx hc h

theorem modest_num {x : V} (h : Modest x) : x.isNum = true := by cases x <;> first | rfl | exact h.elim

theorem modest_finite {x : V} (h : Modest x) : Ieee.isNaN (x.asFlt ieee) = false ∧ Ieee.isInf (x.asFlt ieee) = false := by
  cases x with
  | int w => exact ⟨(exact_scaled h).1, (exact_scaled h).2.1⟩
  | flt w => exact h
  | _ => exact h.elim

theorem pow_sum {a c : Int} {U : Nat} (hU : 0 < U) : (a * U + c * U).natAbs = (a + c).natAbs * U ∧ (a * (U : Int) + c * U < 0 ↔ a + c < 0) := by
  rw [← Int.add_mul, Int.natAbs_mul, Int.natAbs_natCast]
  refine ⟨rfl, ?_⟩
  constructor
  · intro h
    apply Classical.byContradiction
    intro hn
    have := Int.mul_nonneg (a := a + c) (b := (U : Int)) (by omega) (by omega)
    omega
  · intro h
    exact Int.mul_neg_of_neg_of_pos h (by omega)

/-- The sum of two integers of 53 bits is the same as an integer and as a float. -/
theorem sum_same {a c : Int} (ha : a.natAbs ≤ 2 ^ 53) (hc : c.natAbs ≤ 2 ^ 53) :
    Ieee.scaled (Ieee.ofInt (a + c)) = Ieee.scaled (Ieee.add (Ieee.ofInt a) (Ieee.ofInt c)) := by
  obtain ⟨a1, a2, a3⟩ := exact_scaled ha
  obtain ⟨c1, c2, c3⟩ := exact_scaled hc
  obtain ⟨s, hs, e⟩ := Ieee.add_finite ⟨a1, a2⟩ ⟨c1, c2⟩
  have hp : (2 : Int) ^ 1074 = ((2 ^ 1074 : Nat) : Int) := (Int.natCast_pow 2 1074).symm
  rw [a3, c3, hp] at hs e
  have hU : 0 < 2 ^ 1074 := Nat.two_pow_pos _
  rw [e, (ofInt_scaled _).2, Ieee.scaled_mk (Ieee.roundBits_le _ _)]
  generalize 2 ^ 1074 = U at *
  obtain ⟨p1, p2⟩ := pow_sum (a := a) (c := c) hU
  rw [p1]
  by_cases h0 : a + c = 0
  · rw [h0, show (0 : Int).natAbs = 0 from rfl, Nat.zero_mul, Ieee.roundBits_zero Nat.one_pos, Ieee.val_zero]
    cases s <;> rfl
  · rw [hs ?_, decide_eq_decide.2 p2]
    intro hz
    have : (a + c).natAbs * U = 0 := by rw [← p1, hz]; rfl
    rcases Nat.mul_eq_zero.1 this with h | h <;> omega

theorem add_good {a c : Word} (ha : Ieee.isNaN a = false ∧ Ieee.isInf a = false) (hc : Ieee.isNaN c = false ∧ Ieee.isInf c = false) :
    Ieee.isNaN (Ieee.add a c) = false := by
  obtain ⟨s, _, e⟩ := Ieee.add_finite ha hc
  rw [e]
  exact (Ieee.mk_facts (Ieee.roundBits_le _ _)).2.2.2.2.1

/-- What adding gives, as a number. -/
theorem sum_key {x c : V} (hx : Modest x) (hc : Modest c) :
    ∃ r, Sum x c r ∧ r.isNum = true ∧ bad r = false ∧ key r = Ieee.scaled (Ieee.add (x.asFlt ieee) (c.asFlt ieee)) ∧
      ∀ n, r = .int n → ∃ a b, x = .int a ∧ c = .int b ∧ n.toInt = a.toInt + b.toInt := by
  by_cases h : ∃ a b, x = .int a ∧ c = .int b
  · obtain ⟨a, b, rfl, rfl⟩ := h
    have ha : a.toInt.natAbs ≤ 2 ^ 53 := hx
    have hb : b.toInt.natAbs ≤ 2 ^ 53 := hc
    obtain ⟨n, hn, hs⟩ := sum_int (a := a) (c := b) (by omega)
    refine ⟨.int n, hs, rfl, int_good _, ?_, ?_⟩
    · show Ieee.scaled (Ieee.ofInt n.toInt) = _
      rw [hn]
      exact sum_same ha hb
    · intro n' e
      cases e
      exact ⟨a, b, rfl, rfl, hn⟩
  · refine ⟨_, sum_mixed (modest_num hx) (modest_num hc) h, rfl, add_good (modest_finite hx) (modest_finite hc), rfl, ?_⟩
    intro n e
    cases e

/-- C145: for integers of at most 53 bits and finite floats, in any mixture, adding the same number keeps `<=`.
Missing: longer integers, infinities, see the counterexamples. -/
theorem add_keeps_partial (x y c : V) (hx : Modest x) (hy : Modest y) (hc : Modest c) (h : Holds .le x y) :
    ∃ r s, Sum x c r ∧ Sum y c s ∧ Holds .le r s := by
  obtain ⟨r, r1, r2, r3, r4, r5⟩ := sum_key hx hc
  obtain ⟨s, s1, s2, s3, s4, s5⟩ := sum_key hy hc
  refine ⟨r, s, r1, s1, ?_⟩
  have hk : key x ≤ key y := by
    by_cases hm : ∃ a b, x = .int a ∧ y = .int b
    · obtain ⟨a, b, rfl, rfl⟩ := hm
      exact int_mono (ints_le.1 h)
    · exact ((mixed_le (modest_num hx) (modest_num hy) hm).1 h).2.2
  have hs : key r ≤ key s := by
    rw [r4, s4]
    exact Ieee.add_mono (modest_finite hx) (modest_finite hy) (modest_finite hc) hk
  by_cases hm : ∃ n k, r = .int n ∧ s = .int k
  · obtain ⟨n, k, rfl, rfl⟩ := hm
    obtain ⟨a, b, rfl, rfl, e1⟩ := r5 n rfl
    obtain ⟨a', b', rfl, e, e2⟩ := s5 k rfl
    cases e
    rw [ints_le] at h ⊢
    omega
  · rw [mixed_le r2 s2 hm]
    exact ⟨r3, s3, hs⟩

/-- C145: adding to two integers keeps `<=` and `<`, whatever their size, as long as the sums are integers of 64 bits.
Missing: sums that are not, see `add_overflow_violated`. -/
theorem add_integers_partial (a b c : Word) (ha : -(2 : Int) ^ 63 ≤ a.toInt + c.toInt ∧ a.toInt + c.toInt < 2 ^ 63)
    (hb : -(2 : Int) ^ 63 ≤ b.toInt + c.toInt ∧ b.toInt + c.toInt < 2 ^ 63) :
    ∃ r s, Sum (.int a) (.int c) r ∧ Sum (.int b) (.int c) s ∧ (Holds .le r s ↔ Holds .le (.int a) (.int b)) ∧
      (Holds .lt r s ↔ Holds .lt (.int a) (.int b)) := by
  obtain ⟨r, hr, h1⟩ := sum_int ha
  obtain ⟨s, hs, h2⟩ := sum_int hb
  refine ⟨_, _, h1, h2, ?_, ?_⟩
  · rw [ints_le, ints_le]; omega
  · rw [ints_lt, ints_lt]; omega

/-- C145: 9007199254740993 <= 9007199254740992.0, but with 1 added to both it is 9007199254740994 and 9007199254740992.0. -/
theorem add_violated : ¬ AddKeeps := by
  intro h
  obtain ⟨r, s, h1, h2, h3⟩ := h (.int 9007199254740993) (.flt 0x4340000000000000) (.int 1) rfl rfl rfl
    ((holds_num rfl rfl).2 (by decide +kernel))
  have e1 := h1 noMem false false
  have e2 := h2 noMem false false
  have f1 : arith ieee noMem .add (held false (.int 9007199254740993)) (held false (.int 1)) = .val (enc (.int 9007199254740994)) := by
    decide +kernel
  have f2 : arith ieee noMem .add (held false (.flt 0x4340000000000000)) (held false (.int 1)) = .val (enc (.flt 0x4340000000000000)) := by
    decide +kernel
  have h4 := h3 noMem false false
  rw [f1] at e1
  rw [f2] at e2
  injection e1 with e1
  injection e2 with e2
  have e1' : held false r = held false (.int 9007199254740994) := e1.symm
  have e2' : held false s = held false (.flt 0x4340000000000000) := e2.symm
  rw [e1', e2'] at h4
  exact absurd h4 (by decide +kernel)

/-- C145: adding 1 to the largest integer is undefined behaviour, so there is no sum to compare. -/
theorem add_overflow_violated : ∃ x y c : V, Holds .le x y ∧ ∀ s, ¬ Sum y c s := by
  refine ⟨.int 0, .int 0x7FFFFFFFFFFFFFFF, .int 1, ints_le.2 (by decide), fun s h => ?_⟩
  have := h noMem false false
  rw [show arith ieee noMem .add (held false (.int 0x7FFFFFFFFFFFFFFF)) (held false (.int 1)) = .ub from by decide] at this
  cases this

/-- C145: infinity and its negative have no sum that is a number: 1 <= infinity, but the sums with negative infinity do not compare. -/
theorem add_infinity_violated : ∃ x y c r s : V, Holds .le x y ∧ Sum x c r ∧ Sum y c s ∧ ¬ Holds .le r s := by
  refine ⟨.flt 0x3FF0000000000000, .flt 0x7FF0000000000000, .flt 0xFFF0000000000000, .flt 0xFFF0000000000000, .flt Ieee.nan,
    (holds_num rfl rfl).2 (by decide +kernel), ?_, ?_, ?_⟩
  · intro m ca cb
    rw [sum_mixed (x := .flt 0x3FF0000000000000) (c := .flt 0xFFF0000000000000) rfl rfl mixed_left m ca cb]
    decide +kernel
  · intro m ca cb
    rw [sum_mixed (x := .flt 0x7FF0000000000000) (c := .flt 0xFFF0000000000000) rfl rfl mixed_left m ca cb]
    decide +kernel
  · rw [mixed_le rfl rfl mixed_left]
    rintro ⟨_, h, _⟩
    exact absurd h (by decide +kernel)

/-- A case of `add_keeps_partial`: 0.5 <= 1, so 0.5 + 0.1 <= 1 + 0.1. -/
example : Modest (.flt 0x3FE0000000000000) ∧ Modest (.int 1) ∧ Modest (.flt 0x3FB999999999999A) ∧
    Holds .le (.flt 0x3FE0000000000000) (.int 1) :=
  ⟨⟨by decide +kernel, by decide +kernel⟩, by unfold Modest; decide, ⟨by decide +kernel, by decide +kernel⟩,
    (holds_num rfl rfl).2 (by decide +kernel)⟩

end Verif.Vm.NumOrder
