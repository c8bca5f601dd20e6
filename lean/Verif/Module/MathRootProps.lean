import Verif.Module.MathFnsProps
import Verif.Module.MathRootLemmas
/-
`Math::degToRad` (C146, C147) and `Math::sqrt` (C148).
-/
namespace Verif.MathFns
open Verif Verif.Vm Verif.Vm.Native Verif.Vm.NumbersSpec Verif.MathFnsSpec
open Verif.Vm.Ieee

/-! ### C146: the order of angles -/

theorem atMost_reads {a b : Arg} (h : AtMost a b) : ∃ x y, Reads a x ∧ Reads b y := by
  cases a <;> cases b <;> first
    | exact ⟨_, _, .int _, .int _⟩
    | (obtain ⟨x, y, h1, h2, _⟩ := h; exact ⟨x, y, h1, h2⟩)

theorem le_intro {x y : Word} (h1 : isNaN x = false) (h2 : isNaN y = false) (h : scaled x ≤ scaled y) : Ieee.le x y = true := by
  unfold Ieee.le
  rw [h1, h2, decide_eq_true h]
  rfl

/-- `Math::degToRad` keeps the order of all numbers. -/
theorem degrees_ordered (w : World) (L : Lib) (s t : Stk) (a b : Arg) (hs : Shows w s a) (ht : Shows w t b) (h : AtMost a b) :
    ∃ r r', call w L .degToRad [s] = .ok r ∧ call w L .degToRad [t] = .ok r' ∧ Ieee.le r r' = true := by
  obtain ⟨x, y, hx, hy⟩ := atMost_reads h
  obtain ⟨n1, n2, hle⟩ := atMost_le h hx hy
  exact ⟨_, _, call_reads rfl hs hx, call_reads rfl ht hy, le_intro (deg_nan n1) (deg_nan n2) (deg_mono n1 n2 hle)⟩

/-- 0 degrees are 0 and 180 degrees are `PI`, as integers and as floats. -/
theorem degrees_known (w : World) (L : Lib) (s : Stk) :
    (Shows w s (.int 0) ∨ Shows w s (.float 0) → call w L .degToRad [s] = .ok 0) ∧
    (Shows w s (.int 180) ∨ Shows w s (.float 0x4066800000000000) → call w L .degToRad [s] = .ok PI) := by
  refine ⟨?_, ?_⟩
  · rintro (h | h)
    · rw [call_reads rfl h (.int 0)]; exact congrArg Out.ok (show degToRad (ofInt 0) = 0 by decide +kernel)
    · rw [call_reads rfl h (.float 0)]; exact congrArg Out.ok (show degToRad 0 = 0 by decide +kernel)
  · rintro (h | h)
    · rw [call_reads rfl h (.int 180)]; exact congrArg Out.ok (show degToRad (ofInt 180) = PI by decide +kernel)
    · rw [call_reads rfl h (.float _)]; exact congrArg Out.ok (show degToRad 0x4066800000000000 = PI by decide +kernel)

/-! ### C147: the size of angles -/

/-- C147, full: for every finite number of degrees `Math::degToRad` gives the radians. -/
def AlwaysRadians : Prop := ∀ (w : World) (L : Lib) (s : Stk) (a : Arg) (x : Word), Shows w s a → Reads a x → Finite x →
  ∃ r, call w L .degToRad [s] = .ok r ∧ IsRadians x r (mag PI)

theorem pi_size : 3 * 2 ^ 1074 ≤ mag PI ∧ mag PI ≤ 4 * 2 ^ 1074 := by decide +kernel

theorem four_steps {A V W' V' A' : Nat} (h1 : 4 * V' ≤ 4 * A' + A) (h1' : 4 * A' ≤ 4 * V' + A) (h2 : 4 * W' ≤ 4 * V' + V)
    (h2' : 4 * V' ≤ 4 * W' + V) (hV : V ≤ 2 * A) : W' ≤ A' + A ∧ A' ≤ W' + A := by omega

theorem two_steps {A V W : Nat} (h1 : V * 2 ^ 53 ≤ A * 2 ^ 53 + A) (h1' : A * 2 ^ 53 ≤ V * 2 ^ 53 + A) (h2 : W * 2 ^ 53 ≤ V * 2 ^ 53 + V)
    (h2' : V * 2 ^ 53 ≤ W * 2 ^ 53 + V) (hV : V ≤ 2 * A) : W * 2 ^ 51 ≤ A * 2 ^ 51 + A ∧ A * 2 ^ 51 ≤ W * 2 ^ 51 + A := by
  have e : ∀ n : Nat, n * 2 ^ 53 = 4 * (n * 2 ^ 51) := fun n => by rw [show 2 ^ 53 = 4 * 2 ^ 51 from by decide, Nat.mul_left_comm]
  rw [e, e] at h1 h1' h2 h2'
  exact four_steps h1 h1' h2 h2' hV

/-- Two roundings. -/
theorem twice {U P m v1 v2 : Nat} (hU : 0 < U) (hP : 3 * U ≤ P ∧ P ≤ 4 * U)
    (h1 : v1 * U * 2 ^ 53 ≤ m * P * 2 ^ 53 + m * P ∧ m * P * 2 ^ 53 ≤ v1 * U * 2 ^ 53 + m * P) :
    m ≤ v1 ∧ v1 ≤ 8 * m ∧
    (v2 * (180 * U) * 2 ^ 53 ≤ v1 * U * 2 ^ 53 + v1 * U ∧ v1 * U * 2 ^ 53 ≤ v2 * (180 * U) * 2 ^ 53 + v1 * U →
      v2 * (180 * U) * 2 ^ 51 ≤ m * P * 2 ^ 51 + m * P ∧ m * P * 2 ^ 51 ≤ v2 * (180 * U) * 2 ^ 51 + m * P) := by
  have a1 : 3 * (m * U) ≤ m * P := by rw [Nat.mul_left_comm]; exact Nat.mul_le_mul_left m hP.1
  have a2 : m * P ≤ 4 * (m * U) := by rw [Nat.mul_left_comm]; exact Nat.mul_le_mul_left m hP.2
  refine ⟨?_, ?_, ?_⟩
  · apply Nat.le_of_mul_le_mul_right _ hU
    generalize m * P = A at *
    generalize m * U = M at *
    generalize v1 * U = V at *
    omega
  · apply Nat.le_of_mul_le_mul_right _ hU
    rw [Nat.mul_assoc]
    generalize m * P = A at *
    generalize m * U = M at *
    generalize v1 * U = V at *
    omega
  · intro h2
    generalize m * P = A at *
    generalize v1 * U = V at *
    generalize v2 * (180 * U) = W at *
    clear a1 a2
    obtain ⟨h1, h1'⟩ := h1
    obtain ⟨h2, h2'⟩ := h2
    have hV : V ≤ 2 * A := by clear h2 h2' h1'; omega
    exact two_steps h1 h1' h2 h2' hV

theorem signed_dist {n : Bool} {X S W : Int} {P A B U m v : Nat} (hW : W = U) (hX : X = if n then -(m : Int) else m)
    (hS : S = if n then -(v : Int) else v) (hA : A = v * (180 * U)) (hB : B = m * P)
    (h : A * 2 ^ 51 ≤ B * 2 ^ 51 + B ∧ B * 2 ^ 51 ≤ A * 2 ^ 51 + B) :
    (180 * W * S - X * P).natAbs * 2 ^ 51 ≤ X.natAbs * P := by
  have e : X.natAbs = m := by rw [hX]; split <;> omega
  rw [e, ← hB]
  have d : (180 * W * S - X * P).natAbs = A - B ∨ (180 * W * S - X * P).natAbs = B - A := by
    have eA : (A : Int) = 180 * W * v := by
      rw [hA, hW, Int.natCast_mul, Int.natCast_mul, Int.mul_comm]
      rfl
    have eB : (B : Int) = m * P := by rw [hB, Int.natCast_mul]
    cases n
    · simp only [Bool.false_eq_true, if_false] at hX hS
      subst hX hS
      rw [← eA, ← eB]
      clear h hA hB eA eB
      omega
    · simp only [if_true] at hX hS
      subst hX hS
      rw [Int.mul_neg, ← eA, Int.neg_mul, ← eB]
      clear h hA hB eA eB
      omega
  rcases d with d | d <;> rw [d, Nat.sub_mul, Nat.sub_le_iff_le_add, Nat.add_comm]
  · exact h.1
  · exact h.2

theorem scaled_sign (x : Word) : scaled x = if neg? x = true then -(mag x : Int) else (mag x : Int) := rfl

/-- C147: zero, and numbers from `2^-1000` to `2^1000` in size, are converted up to one part in `2^51`.
Missing: numbers beyond, see `degrees_violated` and `degrees_small_violated`. -/
theorem degrees_radians_partial (w : World) (L : Lib) (s : Stk) (a : Arg) (x : Word) (hs : Shows w s a) (hx : Reads a x) (hf : Finite x)
    (hr : scaled x = 0 ∨ (2 ^ 74 ≤ (scaled x).natAbs ∧ (scaled x).natAbs ≤ 2 ^ 2074)) :
    ∃ r, call w L .degToRad [s] = .ok r ∧ IsRadians x r (mag PI) := by
  refine ⟨_, call_reads rfl hs hx, ?_⟩
  show IsRadians x (degToRad x) (mag PI)
  have hU : 0 < 2 ^ 1074 := Nat.two_pow_pos _
  have hmag : (scaled x).natAbs = mag x := by rw [scaled_sign]; split <;> omega
  rw [hmag] at hr
  have hp : (2 : Int) ^ 1074 = ((2 ^ 1074 : Nat) : Int) := (Int.natCast_pow 2 1074).symm
  have m1 := mk_facts (s := neg? x) (roundBits_le (mag x * mag PI) (2 ^ 1074))
  have e : degToRad x = mk (neg? x) (overHalf (val (roundBits (mag x * mag PI) (2 ^ 1074)))) := by
    unfold degToRad
    rw [div_half (mul_pi_nan hf.1), mul_pi hf.1, m1.1, m1.2.2.2.1]
  have m2 := mk_facts (s := neg? x) (overHalf_le (val (roundBits (mag x * mag PI) (2 ^ 1074))))
  have key : overHalf (val (roundBits (mag x * mag PI) (2 ^ 1074))) < infBits ∧
      (val (overHalf (val (roundBits (mag x * mag PI) (2 ^ 1074)))) * (180 * 2 ^ 1074) * 2 ^ 51 ≤ mag x * mag PI * 2 ^ 51 + mag x * mag PI ∧
       mag x * mag PI * 2 ^ 51 ≤ val (overHalf (val (roundBits (mag x * mag PI) (2 ^ 1074)))) * (180 * 2 ^ 1074) * 2 ^ 51 + mag x * mag PI) := by
    rcases hr with h0 | ⟨r1, r2⟩
    · have : mag x = 0 := by rw [← hmag, h0]; rfl
      rw [this, Nat.zero_mul, roundBits_zero hU, val_zero, overHalf_zero, val_zero, Nat.zero_mul, Nat.zero_mul]
      exact ⟨by decide, by decide, by decide⟩
    · have q1 : mag x ≤ mag x * mag PI / 2 ^ 1074 := by
        rw [Nat.le_div_iff_mul_le hU]
        exact Nat.mul_le_mul_left _ (Nat.le_trans (Nat.le_mul_of_pos_left _ (by decide)) pi_size.1)
      have q2 : mag x * mag PI / 2 ^ 1074 ≤ mag x * 4 := by
        apply Nat.div_le_of_le_mul
        rw [Nat.mul_comm (2 ^ 1074), Nat.mul_assoc]
        exact Nat.mul_le_mul_left _ pi_size.2
      obtain ⟨b1, b2⟩ := round_part hU (Nat.lt_of_le_of_lt q2 (Nat.lt_of_le_of_lt (Nat.mul_le_mul_right 4 r2) (by decide +kernel)))
        (Nat.le_trans (Nat.le_trans (by decide) r1) q1)
      obtain ⟨t1, t2, t3⟩ := twice (v2 := val (overHalf (val (roundBits (mag x * mag PI) (2 ^ 1074))))) hU pi_size b2
      generalize val (roundBits (mag x * mag PI) (2 ^ 1074)) = v1 at *
      have hv : v1 ≤ 2 ^ 2077 := Nat.le_trans t2 (Nat.le_trans (Nat.mul_le_mul_left 8 r2) (by decide +kernel))
      have hv' : 2 ^ 74 ≤ v1 := Nat.le_trans r1 t1
      have ho : overHalf v1 = roundBits (v1 * 2 ^ 1074) (180 * 2 ^ 1074) :=
        if_neg (Nat.not_le.2 (Nat.lt_of_le_of_lt hv (by decide +kernel)))
      have hd : v1 * 2 ^ 1074 / (180 * 2 ^ 1074) = v1 / 180 := Nat.mul_div_mul_right _ _ hU
      have g := round_part (n := v1 * 2 ^ 1074) (d := 180 * 2 ^ 1074) (Nat.mul_pos (by decide) hU)
        (by rw [hd]; exact Nat.lt_of_le_of_lt (Nat.le_trans (Nat.div_le_self _ _) hv) (by decide +kernel))
        (by rw [hd, Nat.le_div_iff_mul_le (by decide)]; exact Nat.le_trans (by decide) hv')
      rw [← ho] at g
      exact ⟨g.1, t3 g.2⟩
  rw [e]
  refine ⟨⟨m2.2.2.2.2.1, ?_⟩, ?_⟩
  · rw [m2.2.2.2.2.2]; exact decide_eq_false (Nat.ne_of_lt key.1)
  · rw [hp]
    exact signed_dist rfl (scaled_sign x) (scaled_mk (overHalf_le _)) rfl rfl key.2

/-- C147: `2^1023` degrees are infinitely many radians, because they are multiplied before they are divided. -/
theorem degrees_violated : ¬ AlwaysRadians := by
  intro h
  obtain ⟨r, h1, h2, _⟩ := h demoWorld demoLib (mkFloat 0x7FE0000000000000) _ 0x7FE0000000000000 (shows_float _ _) (.float _)
    (by unfold Finite; decide +kernel)
  rw [show call demoWorld demoLib .degToRad [mkFloat 0x7FE0000000000000] = .ok 0x7FF0000000000000 from by decide +kernel] at h1
  injection h1 with h1
  subst h1
  exact absurd h2.2 (by decide +kernel)

/-- C147: the least float is zero radians. -/
theorem degrees_small_violated (w : World) (L : Lib) : call w L .degToRad [mkFloat 1] = .ok 0 := by
  rw [call_reads rfl (shows_float w 1) (.float 1)]
  exact congrArg Out.ok (show degToRad 1 = 0 by decide +kernel)

/-- A case of `degrees_radians_partial` and `degrees_ordered`: 57.5 degrees, 60 degrees. -/
example (w : World) : Shows w (mkFloat 0x404CC00000000000) (.float 0x404CC00000000000) ∧ Shows w (mkInt 60) (.int 60) ∧
    AtMost (.float 0x404CC00000000000) (.int 60) ∧ Finite 0x404CC00000000000 ∧ 2 ^ 74 ≤ (scaled 0x404CC00000000000).natAbs ∧
    (scaled 0x404CC00000000000).natAbs ≤ 2 ^ 2074 :=
  ⟨shows_float _ _, shows_int _ _, ⟨_, _, .float _, .int _, by decide +kernel⟩, by unfold Finite; decide +kernel, by decide +kernel, by decide +kernel⟩

/-! ### C148: roots -/

/-- The magnitude of the root. -/
def rootMag (n : Nat) : Nat := if 2 ^ 2098 ≤ n then val infBits else val (roundBits (marked (n * 2 ^ 1074)) 2)

theorem inf_is : val infBits = (2 ^ 52 + 0) * 2 ^ (2047 - 1) := by decide +kernel

theorem inf_val {x : Word} (h : isInf x = true) : mag x = val infBits := by
  unfold isInf at h
  simp only [Bool.and_eq_true, decide_eq_true_eq] at h
  unfold mag
  rw [h.1, h.2, if_neg (by decide), inf_is]

theorem sqrt_scaled {x : Word} (hn : isNaN x = false) (h0 : 0 ≤ scaled x) : isNaN (sqrt x) = false ∧ scaled (sqrt x) = rootMag (mag x) := by
  have hm : scaled x = mag x := by
    unfold scaled at h0 ⊢
    split at h0
    · rename_i h; rw [if_pos h]; omega
    · rename_i h; rw [if_neg h]
  by_cases hz : mag x = 0
  · have e : sqrt x = x := by unfold sqrt; rw [hn, if_neg Bool.false_ne_true, if_pos hz]
    rw [e, hm, hz]
    refine ⟨hn, ?_⟩
    unfold rootMag
    rw [if_neg (Nat.not_le.2 (Nat.two_pow_pos _)), marked_sq (k := 0) (Nat.two_pow_pos _) (by rw [Nat.zero_mul, Nat.zero_mul]), Nat.mul_zero,
      roundBits_zero (by decide), val_zero]
  · have hp : neg? x = false := by
      cases h : neg? x
      · rfl
      · unfold scaled at hm; rw [h] at hm; simp at hm; omega
    cases hi : isInf x
    · have hf : FloatText.Finite x := ⟨hn, hi⟩
      rw [sqrt_pos hf (by omega)]
      refine ⟨(mk_facts (roundBits_le _ _)).2.2.2.2.1, ?_⟩
      rw [scaled_mk (roundBits_le _ _)]
      unfold rootMag
      rw [if_neg (Nat.not_le.2 (FloatText.mag_fits hf).1)]
      rfl
    · have e : sqrt x = x := by
        unfold sqrt
        rw [hn, if_neg Bool.false_ne_true, if_neg hz, hp, if_neg Bool.false_ne_true, hi, if_pos rfl]
      rw [e, hm]
      refine ⟨hn, ?_⟩
      unfold rootMag
      rw [if_pos ((inf_mag hn).1 hi), inf_val hi]

theorem rootMag_mono {n n' : Nat} (h : n ≤ n') : rootMag n ≤ rootMag n' := by
  by_cases h' : 2 ^ 2098 ≤ n'
  · have e : rootMag n' = val infBits := if_pos h'
    rw [e]
    unfold rootMag
    split
    · exact Nat.le_refl _
    · exact val_mono (roundBits_le _ _)
  · have e1 : rootMag n' = _ := if_neg h'
    have e2 : rootMag n = _ := if_neg (fun x => h' (Nat.le_trans x h))
    rw [e1, e2]
    exact val_mono (roundBits_mono (marked_mono h (Nat.not_le.1 h')))

/-- `Math::sqrt` keeps the order of the numbers that are not negative. -/
theorem sqrt_ordered (w : World) (L : Lib) (s t : Stk) (a b : Arg) (x : Word) (hs : Shows w s a) (ht : Shows w t b) (h : AtMost a b)
    (hx : Reads a x) (h0 : 0 ≤ scaled x) :
    ∃ r r', call w L .sqrt [s] = .ok r ∧ call w L .sqrt [t] = .ok r' ∧ Ieee.le r r' = true := by
  obtain ⟨_, y, _, hy⟩ := atMost_reads h
  obtain ⟨n1, n2, hle⟩ := atMost_le h hx hy
  obtain ⟨a1, a2⟩ := sqrt_scaled n1 h0
  obtain ⟨b1, b2⟩ := sqrt_scaled n2 (by omega)
  refine ⟨_, _, call_reads rfl hs hx, call_reads rfl ht hy, le_intro a1 b1 ?_⟩
  show scaled (sqrt x) ≤ scaled (sqrt y)
  rw [a2, b2]
  have ex : (scaled x).natAbs = mag x := by rw [scaled_sign]; split <;> omega
  have ey : (scaled y).natAbs = mag y := by rw [scaled_sign]; split <;> omega
  have := rootMag_mono (n := mag x) (n' := mag y) (by omega)
  omega

/-- A number that is negative, or not a number, has no root. -/
theorem sqrt_refuses (w : World) (L : Lib) (s : Stk) (a : Arg) (x : Word) (hs : Shows w s a) (hx : Reads a x)
    (h : isNaN x = true ∨ scaled x < 0) : ∃ r, call w L .sqrt [s] = .ok r ∧ isNaN r = true := by
  refine ⟨_, call_reads rfl hs hx, ?_⟩
  show isNaN (sqrt x) = true
  have hn : isNaN nan = true := by decide
  unfold sqrt
  cases h1 : isNaN x
  · rcases h with h | h
    · rw [h] at h1; cases h1
    · have : neg? x = true ∧ mag x ≠ 0 := by
        unfold scaled at h
        cases h2 : neg? x <;> rw [h2] at h
        · simp at h; omega
        · simp at h; exact ⟨rfl, by omega⟩
      rw [if_neg Bool.false_ne_true, if_neg this.2, if_pos this.1]
      exact hn
  · rw [if_pos rfl]; exact hn

/-- If the root of a number is a float, `Math::sqrt` gives exactly it. -/
theorem sqrt_exact (w : World) (L : Lib) (s : Stk) (a : Arg) (x y : Word) (hs : Shows w s a) (hx : Reads a x) (h : IsRoot x y) :
    ∃ r, call w L .sqrt [s] = .ok r ∧ Finite r ∧ scaled r = scaled y := by
  obtain ⟨fx, fy, y0, hsq⟩ := h
  have hU : 0 < 2 ^ 1074 := Nat.two_pow_pos _
  have hp : (2 : Int) ^ 1074 = ((2 ^ 1074 : Nat) : Int) := (Int.natCast_pow 2 1074).symm
  refine ⟨_, call_reads rfl hs hx, ?_⟩
  show Finite (sqrt x) ∧ scaled (sqrt x) = scaled y
  have hy : scaled y = mag y := by
    have : (scaled y).natAbs = mag y := by rw [scaled_sign]; split <;> omega
    omega
  have hxy : (mag x : Int) * ((2 ^ 1074 : Nat) : Int) = mag y * mag y ∧ 0 ≤ scaled x := by
    rw [hy, hp] at hsq
    have h0 : 0 ≤ scaled x := by
      apply Classical.byContradiction
      intro hneg
      have := Int.mul_neg_of_neg_of_pos (Int.not_le.1 hneg) (show (0 : Int) < ((2 ^ 1074 : Nat) : Int) from Int.natCast_pos.2 hU)
      rw [← hsq] at this
      exact absurd (Int.mul_nonneg (Int.natCast_nonneg (mag y)) (Int.natCast_nonneg (mag y))) (Int.not_le.2 this)
    have hx' : scaled x = mag x := by
      have : (scaled x).natAbs = mag x := by rw [scaled_sign]; split <;> omega
      omega
    rw [hx'] at hsq
    exact ⟨hsq.symm, h0⟩
  have hN : mag y * mag y = mag x * 2 ^ 1074 := by
    have := hxy.1
    rw [← Int.natCast_mul, ← Int.natCast_mul] at this
    exact (Int.ofNat.inj this).symm
  have hlt := (FloatText.mag_fits fx).1
  obtain ⟨b1, b2⟩ := FloatText.roundBits_fits (FloatText.mag_fits fy)
  have hr : roundBits (marked (mag x * 2 ^ 1074)) 2 = roundBits (mag y) 1 := by rw [marked_sq hlt hN, roundBits_double]
  obtain ⟨c1, c2⟩ := sqrt_scaled fx.1 hxy.2
  have hv : rootMag (mag x) = mag y := by
    have : rootMag (mag x) = _ := if_neg (Nat.not_le.2 hlt)
    rw [this, hr, ← (mk_facts (s := false) (roundBits_le _ _)).2.2.2.1, b2]
  refine ⟨⟨c1, ?_⟩, by rw [c2, hv, hy]⟩
  cases hi : isInf (sqrt x)
  · rfl
  · have h1 := (inf_mag c1).1 hi
    have h2 : (scaled (sqrt x)).natAbs = mag (sqrt x) := by rw [scaled_sign]; split <;> omega
    rw [c2, hv] at h2
    have h3 := (FloatText.mag_fits fy).1
    rw [← h2, Int.natAbs_natCast] at h1
    exact absurd h3 (Nat.not_lt.2 h1)

theorem sq_dist {V N : Nat} (h1 : V * 2 ^ 51 ≤ N * (2 ^ 51 + 1)) (h2 : N * (2 ^ 51 - 1) ≤ V * 2 ^ 51) :
    ((V : Int) - (N : Int)).natAbs * 2 ^ 51 ≤ N := by
  have d : ((V : Int) - (N : Int)).natAbs = V - N ∨ ((V : Int) - (N : Int)).natAbs = N - V := by omega
  rcases d with d | d <;> rw [d, Nat.sub_mul, Nat.sub_le_iff_le_add, Nat.add_comm]
  · rw [Nat.mul_add, Nat.mul_one] at h1; exact h1
  · rw [Nat.mul_sub, Nat.mul_one] at h2; exact Nat.sub_le_iff_le_add.1 h2

/-- For every finite number that is not negative, the square of what `Math::sqrt` gives is the number up to one part in `2^51`. -/
theorem sqrt_accurate (w : World) (L : Lib) (s : Stk) (a : Arg) (x : Word) (hs : Shows w s a) (hx : Reads a x) (hf : Finite x)
    (h0 : 0 ≤ scaled x) : ∃ r, call w L .sqrt [s] = .ok r ∧ IsNearRoot x r := by
  refine ⟨_, call_reads rfl hs hx, ?_⟩
  show IsNearRoot x (sqrt x)
  have hp : (2 : Int) ^ 1074 = ((2 ^ 1074 : Nat) : Int) := (Int.natCast_pow 2 1074).symm
  have hm : (scaled x).natAbs = mag x := by rw [scaled_sign]; split <;> omega
  have hm' : scaled x = mag x := by omega
  obtain ⟨_, c2⟩ := sqrt_scaled hf.1 h0
  have hlt := (FloatText.mag_fits hf).1
  have hr : rootMag (mag x) = _ := if_neg (Nat.not_le.2 hlt)
  rcases Nat.eq_zero_or_pos (mag x) with hz | hz
  · have e : sqrt x = x := by unfold sqrt; rw [hf.1, if_neg Bool.false_ne_true, if_pos hz]
    unfold IsNearRoot
    rw [e, hm', hz]
    refine ⟨hf, Int.le_refl _, ?_⟩
    rw [show ((0 : Nat) : Int) = 0 from rfl, Int.zero_mul, Int.zero_mul]
    exact Nat.zero_le _
  · obtain ⟨g1, g2, g3⟩ := sqrt_near hz hlt
    have m2 := mk_facts (s := false) (roundBits_le (marked (mag x * 2 ^ 1074)) 2)
    refine ⟨⟨?_, ?_⟩, ?_, ?_⟩
    · rw [sqrt_pos hf (by omega)]; exact m2.2.2.2.2.1
    · rw [sqrt_pos hf (by omega), m2.2.2.2.2.2]; exact decide_eq_false (Nat.ne_of_lt g1)
    · rw [c2]; exact Int.natCast_nonneg _
    · rw [c2, hr, hm', Int.natAbs_natCast, hp, ← Int.natCast_mul, ← Int.natCast_mul]
      exact sq_dist g2 g3

/-- `Math::sqrt(k*k)` is the absolute value of the integer `k`, as long as `k*k` has at most 53 bits. -/
theorem sqrt_squares (w : World) (L : Lib) (s : Stk) (k : Int) (hs : Shows w s (.int (k * k))) (hk : k * k ≤ 2 ^ 53) :
    ∃ r, call w L .sqrt [s] = .ok r ∧ IsInt r k.natAbs := by
  have hn : 0 ≤ k * k := by
    rw [← Int.natAbs_mul_self]
    exact Int.natCast_nonneg _
  have h1 : (k * k).natAbs ≤ 2 ^ 53 := by omega
  have h2 : ((k.natAbs : Nat) : Int).natAbs ≤ 2 ^ 53 := by
    rw [Int.natAbs_natCast]
    rw [Int.natAbs_mul] at h1
    rcases Nat.eq_zero_or_pos k.natAbs with h | h
    · rw [h]; exact Nat.zero_le _
    · exact Nat.le_trans (Nat.le_mul_of_pos_left _ h) h1
  obtain ⟨x1, x2, x3⟩ := NumOrder.exact_scaled h1
  obtain ⟨y1, y2, y3⟩ := NumOrder.exact_scaled h2
  obtain ⟨r, r1, r2, r3⟩ := sqrt_exact w L s _ _ (ofInt (k.natAbs : Nat)) hs (.int _) ⟨⟨x1, x2⟩, ⟨y1, y2⟩, by
      rw [y3]; exact Int.mul_nonneg (Int.natCast_nonneg _) (Int.le_of_lt (Int.pow_pos (by decide))), by
      rw [x3, y3, ← Int.natAbs_mul_self (a := k), Int.natCast_mul]
      generalize (2 : Int) ^ 1074 = U
      generalize ((k.natAbs : Nat) : Int) = j
      rw [Int.mul_assoc, Int.mul_left_comm U j U, ← Int.mul_assoc, ← Int.mul_assoc]⟩
  exact ⟨r, r1, r2, by rw [r3, y3]⟩

/-- A case of `sqrt_ordered`, `sqrt_exact`, `sqrt_accurate` and `sqrt_squares`: the root of 2.25 is 1.5, of 49 it is 7. -/
example (w : World) : Shows w (mkFloat 0x4002000000000000) (.float 0x4002000000000000) ∧ Shows w (mkInt 49) (.int (-7 * -7)) ∧
    IsRoot 0x4002000000000000 0x3FF8000000000000 ∧ AtMost (.float 0x4002000000000000) (.int 49) :=
  ⟨shows_float _ _, shows_int _ _, by unfold IsRoot Finite; decide +kernel, ⟨_, _, .float _, .int _, by decide +kernel⟩⟩

end Verif.MathFns
