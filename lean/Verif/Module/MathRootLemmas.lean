import Verif.Vm.NumOrderLemmas
import Verif.Module.MathRootSpec
namespace Verif.MathFns
open Verif Verif.Vm Verif.Vm.Native Verif.Vm.NumbersSpec Verif.MathFnsSpec
open Verif.Vm.Ieee

theorem call_reads {w : World} {L : Lib} {f : Fun} {s : Stk} {a : Arg} {x : Word} (hf : arity f = 1) (h : Shows w s a) (hx : Reads a x) :
    call w L f [s] = .ok (run L f [x]) := by
  have key : ∃ c, passArg w ieee s T_FLOAT_PTR = .ok c ∧ Numbers.readFloat c = .ok x := by
    cases h with
    | int h => cases hx; exact ⟨_, pass_int h, rfl⟩
    | float h => cases hx; exact ⟨_, pass_float h, rfl⟩
    | _ => cases hx
  obtain ⟨c, h1, h2⟩ := key
  unfold call
  rw [hf]
  simp [passArgs, h1, Out.map, Out.bind, reads, h2]

theorem atMost_le {a b : Arg} {x y : Word} (h : AtMost a b) (hx : Reads a x) (hy : Reads b y) :
    isNaN x = false ∧ isNaN y = false ∧ scaled x ≤ scaled y := by
  have flt : (∃ x y, Reads a x ∧ Reads b y ∧ Ieee.le x y = true) → isNaN x = false ∧ isNaN y = false ∧ scaled x ≤ scaled y := by
    rintro ⟨x', y', h1, h2, h3⟩
    have e1 : x' = x := by cases h1 <;> cases hx <;> rfl
    have e2 : y' = y := by cases h2 <;> cases hy <;> rfl
    subst e1 e2
    unfold Ieee.le at h3
    simp only [Bool.and_eq_true, Bool.not_eq_true', decide_eq_true_eq, and_assoc] at h3
    exact h3
  cases hx <;> cases hy
  · exact flt h
  · exact flt h
  · exact flt h
  · exact ⟨(NumOrder.ofInt_scaled _).1, (NumOrder.ofInt_scaled _).1, NumOrder.ofInt_mono h⟩

/-! ### Degrees -/

theorem inf_mag {x : Word} (hn : isNaN x = false) : isInf x = true ↔ 2 ^ 2098 ≤ mag x := by
  constructor
  · intro h
    unfold isInf at h
    simp only [Bool.and_eq_true, decide_eq_true_eq] at h
    unfold mag
    rw [h.1, h.2, if_neg (by decide)]
    decide +kernel
  · intro h
    cases hi : isInf x
    · exact absurd (FloatText.mag_fits ⟨hn, hi⟩).1 (Nat.not_lt.2 h)
    · rfl

theorem pi_over : roundBits (2 ^ 2098 * mag PI) (2 ^ 1074) = infBits := by decide +kernel

theorem pi_facts : isNaN PI = false ∧ isInf PI = false ∧ neg? PI = false ∧ 0 < mag PI := by decide +kernel

theorem half_facts : isNaN (ofInt 180) = false ∧ isInf (ofInt 180) = false ∧ neg? (ofInt 180) = false ∧ mag (ofInt 180) = 180 * 2 ^ 1074 := by
  decide +kernel

theorem mul_pi {x : Word} (hn : isNaN x = false) : mul x PI = mk (neg? x) (roundBits (mag x * mag PI) (2 ^ 1074)) := by
  obtain ⟨p1, p2, p3, p4⟩ := pi_facts
  unfold mul
  rw [hn, p1, p2, p3]
  simp only [Bool.or_false, Bool.false_eq_true, if_false, Bool.bne_false]
  cases hi : isInf x
  · rfl
  · have hm := (inf_mag hn).1 hi
    have hm0 : mag x ≠ 0 := by intro h; rw [h] at hm; exact absurd hm (Nat.not_le.2 (Nat.two_pow_pos _))
    have hb : roundBits (mag x * mag PI) (2 ^ 1074) = infBits := by
      apply Nat.le_antisymm (roundBits_le _ _)
      rw [← pi_over]
      exact roundBits_mono (Nat.mul_le_mul_right _ hm)
    rw [hb, if_pos rfl, if_neg]
    simp only [Bool.or_eq_true, decide_eq_true_eq]
    rintro (h | h)
    · exact hm0 h
    · exact absurd h (Nat.ne_of_gt p4)

/-- The bits of the quotient by 180. -/
def overHalf (n : Nat) : Nat := if 2 ^ 2098 ≤ n then infBits else roundBits (n * 2 ^ 1074) (180 * 2 ^ 1074)

theorem div_half {x : Word} (hn : isNaN x = false) : div x (ofInt 180) = mk (neg? x) (overHalf (mag x)) := by
  obtain ⟨p1, p2, p3, p4⟩ := half_facts
  unfold div overHalf
  rw [hn, p1, p2, p3, p4]
  simp only [Bool.or_false, Bool.false_eq_true, if_false, Bool.bne_false]
  cases hi : isInf x
  · have : ¬ 2 ^ 2098 ≤ mag x := fun h => by rw [(inf_mag hn).2 h] at hi; cases hi
    rw [if_neg this, if_neg Bool.false_ne_true, if_neg (Nat.ne_of_gt (Nat.mul_pos (by decide) (Nat.two_pow_pos _)))]
  · rw [if_pos rfl, if_pos ((inf_mag hn).1 hi)]

theorem overHalf_le (n : Nat) : overHalf n ≤ infBits := by
  unfold overHalf
  split
  · exact Nat.le_refl _
  · exact roundBits_le _ _

theorem overHalf_mono (n n' : Nat) (h : n ≤ n') : overHalf n ≤ overHalf n' := by
  by_cases h' : 2 ^ 2098 ≤ n'
  · have : overHalf n' = infBits := if_pos h'
    rw [this]; exact overHalf_le n
  · have e1 : overHalf n' = _ := if_neg h'
    have e2 : overHalf n = _ := if_neg (fun x => h' (Nat.le_trans x h))
    rw [e1, e2]
    exact roundBits_mono (Nat.mul_le_mul_right _ h)

theorem overHalf_zero : overHalf 0 = 0 := by
  unfold overHalf
  rw [if_neg (Nat.not_le.2 (Nat.two_pow_pos _)), Nat.zero_mul, roundBits_zero (Nat.mul_pos (by decide) (Nat.two_pow_pos _))]

theorem mul_pi_nan {x : Word} (hn : isNaN x = false) : isNaN (mul x PI) = false := by
  rw [mul_pi hn]; exact (mk_facts (roundBits_le _ _)).2.2.2.2.1

theorem deg_nan {x : Word} (hn : isNaN x = false) : isNaN (degToRad x) = false := by
  unfold degToRad
  rw [div_half (mul_pi_nan hn)]
  exact (mk_facts (overHalf_le _)).2.2.2.2.1

theorem deg_mono {x y : Word} (hx : isNaN x = false) (hy : isNaN y = false) (h : scaled x ≤ scaled y) : scaled (degToRad x) ≤ scaled (degToRad y) := by
  unfold degToRad
  have h1 : scaled (mul x PI) ≤ scaled (mul y PI) := by
    rw [mul_pi hx, mul_pi hy]
    exact op_mono (B := fun n => roundBits (n * mag PI) (2 ^ 1074)) (fun n => roundBits_le _ _)
      (by show roundBits (0 * mag PI) (2 ^ 1074) = 0; rw [Nat.zero_mul, roundBits_zero (Nat.two_pow_pos _)])
      (fun n n' h => roundBits_mono (Nat.mul_le_mul_right _ h)) h
  rw [div_half (mul_pi_nan hx), div_half (mul_pi_nan hy)]
  exact op_mono overHalf_le overHalf_zero overHalf_mono h1

/-! ### Roots -/

theorem rootFrom_spec (n : Nat) : ∀ (k r : Nat), r * r ≤ n → n < (r + 2 ^ k) * (r + 2 ^ k) →
    rootFrom n k r * rootFrom n k r ≤ n ∧ n < (rootFrom n k r + 1) * (rootFrom n k r + 1)
  | 0, r, h1, h2 => ⟨h1, h2⟩
  | k + 1, r, h1, h2 => by
    rw [rootFrom]
    split <;> rename_i h
    · apply rootFrom_spec n k _ h
      rw [show r + 2 ^ k + 2 ^ k = r + 2 ^ (k + 1) by rw [Nat.pow_succ]; omega]
      exact h2
    · exact rootFrom_spec n k _ h1 (Nat.not_le.1 h)

theorem root_spec {m : Nat} (hm : m < 2 ^ 2098) :
    root (m * 2 ^ 1074) * root (m * 2 ^ 1074) ≤ m * 2 ^ 1074 ∧ m * 2 ^ 1074 < (root (m * 2 ^ 1074) + 1) * (root (m * 2 ^ 1074) + 1) := by
  unfold root
  refine rootFrom_spec _ _ _ (Nat.zero_le _) ?_
  rw [Nat.zero_add, ← Nat.pow_add]
  calc m * 2 ^ 1074 < 2 ^ 2098 * 2 ^ 1074 := Nat.mul_lt_mul_of_pos_right hm (Nat.two_pow_pos _)
    _ = 2 ^ (2098 + 1074) := (Nat.pow_add _ _ _).symm
    _ = 2 ^ (1586 + 1586) := congrArg (2 ^ ·) rfl

theorem sq_lt {a b : Nat} (h : a * a < b * b) : a < b := Nat.lt_of_not_le fun h' => absurd (Nat.mul_le_mul h' h') (Nat.not_le.2 h)

/-- The root with a mark for what is behind it. -/
def marked (n : Nat) : Nat := 2 * root n + if root n * root n = n then 0 else 1

theorem marked_mono {m m' : Nat} (h : m ≤ m') (hm' : m' < 2 ^ 2098) : marked (m * 2 ^ 1074) ≤ marked (m' * 2 ^ 1074) := by
  obtain ⟨a1, a2⟩ := root_spec (Nat.lt_of_le_of_lt h hm')
  obtain ⟨b1, b2⟩ := root_spec hm'
  have hn : m * 2 ^ 1074 ≤ m' * 2 ^ 1074 := Nat.mul_le_mul_right _ h
  unfold marked
  generalize m * 2 ^ 1074 = n at *
  generalize m' * 2 ^ 1074 = n' at *
  have hle : root n < root n' + 1 := sq_lt (Nat.lt_of_le_of_lt (Nat.le_trans a1 hn) b2)
  generalize root n = r at *
  generalize root n' = r' at *
  by_cases e : r = r'
  · subst e
    split
    · exact Nat.add_le_add_left (Nat.zero_le _) _
    · rename_i hne
      rw [if_neg (by omega)]
      exact Nat.le_refl _
  · have : (if r * r = n then 0 else 1) ≤ 1 := by split <;> decide
    omega

theorem root_sq {m k : Nat} (hm : m < 2 ^ 2098) (h : k * k = m * 2 ^ 1074) : root (m * 2 ^ 1074) = k := by
  obtain ⟨a1, a2⟩ := root_spec hm
  rw [← h] at a1 a2 ⊢
  have h1 := sq_lt a2
  have h2 := sq_lt (a := root (k * k)) (b := k + 1) (Nat.lt_of_le_of_lt a1 (Nat.mul_lt_mul'' (Nat.lt_succ_self _) (Nat.lt_succ_self _)))
  omega

theorem marked_sq {m k : Nat} (hm : m < 2 ^ 2098) (h : k * k = m * 2 ^ 1074) : marked (m * 2 ^ 1074) = 2 * k := by
  unfold marked
  rw [root_sq hm h, if_pos h, Nat.add_zero]

theorem sqrt_pos {x : Word} (hf : FloatText.Finite x) (h0 : 0 < scaled x) :
    sqrt x = mk false (roundBits (marked (mag x * 2 ^ 1074)) 2) := by
  have hs : neg? x = false ∧ mag x ≠ 0 := by
    unfold scaled at h0
    cases h : neg? x <;> rw [h] at h0
    · simp at h0; exact ⟨rfl, by omega⟩
    · simp at h0; omega
  unfold sqrt
  rw [hf.1, if_neg Bool.false_ne_true, if_neg hs.2, hs.1, if_neg Bool.false_ne_true, hf.2, if_neg Bool.false_ne_true]
  rfl

theorem mul_swap (a b : Nat) : a * b * (a * b) = a * a * (b * b) := by rw [Nat.mul_assoc, Nat.mul_left_comm b, ← Nat.mul_assoc]

theorem near_up {r v : Nat} (h : v * 2 ^ 54 ≤ r * (2 ^ 54 + 3)) : v * v * 2 ^ 51 ≤ r * r * (2 ^ 51 + 1) := by
  have h1 := Nat.mul_le_mul h h
  rw [mul_swap, mul_swap] at h1
  generalize v * v = V at *
  generalize r * r = R at *
  apply Nat.le_of_mul_le_mul_right (c := 2 ^ 57) _ (Nat.two_pow_pos _)
  rw [Nat.mul_assoc, Nat.mul_assoc]
  exact Nat.le_trans (Nat.mul_le_mul_left _ (by decide)) (Nat.le_trans h1 (Nat.mul_le_mul_left _ (by decide)))

theorem near_down {n r v : Nat} (h : r * (2 ^ 54 - 2) ≤ v * 2 ^ 54) (hn : n * 2 ^ 60 ≤ r * r * (2 ^ 60 + 3)) :
    n * (2 ^ 51 - 1) ≤ v * v * 2 ^ 51 := by
  have h1 := Nat.mul_le_mul h h
  rw [mul_swap, mul_swap] at h1
  generalize v * v = V at *
  generalize r * r = R at *
  apply Nat.le_of_mul_le_mul_right (c := 2 ^ 117) _ (Nat.two_pow_pos _)
  have e1 : n * (2 ^ 51 - 1) * 2 ^ 117 = n * 2 ^ 60 * ((2 ^ 51 - 1) * 2 ^ 57) := by
    rw [Nat.mul_assoc, Nat.mul_assoc]
  have e2 : V * 2 ^ 51 * 2 ^ 117 = V * (2 ^ 54 * 2 ^ 54) * 2 ^ 60 := by
    rw [Nat.mul_assoc, Nat.mul_assoc]
  rw [e1, e2]
  refine Nat.le_trans (Nat.mul_le_mul_right _ hn) (Nat.le_trans ?_ (Nat.mul_le_mul_right _ h1))
  rw [Nat.mul_assoc, Nat.mul_assoc]
  exact Nat.mul_le_mul_left _ (by decide)

theorem lin_up {A B C M r p : Nat} (a : A ≤ B + M) (g1 : B ≤ C + p) (h2 : M ≤ 2 * r + 1) (g2 : p + 1 ≤ r) : A ≤ C + r * 3 := by omega

theorem near_lin {r M v : Nat} (hr : 2 ^ 60 ≤ r) (h1 : 2 * r ≤ M) (h2 : M ≤ 2 * r + 1) (a : v * 2 * 2 ^ 53 ≤ M * 2 ^ 53 + M)
    (b : M * 2 ^ 53 ≤ v * 2 * 2 ^ 53 + M) : v * 2 ^ 54 ≤ r * (2 ^ 54 + 3) ∧ r * (2 ^ 54 - 2) ≤ v * 2 ^ 54 := by
  have e1 : v * 2 * 2 ^ 53 = v * 2 ^ 54 := by rw [Nat.mul_assoc]
  have e2 : 2 * r * 2 ^ 53 = r * 2 ^ 54 := by rw [Nat.mul_comm 2, Nat.mul_assoc]
  rw [e1] at a b
  constructor
  · have g1 := Nat.mul_le_mul_right (2 ^ 53) h2
    rw [Nat.add_mul, e2, Nat.one_mul] at g1
    have g2 : 2 ^ 53 + 1 ≤ r := Nat.le_trans (by decide) hr
    rw [Nat.mul_add]
    exact lin_up a g1 h2 g2
  · have g1 : 2 * r * (2 ^ 53 - 1) ≤ M * (2 ^ 53 - 1) := Nat.mul_le_mul_right _ h1
    have g2 : M * (2 ^ 53 - 1) ≤ v * 2 ^ 54 := by
      rw [Nat.mul_sub, Nat.mul_one]
      exact Nat.sub_le_iff_le_add.2 b
    have e3 : r * (2 ^ 54 - 2) = 2 * r * (2 ^ 53 - 1) := by rw [Nat.mul_comm 2, Nat.mul_assoc]
    rw [e3]
    exact Nat.le_trans g1 g2

/-- The rounded root of a number, squared, is the number up to one part in `2^51`. -/
theorem near_root {n r M v : Nat} (hr : 2 ^ 60 ≤ r) (l : r * r ≤ n) (u : n < (r + 1) * (r + 1)) (h1 : 2 * r ≤ M) (h2 : M ≤ 2 * r + 1)
    (a : v * 2 * 2 ^ 53 ≤ M * 2 ^ 53 + M) (b : M * 2 ^ 53 ≤ v * 2 * 2 ^ 53 + M) :
    v * v * 2 ^ 51 ≤ n * (2 ^ 51 + 1) ∧ n * (2 ^ 51 - 1) ≤ v * v * 2 ^ 51 := by
  obtain ⟨c1, c2⟩ := near_lin hr h1 h2 a b
  refine ⟨Nat.le_trans (near_up c1) (Nat.mul_le_mul_right _ l), near_down c2 ?_⟩
  have h3 : r * 2 ^ 60 ≤ r * r := Nat.mul_le_mul_left r hr
  have h4 : (r + 1) * (r + 1) = r * r + r + r + 1 := by rw [Nat.mul_succ, Nat.succ_mul]; omega
  have h5 : n ≤ r * r + 3 * r := by omega
  refine Nat.le_trans (Nat.mul_le_mul_right _ h5) ?_
  rw [Nat.add_mul, Nat.mul_add, Nat.mul_assoc 3, Nat.mul_comm (r * r) 3]
  exact Nat.add_le_add_left (Nat.mul_le_mul_left 3 h3) _

theorem half_of {r M : Nat} (h : 2 * r ≤ M ∧ M ≤ 2 * r + 1) : M / 2 = r := by omega

theorem marked_bounds (n : Nat) : 2 * root n ≤ marked n ∧ marked n ≤ 2 * root n + 1 := by
  unfold marked
  generalize root n = r
  split
  · exact ⟨Nat.le_refl _, Nat.le_succ _⟩
  · exact ⟨Nat.le_succ _, Nat.le_refl _⟩

theorem sqrt_near {m : Nat} (h0 : 0 < m) (hm : m < 2 ^ 2098) :
    roundBits (marked (m * 2 ^ 1074)) 2 < infBits ∧
    val (roundBits (marked (m * 2 ^ 1074)) 2) * val (roundBits (marked (m * 2 ^ 1074)) 2) * 2 ^ 51 ≤ m * 2 ^ 1074 * (2 ^ 51 + 1) ∧
    m * 2 ^ 1074 * (2 ^ 51 - 1) ≤ val (roundBits (marked (m * 2 ^ 1074)) 2) * val (roundBits (marked (m * 2 ^ 1074)) 2) * 2 ^ 51 := by
  obtain ⟨l, u⟩ := root_spec hm
  have hn : 2 ^ 1074 ≤ m * 2 ^ 1074 := Nat.le_mul_of_pos_left _ h0
  have hb : m * 2 ^ 1074 < 2 ^ 1586 * 2 ^ 1586 := by
    rw [← Nat.pow_add]
    calc m * 2 ^ 1074 < 2 ^ 2098 * 2 ^ 1074 := Nat.mul_lt_mul_of_pos_right hm (Nat.two_pow_pos _)
      _ = 2 ^ (2098 + 1074) := (Nat.pow_add _ _ _).symm
      _ = 2 ^ (1586 + 1586) := congrArg (2 ^ ·) rfl
  have hM : 2 * root (m * 2 ^ 1074) ≤ marked (m * 2 ^ 1074) ∧ marked (m * 2 ^ 1074) ≤ 2 * root (m * 2 ^ 1074) + 1 := marked_bounds _
  have r1 : root (m * 2 ^ 1074) < 2 ^ 1586 := sq_lt (Nat.lt_of_le_of_lt l hb)
  have r2 : 2 ^ 60 ≤ root (m * 2 ^ 1074) := Nat.le_of_lt_succ (sq_lt (Nat.lt_of_le_of_lt (Nat.le_trans (by decide +kernel) hn) u))
  have hd : marked (m * 2 ^ 1074) / 2 = root (m * 2 ^ 1074) := half_of hM
  obtain ⟨p1, p2, p3⟩ := round_part (n := marked (m * 2 ^ 1074)) (d := 2) (by decide)
    (by rw [hd]; exact Nat.lt_of_lt_of_le r1 (by decide +kernel)) (by rw [hd]; exact Nat.le_trans (by decide) r2)
  exact ⟨p1, near_root r2 l u hM.1 hM.2 p2 p3⟩

end Verif.MathFns
