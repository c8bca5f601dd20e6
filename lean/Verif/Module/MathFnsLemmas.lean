import Verif.Module.MathFns
import Verif.Module.MathFnsSpec
import Verif.Vm.NumbersLemmas
/-
Lemmas for `MathFnsProps.lean`.
-/
namespace Verif.MathFns
open Verif Verif.Vm Verif.Vm.Native Verif.Vm.NumbersSpec Verif.MathFnsSpec
open Verif.Vm.Ieee
open Verif.Vm.Numbers (readFloat kind_int kind_float kind_bool kind_string not_int passArg_convert ok_string ok_bool ok_undefined shown_eq)

/-! ### Arguments -/

theorem pass_int {w : World} {s : Stk} (h : kindOf w s = .int) :
    passArg w ieee s T_FLOAT_PTR = .ok (.tmp (ofInt (deref w.mem s).value.toInt)) := by
  have hk := kind_int h
  unfold passArg
  rw [has_kind _ _ (by decide), hk, if_pos (by decide)]
  rfl

theorem pass_float {w : World} {s : Stk} (h : kindOf w s = .float) :
    passArg w ieee s T_FLOAT_PTR = .ok (.addr (deref w.mem s)) := by
  have hk := kind_float h
  rw [passArg_convert (fun _ => not_int _ hk (by decide)) (.inl (by rw [hk]; decide))]
  unfold convert convVal
  rw [if_neg (by decide), hk, if_neg (by decide), if_neg (by decide), if_pos rfl, if_neg (by decide), if_pos rfl]

theorem pass_null {w : World} {s : Stk} (h : (shown w s).props &&& 0xFFF = 1) : passArg w ieee s T_FLOAT_PTR = .ok (.val 0) := by
  have hk : kind (deref w.mem s).props = P_NULL := h
  rw [passArg_convert (fun _ => not_int _ hk (by decide)) (.inl (by rw [hk]; decide))]
  unfold convert convVal
  rw [if_neg (by decide), if_pos hk]

theorem pass_undefined {w : World} {s : Stk} (h : (shown w s).props &&& 0xFFF = 0) : passArg w ieee s T_FLOAT_PTR = .err := by
  have hk : kind (deref w.mem s).props = 0 := h
  rw [passArg_convert (fun _ => not_int _ hk (by decide)) (.inl (by rw [hk]; decide))]
  unfold convert convVal
  rw [if_neg (by decide), hk, if_neg (by decide), if_neg (by decide), if_neg (by decide), if_neg (by decide), if_neg (by decide),
    has_kind _ _ (by decide), hk, if_neg (by decide)]

theorem pass_bool {w : World} {s : Stk} (h : kindOf w s = .bool) : passArg w ieee s T_FLOAT_PTR = .err := by
  have hk := kind_bool h
  rw [passArg_convert (fun _ => not_int _ hk (by decide)) (.inl (by rw [hk]; decide))]
  unfold convert convVal
  rw [if_neg (by decide), hk, if_neg (by decide), if_pos rfl, if_neg (by decide), if_neg (by decide)]

theorem pass_string {w : World} {s : Stk} (h : kindOf w s = .string) : passArg w ieee s T_FLOAT_PTR = .err := by
  obtain ⟨hk, ht⟩ := kind_string h
  have hn : has (deref w.mem s).props P_INT = false := by rcases hk with e | e <;> exact not_int _ e (by decide)
  have hne : kind (deref w.mem s).props ≠ P_INT := by rcases hk with e | e <;> rw [e] <;> decide
  have hsl : has (deref w.mem s).props P_CONTAINER_SLOT = false := by
    rw [has_kind _ _ (by decide)]
    rcases hk with e | e <;> rw [e] <;> decide
  rw [passArg_convert (fun _ => hn) (.inl hne)]
  unfold convert convVal objOf
  rw [if_neg (by decide), hsl, has_kind _ _ (by decide)]
  rcases hk with e | e <;>
  · rw [e, if_neg (by decide), if_neg (by decide), if_neg (by decide), if_neg (by decide), if_neg (by decide), if_pos (by decide)]
    simp only [Bool.false_eq_true, if_false]
    split
    · rfl
    · rw [ht]; rfl

/-- An integer of up to 53 bits is exact. -/
theorem ofInt_exact {n : Int} (hn : n.natAbs ≤ 2 ^ 53) : FloatText.Finite (ofInt n) ∧ neg? (ofInt n) = decide (n < 0) ∧
    mag (ofInt n) = n.natAbs * 2 ^ 1074 := by
  have fits : FloatText.Fits (n.natAbs * 2 ^ 1074) := by
    refine ⟨?_, ?_⟩
    · calc n.natAbs * 2 ^ 1074 ≤ 2 ^ 53 * 2 ^ 1074 := Nat.mul_le_mul_right _ hn
        _ = 2 ^ 1127 := by rw [← Nat.pow_add]
        _ < 2 ^ 2098 := Nat.pow_lt_pow_right (by omega) (by omega)
    · by_cases h53 : n.natAbs = 2 ^ 53
      · exact ⟨1, 53 + 1074, by rw [h53, Nat.one_mul, Nat.pow_add], by decide⟩
      · exact ⟨n.natAbs, 1074, rfl, by omega⟩
  obtain ⟨b1, b2⟩ := FloatText.roundBits_fits fits
  exact ⟨FloatText.not_special b1, (FloatText.mk_fields (by unfold infBits at b1; omega)).1, b2 _⟩

/-- What a function reads of an argument that is a number. -/
theorem pass_num {w : World} {s : Stk} {a : Arg} (h : Shows w s a) (hn : Num a) :
    ∃ c x, passArg w ieee s T_FLOAT_PTR = .ok c ∧ readFloat c = .ok x ∧ ∀ y, Denotes a y → y = x := by
  cases h with
  | int h =>
    refine ⟨_, _, pass_int h, rfl, ?_⟩
    intro y hy
    cases hy with
    | int _ _ hb he =>
      obtain ⟨e1, e2, e3, e4⟩ := he
      obtain ⟨f1, f2, f3⟩ := ofInt_exact hb
      rw [shown_eq] at *
      exact FloatText.finite_ext ⟨e1, e2⟩ f1 (by rw [e3, f2]) (by rw [f3]; simpa using e4.symm)
  | float h =>
    refine ⟨_, _, pass_float h, rfl, ?_⟩
    intro y hy
    cases hy
    rfl
  | text h _ => exact hn.elim
  | undefined h => exact hn.elim
  | null h => exact hn.elim
  | bool h => exact hn.elim

theorem call_one {w : World} {L : Lib} {f : Fun} {s : Stk} {a : Arg} {x : Word} (hf : arity f = 1) (h : Shows w s a) (hx : Denotes a x) :
    call w L f [s] = .ok (run L f [x]) := by
  obtain ⟨c, y, h1, h2, h3⟩ := pass_num h (by cases hx <;> trivial)
  rw [h3 x hx]
  unfold call
  rw [hf]
  simp [passArgs, h1, Out.map, Out.bind, reads, h2]

theorem call_two {w : World} {L : Lib} {f : Fun} {s t : Stk} {a b : Arg} {x y : Word} (hf : arity f = 2) (h : Shows w s a) (hx : Denotes a x)
    (h' : Shows w t b) (hy : Denotes b y) : call w L f [s, t] = .ok (run L f [x, y]) := by
  obtain ⟨c, x', h1, h2, h3⟩ := pass_num h (by cases hx <;> trivial)
  obtain ⟨d, y', g1, g2, g3⟩ := pass_num h' (by cases hy <;> trivial)
  rw [h3 x hx, g3 y hy]
  unfold call
  rw [hf]
  simp [passArgs, h1, g1, Out.map, Out.bind, reads, h2, g2, List.replicate]

theorem run_sin (L : Lib) (x : Word) : run L .sin [x] = narrow (L.sinf (narrow x)) := rfl
theorem run_cos (L : Lib) (x : Word) : run L .cos [x] = narrow (L.cosf (narrow x)) := rfl
theorem run_pow (L : Lib) (x y : Word) : run L .pow [x, y] = narrow (L.powf (narrow x) (narrow y)) := rfl
theorem run_max (L : Lib) (x y : Word) : run L .max [x, y] = if lt y x then x else y := rfl
theorem run_min (L : Lib) (x y : Word) : run L .min [x, y] = if lt x y then x else y := rfl
theorem run_floor (L : Lib) (x : Word) : run L .floor [x] = floor x := rfl
theorem run_ceil (L : Lib) (x : Word) : run L .ceil [x] = ceil x := rfl
theorem run_round (L : Lib) (x : Word) : run L .round [x] = round x := rfl

theorem lt_eq {x y : Word} (h1 : isNaN x = false) (h2 : isNaN y = false) : lt x y = decide (scaled x < scaled y) := by
  unfold lt
  rw [h1, h2]
  rfl

theorem lt_nan {x y : Word} (h : isNaN x = true ∨ isNaN y = true) : lt x y = false := by
  unfold lt
  rcases h with h | h <;> rw [h]
  · rfl
  · cases isNaN x <;> rfl

/-! ### Whole numbers -/

theorem whole_spec {n : Nat} (s : Bool) (h : FloatText.Fits (n * 2 ^ 1074)) :
    FloatText.Finite (whole s n) ∧ neg? (whole s n) = s ∧ mag (whole s n) = n * 2 ^ 1074 := by
  obtain ⟨b1, b2⟩ := FloatText.roundBits_fits h
  exact ⟨FloatText.not_special b1, (FloatText.mk_fields (by unfold infBits at b1; omega)).1, b2 _⟩

/-- The whole part of a float, or the next whole number if it has a fraction, is a float. -/
theorem whole_fits {x : Word} (h : FloatText.Finite x) {n q r : Nat} (hm : mag x = q * 2 ^ 1074 + r) (hr : r < 2 ^ 1074)
    (hn : n = q ∨ (n = q + 1 ∧ r ≠ 0)) : FloatText.Fits (n * 2 ^ 1074) := by
  obtain ⟨hb, c, e, he, hc⟩ := FloatText.mag_fits h
  have small : n ≤ 2 ^ 53 → FloatText.Fits (n * 2 ^ 1074) := by
    intro hn
    refine ⟨?_, ?_⟩
    · calc n * 2 ^ 1074 ≤ 2 ^ 53 * 2 ^ 1074 := Nat.mul_le_mul_right _ hn
        _ = 2 ^ 1127 := by rw [← Nat.pow_add]
        _ < 2 ^ 2098 := Nat.pow_lt_pow_right (by omega) (by omega)
    · by_cases h53 : n = 2 ^ 53
      · exact ⟨1, 53 + 1074, by rw [h53, Nat.one_mul, Nat.pow_add], by decide⟩
      · exact ⟨n, 1074, rfl, by omega⟩
  by_cases hr0 : r = 0
  · have : n = q := by omega
    subst this
    have : mag x = n * 2 ^ 1074 := by rw [hm, hr0, Nat.add_zero]
    rw [← this]
    exact ⟨hb, c, e, he, hc⟩
  · by_cases hlt : e < 1074
    · apply small
      have h1 : mag x < 2 ^ 53 * 2 ^ 1074 := by
        rw [he]
        calc c * 2 ^ e < 2 ^ 53 * 2 ^ e := Nat.mul_lt_mul_of_pos_right hc (Nat.two_pow_pos _)
          _ ≤ 2 ^ 53 * 2 ^ 1074 := Nat.mul_le_mul_left _ (Nat.pow_le_pow_right (by omega) (by omega))
      have h2 : q < 2 ^ 53 := by
        apply Classical.byContradiction
        intro hq
        have : 2 ^ 53 * 2 ^ 1074 ≤ q * 2 ^ 1074 := Nat.mul_le_mul_right _ (by omega)
        generalize 2 ^ 53 * 2 ^ 1074 = A at *
        generalize q * 2 ^ 1074 = B at *
        omega
      omega
    · exfalso
      have hd : 2 ^ 1074 ∣ mag x := by
        rw [he]
        exact Nat.dvd_trans (Nat.pow_dvd_pow 2 (by omega)) (Nat.dvd_mul_left _ _)
      rw [hm] at hd
      have := (Nat.dvd_add_right (Nat.dvd_mul_left _ q)).1 hd
      exact absurd (Nat.le_of_dvd (by omega) this) (by omega)

theorem up_eq {D q r : Nat} (hr : r < D) : up (q * D + r) D = if r = 0 then q else q + 1 := by
  have hD : 0 < D := by omega
  unfold up
  split
  · rename_i h
    rw [h, Nat.add_zero, Nat.mul_comm, Nat.mul_add_div hD, Nat.div_eq_of_lt (by omega), Nat.add_zero]
  · have : q * D + r + (D - 1) = D * (q + 1) + (r - 1) := by rw [Nat.mul_add, Nat.mul_comm D q]; omega
    rw [this, Nat.mul_add_div hD, Nat.div_eq_of_lt (by omega), Nat.add_zero]

theorem down_eq {D q r : Nat} (hr : r < D) : (q * D + r) / D = q := by
  rw [Nat.mul_comm, Nat.mul_add_div (by omega), Nat.div_eq_of_lt hr, Nat.add_zero]

theorem near_eq {D q r : Nat} (hr : r < D) : (2 * (q * D + r) + D) / (2 * D) = if 2 * r < D then q else q + 1 := by
  have hD : 0 < 2 * D := by omega
  split
  · have : 2 * (q * D + r) + D = 2 * D * q + (2 * r + D) := by rw [Nat.mul_assoc, Nat.mul_comm D q]; omega
    rw [this, Nat.mul_add_div hD, Nat.div_eq_of_lt (by omega), Nat.add_zero]
  · have : 2 * (q * D + r) + D = 2 * D * (q + 1) + (2 * r - D) := by rw [Nat.mul_assoc, Nat.mul_add D, Nat.mul_comm D q]; omega
    rw [this, Nat.mul_add_div hD, Nat.div_eq_of_lt (by omega), Nat.add_zero]

theorem split_mag (x : Word) : ∃ q r, mag x = q * 2 ^ 1074 + r ∧ r < 2 ^ 1074 :=
  ⟨mag x / 2 ^ 1074, mag x % 2 ^ 1074, by rw [Nat.mul_comm]; exact (Nat.div_add_mod _ _).symm, Nat.mod_lt _ (Nat.two_pow_pos _)⟩

theorem scaled_neg {x : Word} (h : neg? x = true) : scaled x = -(mag x : Int) := by unfold scaled; rw [if_pos h]
theorem scaled_pos {x : Word} (h : neg? x = false) : scaled x = (mag x : Int) := by unfold scaled; rw [h]; rfl

theorem isInt_whole {n : Nat} {s : Bool} (h : FloatText.Fits (n * 2 ^ 1074)) : IsInt (whole s n) (if s then -(n : Int) else n) := by
  obtain ⟨f, g, m⟩ := whole_spec s h
  refine ⟨f, ?_⟩
  cases s
  · rw [scaled_pos g, m]
    simp only [Bool.false_eq_true, if_false]
    push_cast
    rfl
  · rw [scaled_neg g, m]
    simp only [if_true]
    push_cast
    rw [Int.neg_mul]

theorem int_facts {x : Word} {q r : Nat} (hm : mag x = q * 2 ^ 1074 + r) (hr : r < 2 ^ 1074) :
    ∃ D : Int, (2 : Int) ^ 1074 = D ∧ (mag x : Int) = q * D + r ∧ (r : Int) < D := by
  refine ⟨_, rfl, ?_, ?_⟩
  · rw [hm]; push_cast; rfl
  · have : (r : Int) < ((2 ^ 1074 : Nat) : Int) := Int.ofNat_lt.2 hr
    push_cast at this
    exact this

theorem floor_spec {x : Word} (h : FloatText.Finite x) : ∃ z, IsInt (floor x) z ∧ IsFloor x z := by
  obtain ⟨q, r, hm, hr⟩ := split_mag x
  obtain ⟨D, hD, hm', hr'⟩ := int_facts hm hr
  unfold floor IsFloor
  rw [h.1, h.2]
  simp only [Bool.or_self, Bool.false_eq_true, if_false]
  by_cases hs : neg? x = true
  · rw [if_pos hs, hm, up_eq hr, scaled_neg hs, hD, hm']
    split
    · rename_i h0
      refine ⟨_, isInt_whole (whole_fits h hm hr (.inl rfl)), ?_⟩
      simp only [if_true, Int.add_mul, Int.neg_mul, Int.one_mul]
      omega
    · rename_i h0
      refine ⟨_, isInt_whole (whole_fits h hm hr (.inr ⟨rfl, h0⟩)), ?_⟩
      simp only [if_true, Int.natCast_add, Int.add_mul, Int.neg_mul, Int.one_mul, Int.neg_add, Int.natCast_one]
      omega
  · have hs' : neg? x = false := by simpa using hs
    rw [if_neg hs, hm, down_eq hr, scaled_pos hs', hD, hm']
    refine ⟨_, isInt_whole (whole_fits h hm hr (.inl rfl)), ?_⟩
    simp only [Bool.false_eq_true, if_false, Int.add_mul, Int.one_mul]
    omega

theorem ceil_spec {x : Word} (h : FloatText.Finite x) : ∃ z, IsInt (ceil x) z ∧ IsCeil x z := by
  obtain ⟨q, r, hm, hr⟩ := split_mag x
  obtain ⟨D, hD, hm', hr'⟩ := int_facts hm hr
  unfold ceil IsCeil
  rw [h.1, h.2]
  simp only [Bool.or_self, Bool.false_eq_true, if_false]
  by_cases hs : neg? x = true
  · rw [if_pos hs, hm, down_eq hr, scaled_neg hs, hD, hm']
    refine ⟨_, isInt_whole (whole_fits h hm hr (.inl rfl)), ?_⟩
    simp only [if_true, Int.sub_mul, Int.neg_mul, Int.one_mul]
    omega
  · have hs' : neg? x = false := by simpa using hs
    rw [if_neg hs, hm, up_eq hr, scaled_pos hs', hD, hm']
    split
    · rename_i h0
      refine ⟨_, isInt_whole (whole_fits h hm hr (.inl rfl)), ?_⟩
      simp only [Bool.false_eq_true, if_false, Int.sub_mul, Int.one_mul]
      omega
    · rename_i h0
      refine ⟨_, isInt_whole (whole_fits h hm hr (.inr ⟨rfl, h0⟩)), ?_⟩
      simp only [Bool.false_eq_true, if_false, Int.natCast_add, Int.sub_mul, Int.add_mul, Int.one_mul, Int.natCast_one]
      omega

theorem round_spec {x : Word} (h : FloatText.Finite x) : ∃ z, IsInt (round x) z ∧ IsRound x z := by
  obtain ⟨q, r, hm, hr⟩ := split_mag x
  obtain ⟨D, hD, hm', hr'⟩ := int_facts hm hr
  unfold round IsRound
  rw [h.1, h.2]
  simp only [Bool.or_self, Bool.false_eq_true, if_false]
  have hq : (0 : Int) ≤ q * D := Int.mul_nonneg (by omega) (by omega)
  by_cases hs : neg? x = true
  · rw [hm, near_eq hr, scaled_neg hs, hD, hm', hs]
    split
    · rename_i h0
      have h0' : 2 * (r : Int) < D := by rw [← hD]; exact_mod_cast h0
      refine ⟨_, isInt_whole (whole_fits h hm hr (.inl rfl)), ?_⟩
      simp only [if_true, Int.sub_mul, Int.add_mul, Int.neg_mul, Int.one_mul, Int.mul_neg, Int.mul_assoc]
      omega
    · rename_i h0
      have h0' : D ≤ 2 * (r : Int) := by rw [← hD]; exact_mod_cast Nat.not_lt.1 h0
      refine ⟨_, isInt_whole (whole_fits h hm hr (.inr ⟨rfl, by omega⟩)), ?_⟩
      simp only [if_true, Int.natCast_add, Int.sub_mul, Int.add_mul, Int.neg_mul, Int.one_mul, Int.mul_neg, Int.neg_add, Int.natCast_one, Int.mul_add, Int.mul_assoc]
      omega
  · have hs' : neg? x = false := by simpa using hs
    rw [hm, near_eq hr, scaled_pos hs', hD, hm', hs']
    split
    · rename_i h0
      have h0' : 2 * (r : Int) < D := by rw [← hD]; exact_mod_cast h0
      refine ⟨_, isInt_whole (whole_fits h hm hr (.inl rfl)), ?_⟩
      simp only [Bool.false_eq_true, if_false, Int.sub_mul, Int.add_mul, Int.one_mul, Int.mul_assoc]
      omega
    · rename_i h0
      have h0' : D ≤ 2 * (r : Int) := by rw [← hD]; exact_mod_cast Nat.not_lt.1 h0
      refine ⟨_, isInt_whole (whole_fits h hm hr (.inr ⟨rfl, by omega⟩)), ?_⟩
      simp only [Bool.false_eq_true, if_false, Int.natCast_add, Int.sub_mul, Int.add_mul, Int.one_mul, Int.natCast_one, Int.mul_add, Int.mul_assoc]
      omega

theorem fabs_fields (x : Word) : neg? (fabs x) = false ∧ expo (fabs x) = expo x ∧ frac (fabs x) = frac x := by
  have hx := FloatText.word_lt x
  have hb : x.toNat % 2 ^ 63 < 2 ^ 63 := Nat.mod_lt _ (by decide)
  obtain ⟨h1, h2, h3⟩ := FloatText.mk_fields (s := false) hb
  unfold fabs
  refine ⟨h1, ?_, ?_⟩
  · rw [h2]; unfold expo; omega
  · rw [h3]; unfold frac; omega

theorem fabs_spec (x : Word) : isNaN (fabs x) = isNaN x ∧ isInf (fabs x) = isInf x ∧ scaled (fabs x) = ((scaled x).natAbs : Int) := by
  obtain ⟨h1, h2, h3⟩ := fabs_fields x
  have hm : mag (fabs x) = mag x := by unfold mag; rw [h2, h3]
  refine ⟨by unfold isNaN; rw [h2, h3], by unfold isInf; rw [h2, h3], ?_⟩
  rw [scaled_pos h1, hm]
  unfold scaled
  split <;> omega

/-! ### Single precision -/

theorem narrow_single (x : Word) : IsSingle (narrow x) := by
  unfold narrow IsSingle
  split
  · intro h; exact absurd h.1 (by decide)
  · split
    · rename_i _ h; intro h'; exact absurd h'.2 (by rw [h]; decide)
    · cases hr : FloatText.round32 (mag x) (2 ^ 1074) with
      | fin v e =>
        intro _
        have hf := FloatText.round32_fits (Nat.two_pow_pos _) hr
        exact ⟨v, hf, (FloatText.toDouble_exact hf _ _).2.2⟩
      | inf e =>
        intro h
        exfalso
        have : ∀ b, isInf (mk b infBits) = true := by decide
        exact absurd h.2 (by rw [FloatText.toDouble, this]; decide)
      | nan => intro h; exact absurd (show isNaN nan = false from h.1) (by decide)

theorem narrow_fin {x : Word} (h : FloatText.Finite x) {v : Nat} (hv : FloatText.Fits32 v) (hm : mag x = v * 2 ^ 925) : narrow x = x := by
  unfold narrow
  rw [h.1, h.2]
  simp only [Bool.false_eq_true, if_false]
  have : FloatText.round32 (mag x) (2 ^ 1074) = .fin v false :=
    FloatText.round32_exact (Nat.two_pow_pos _) hv (by rw [hm, Nat.mul_assoc, ← Nat.pow_add])
  rw [this]
  obtain ⟨f, g, m⟩ := FloatText.toDouble_exact hv (neg? x) false
  exact FloatText.finite_ext f h g (by rw [m, hm])

/-! ### `random` -/

theorem nearest_scale {n d c : Nat} (hc : 0 < c) : FloatText.nearest (n * c) (d * c) = FloatText.nearest n d := by
  unfold FloatText.nearest
  simp only
  rw [Nat.mul_div_mul_right _ _ hc, Nat.mul_mod_mul_right]
  have h1 : d * c < 2 * (n % d * c) ↔ d < 2 * (n % d) := by
    rw [← Nat.mul_assoc]; exact Nat.mul_lt_mul_right hc
  have h2 : 2 * (n % d * c) = d * c ↔ 2 * (n % d) = d := by
    rw [← Nat.mul_assoc]; exact Nat.mul_left_inj (by omega)
  simp only [h1, h2]

theorem roundBits_scale {m d : Nat} (hd : 0 < d) : roundBits (m * d) d = roundBits m 1 := by
  unfold roundBits
  simp only [Nat.mul_div_cancel _ hd, Nat.div_one, Nat.one_mul]
  generalize (if m < 2 ^ 53 then 0 else m.log2 - 52) = e
  rw [Nat.mul_comm d, Nat.mul_div_mul_right _ _ hd, Nat.mul_mod_mul_right]
  have h1 : 2 ^ e * d < 2 * (m % 2 ^ e * d) ↔ 2 ^ e < 2 * (m % 2 ^ e) := by
    rw [← Nat.mul_assoc]; exact Nat.mul_lt_mul_right hd
  have h2 : 2 * (m % 2 ^ e * d) = 2 ^ e * d ↔ 2 * (m % 2 ^ e) = 2 ^ e := by
    rw [← Nat.mul_assoc]; exact Nat.mul_left_inj (by omega)
  simp only [h1, h2]

theorem fits32_of {q e : Nat} (hq : q ≤ 2 ^ 24) (he : e + 24 < 277) : FloatText.Fits32 (q * 2 ^ e) := by
  refine ⟨?_, ?_⟩
  · calc q * 2 ^ e ≤ 2 ^ 24 * 2 ^ e := Nat.mul_le_mul_right _ hq
      _ = 2 ^ (24 + e) := by rw [← Nat.pow_add]
      _ < 2 ^ 277 := Nat.pow_lt_pow_right (by omega) (by omega)
  · by_cases h : q = 2 ^ 24
    · exact ⟨1, 24 + e, by rw [h, Nat.one_mul, Nat.pow_add], by decide⟩
    · exact ⟨q, e, rfl, by omega⟩

theorem log2_scale {r k : Nat} (h : r ≠ 0) : (r * 2 ^ k).log2 = r.log2 + k := by
  have hb := FloatText.log2_bounds h
  have h0 : r * 2 ^ k ≠ 0 := Nat.mul_ne_zero h (by have := Nat.two_pow_pos k; omega)
  apply (Nat.log2_eq_iff h0).2
  rw [Nat.pow_add, Nat.add_right_comm, Nat.pow_add]
  exact ⟨Nat.mul_le_mul_right _ hb.1, Nat.mul_lt_mul_of_pos_right hb.2 (Nat.two_pow_pos _)⟩

/-- A whole number below `2^31` in single precision. -/
theorem round_int {r : Nat} (h0 : r ≠ 0) (hr : r < 2 ^ 31) : ∃ q b f, b ≤ 30 ∧ q ≤ 2 ^ 24 ∧
    FloatText.round32 (r * 2 ^ 1074) (2 ^ 1074) = .fin (q * 2 ^ (b + 126)) f ∧
    2 * ((r * 2 ^ 23 : Nat) - (q * 2 ^ b : Nat) : Int).natAbs ≤ 2 ^ b ∧ (q = 2 ^ 24 ∧ b = 30 ↔ 2147483584 ≤ r) := by
  have hb := FloatText.log2_bounds h0
  have hb30 : r.log2 ≤ 30 := by
    apply Classical.byContradiction
    intro hn
    have : 2 ^ 31 ≤ 2 ^ r.log2 := Nat.pow_le_pow_right (by omega) (by omega)
    omega
  generalize hB : r.log2 = b at *
  have hlt : r * 2 ^ 23 < 2 ^ 24 * 2 ^ b := by rw [Nat.pow_succ] at hb; omega
  have hq := FloatText.nearest_le (Nat.two_pow_pos b) hlt
  have hs : (r * 2 ^ 1074 * 2 ^ 149 / 2 ^ 1074).log2 - 23 = b + 126 := by
    rw [Nat.mul_right_comm, Nat.mul_div_cancel _ (Nat.two_pow_pos _), log2_scale h0, hB]; omega
  have hn : FloatText.nearest (r * 2 ^ 1074 * 2 ^ 149) (2 ^ 1074 * 2 ^ (b + 126)) = FloatText.nearest (r * 2 ^ 23) (2 ^ b) := by
    have e1 : r * 2 ^ 1074 * 2 ^ 149 = r * 2 ^ 23 * 2 ^ 1200 := by
      rw [Nat.mul_assoc, Nat.mul_assoc, ← Nat.pow_add, ← Nat.pow_add]
    have e2 : (2 : Nat) ^ 1074 * 2 ^ (b + 126) = 2 ^ b * 2 ^ 1200 := by
      rw [← Nat.pow_add, ← Nat.pow_add]; exact congrArg (2 ^ ·) (by omega)
    rw [e1, e2, nearest_scale (Nat.two_pow_pos _)]
  have hR : ∃ f, FloatText.round32 (r * 2 ^ 1074) (2 ^ 1074) = .fin (FloatText.nearest (r * 2 ^ 23) (2 ^ b) * 2 ^ (b + 126)) f := by
    unfold FloatText.round32
    simp only [hs, hn]
    have := (fits32_of (e := b + 126) hq (by omega)).1
    rw [if_neg (Nat.not_le.2 this)]
    exact ⟨_, rfl⟩
  obtain ⟨f, hR⟩ := hR
  refine ⟨FloatText.nearest (r * 2 ^ 23) (2 ^ b), b, f, hb30, hq, hR, FloatText.nearest_half _ _ (Nat.two_pow_pos _), ?_⟩
  · constructor
    · rintro ⟨h1, rfl⟩
      unfold FloatText.nearest at h1
      simp only at h1
      split at h1 <;> omega
    · intro h1
      have : b = 30 := by
        apply Classical.byContradiction
        intro hn
        have : 2 ^ (b + 1) ≤ 2 ^ 30 := Nat.pow_le_pow_right (by omega) (by omega)
        omega
      subst this
      refine ⟨?_, rfl⟩
      unfold FloatText.nearest
      simp only
      split <;> omega

theorem unit_eq : narrow (div (ofInt 1) (narrow (ofInt RAND_MAX))) = 0x3E00000000000000 := by decide +kernel

theorem random_zero : random 0 = 0 := by decide +kernel

theorem random_spec {r : Nat} (h0 : r ≠ 0) (hr : r ≤ RAND_MAX) : ∃ q b, b ≤ 30 ∧ q ≤ 2 ^ 24 ∧
    FloatText.Finite (random r) ∧ neg? (random r) = false ∧ mag (random r) = q * 2 ^ (b + 95) * 2 ^ 925 ∧
    2 * ((r * 2 ^ 23 : Nat) - (q * 2 ^ b : Nat) : Int).natAbs ≤ 2 ^ b ∧ (q = 2 ^ 24 ∧ b = 30 ↔ 2147483584 ≤ r) := by
  obtain ⟨q, b, f, hb, hq, hv, hh, hi⟩ := round_int h0 (by unfold RAND_MAX at hr; omega)
  refine ⟨q, b, hb, hq, ?_⟩
  have hF := fits32_of (e := b + 126) hq (by omega)
  have hF' := fits32_of (e := b + 95) hq (by omega)
  have hi0 := ofInt_exact (n := (r : Int)) (by unfold RAND_MAX at hr; omega)
  have ha : narrow (ofInt r) = FloatText.toDouble false (.fin (q * 2 ^ (b + 126)) f) := by
    unfold narrow
    rw [hi0.1.1, hi0.1.2, hi0.2.1, hi0.2.2, Int.natAbs_natCast, hv]
    simp only [Bool.false_eq_true, if_false]
    congr 1
  obtain ⟨f1, f2, f3⟩ := FloatText.toDouble_exact hF false f
  rw [← ha] at f1 f2 f3
  have hm : mul (narrow (ofInt r)) 0x3E00000000000000 = mk false (roundBits (q * 2 ^ (b + 95) * 2 ^ 925) 1) := by
    unfold mul
    have g1 : isNaN 0x3E00000000000000 = false := by decide
    have g2 : isInf 0x3E00000000000000 = false := by decide
    have g3 : neg? 0x3E00000000000000 = false := by decide
    have g4 : mag 0x3E00000000000000 = 2 ^ 1043 := by decide +kernel
    rw [f1.1, f1.2, f2, f3, g1, g2, g3, g4]
    simp only [Bool.or_self, Bool.false_eq_true, if_false, bne_self_eq_false]
    have : q * 2 ^ (b + 126) * 2 ^ 925 * 2 ^ 1043 = q * 2 ^ (b + 95) * 2 ^ 925 * 2 ^ 1074 := by
      simp only [Nat.mul_assoc, ← Nat.pow_add]
    rw [this, roundBits_scale (Nat.two_pow_pos _)]
  obtain ⟨k1, k2⟩ := FloatText.roundBits_fits (FloatText.fits_of_32 hF')
  have kf := FloatText.not_special (s := false) k1
  have hR : random r = mk false (roundBits (q * 2 ^ (b + 95) * 2 ^ 925) 1) := by
    unfold random
    rw [unit_eq, hm]
    exact narrow_fin kf hF' (k2 false)
  rw [hR]
  exact ⟨kf, (FloatText.mk_fields (by unfold infBits at k1; omega)).1, k2 false, hh, hi⟩

end Verif.MathFns
