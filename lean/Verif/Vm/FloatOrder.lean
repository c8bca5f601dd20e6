import Verif.Vm.Float
/- Rounding keeps the order. -/
namespace Verif.Vm.Ieee

def ex (m : Nat) : Nat := if m < 2 ^ 53 then 0 else m.log2 - 52

/-- Round `n / u` to the nearest integer, ties to even. -/
def near (n u : Nat) : Nat := if u < 2 * (n % u) ∨ (2 * (n % u) = u ∧ n / u % 2 = 1) then n / u + 1 else n / u

theorem roundBits_eq (n d : Nat) : roundBits n d = min (ex (n / d) * 2 ^ 52 + near n (d * 2 ^ ex (n / d))) infBits := rfl

theorem near_mono {n n' u : Nat} (h : n ≤ n') : near n u ≤ near n' u := by
  unfold near
  have hq : n / u ≤ n' / u := Nat.div_le_div_right h
  have h1 := Nat.div_add_mod n u
  have h2 := Nat.div_add_mod n' u
  rcases Nat.lt_or_ge (n / u) (n' / u) with hlt | hge
  · repeat' split
    all_goals omega
  · have he : n / u = n' / u := by omega
    rw [he] at h1 ⊢
    have hr : n % u ≤ n' % u := by omega
    repeat' split
    all_goals omega

theorem near_bounds (n u : Nat) : n / u ≤ near n u ∧ near n u ≤ n / u + 1 := by
  unfold near; split <;> omega

theorem ex_mono {m m' : Nat} (h : m ≤ m') : ex m ≤ ex m' := by
  unfold ex
  by_cases h1 : m < 2 ^ 53
  · rw [if_pos h1]; exact Nat.zero_le _
  · rw [if_neg h1, if_neg (by omega)]
    have : m.log2 ≤ m'.log2 := by
      rw [Nat.le_log2 (by omega)]
      exact Nat.le_trans (Nat.log2_self_le (by omega)) h
    omega

theorem ex_bounds (m : Nat) : m < 2 ^ 53 * 2 ^ ex m ∧ (0 < ex m → 2 ^ 52 * 2 ^ ex m ≤ m) := by
  unfold ex
  by_cases h1 : m < 2 ^ 53
  · rw [if_pos h1]; simpa using h1
  · rw [if_neg h1]
    have hl : 53 ≤ m.log2 := by
      rw [Nat.le_log2 (by omega)]; omega
    have h3 : m < 2 ^ (m.log2 + 1) := Nat.lt_log2_self
    have h4 : 2 ^ m.log2 ≤ m := Nat.log2_self_le (by omega)
    constructor
    · rw [← Nat.pow_add]
      have : 53 + (m.log2 - 52) = m.log2 + 1 := by omega
      rw [this]; exact h3
    · intro _
      rw [← Nat.pow_add]
      have : 52 + (m.log2 - 52) = m.log2 := by omega
      rw [this]; exact h4

theorem roundBits_mono {n n' d : Nat} (h : n ≤ n') : roundBits n d ≤ roundBits n' d := by
  rw [roundBits_eq, roundBits_eq]
  have hm : n / d ≤ n' / d := Nat.div_le_div_right h
  have he := ex_mono hm
  have key : ex (n / d) * 2 ^ 52 + near n (d * 2 ^ ex (n / d)) ≤ ex (n' / d) * 2 ^ 52 + near n' (d * 2 ^ ex (n' / d)) := by
    rcases Nat.lt_or_ge (ex (n / d)) (ex (n' / d)) with hlt | hge
    · have h1 := (near_bounds n (d * 2 ^ ex (n / d))).2
      have h2 := (near_bounds n' (d * 2 ^ ex (n' / d))).1
      rw [← Nat.div_div_eq_div_mul] at h1 h2
      have b1 := (ex_bounds (n / d)).1
      have b2 := (ex_bounds (n' / d)).2 (by omega)
      have c1 : n / d / 2 ^ ex (n / d) < 2 ^ 53 := by
        rw [Nat.div_lt_iff_lt_mul (Nat.two_pow_pos _)]; exact b1
      have c2 : 2 ^ 52 ≤ n' / d / 2 ^ ex (n' / d) := by
        rw [Nat.le_div_iff_mul_le (Nat.two_pow_pos _)]; exact b2
      omega
    · have : ex (n / d) = ex (n' / d) := by omega
      rw [this]
      have := near_mono (u := d * 2 ^ ex (n' / d)) h
      omega
  omega

theorem roundBits_le (n d : Nat) : roundBits n d ≤ infBits := by rw [roundBits_eq]; exact Nat.min_le_right _ _

/-- The magnitude of the pattern with the lower bits `b`. -/
def val (b : Nat) : Nat := if b / 2 ^ 52 = 0 then b % 2 ^ 52 else (2 ^ 52 + b % 2 ^ 52) * 2 ^ (b / 2 ^ 52 - 1)

theorem mk_facts {s : Bool} {b : Nat} (h : b ≤ infBits) :
    neg? (mk s b) = s ∧ expo (mk s b) = b / 2 ^ 52 ∧ frac (mk s b) = b % 2 ^ 52 ∧ mag (mk s b) = val b ∧ isNaN (mk s b) = false ∧
      isInf (mk s b) = decide (b = infBits) := by
  have hb : b < 2 ^ 63 := Nat.lt_of_le_of_lt h (by decide)
  have ht : (mk s b).toNat = (if s then 2 ^ 63 else 0) + b := by
    unfold mk
    rw [BitVec.toNat_ofNat, Nat.mod_eq_of_lt]
    split <;> omega
  have he : expo (mk s b) = b / 2 ^ 52 := by
    unfold expo; rw [ht]
    split <;> omega
  have hf : frac (mk s b) = b % 2 ^ 52 := by
    unfold frac; rw [ht]
    split <;> omega
  refine ⟨?_, he, hf, ?_, ?_, ?_⟩
  · unfold neg?; rw [ht]
    cases s
    · simp; omega
    · simp
  · unfold mag val; rw [he, hf]
  · unfold isNaN; rw [he, hf]
    unfold infBits at h
    simp only [Bool.and_eq_false_iff, decide_eq_false_iff_not, ne_eq]
    omega
  · unfold isInf; rw [he, hf]
    unfold infBits at h ⊢
    rw [Bool.eq_iff_iff]
    simp only [Bool.and_eq_true, decide_eq_true_eq]
    omega

theorem val_mono {b b' : Nat} (h : b ≤ b') : val b ≤ val b' := by
  unfold val
  have he : b / 2 ^ 52 ≤ b' / 2 ^ 52 := Nat.div_le_div_right h
  have h1 : b % 2 ^ 52 < 2 ^ 52 := Nat.mod_lt _ (by decide)
  have h1' : b' % 2 ^ 52 < 2 ^ 52 := Nat.mod_lt _ (by decide)
  by_cases z' : b' / 2 ^ 52 = 0
  · rw [if_pos (by omega), if_pos z']; omega
  · rw [if_neg z']
    have hp : 1 ≤ 2 ^ (b' / 2 ^ 52 - 1) := Nat.two_pow_pos _
    by_cases z : b / 2 ^ 52 = 0
    · rw [if_pos z]
      have := Nat.mul_le_mul_left (2 ^ 52 + b' % 2 ^ 52) hp
      omega
    · rw [if_neg z]
      rcases Nat.lt_or_ge (b / 2 ^ 52) (b' / 2 ^ 52) with hlt | hge
      · have e1 : 2 ^ (b / 2 ^ 52 - 1 + 1) ≤ 2 ^ (b' / 2 ^ 52 - 1) := Nat.pow_le_pow_right (by decide) (by omega)
        rw [Nat.pow_succ] at e1
        have e2 : (2 ^ 52 + b % 2 ^ 52) * 2 ^ (b / 2 ^ 52 - 1) ≤ (2 ^ 52 * 2) * 2 ^ (b / 2 ^ 52 - 1) :=
          Nat.mul_le_mul_right _ (by omega)
        have e3 : 2 ^ 52 * (2 ^ (b / 2 ^ 52 - 1) * 2) ≤ (2 ^ 52 + b' % 2 ^ 52) * 2 ^ (b' / 2 ^ 52 - 1) :=
          Nat.mul_le_mul (by omega) e1
        rw [Nat.mul_assoc, Nat.mul_comm 2] at e2
        exact Nat.le_trans e2 e3
      · have e : b / 2 ^ 52 = b' / 2 ^ 52 := by omega
        rw [e]
        exact Nat.mul_le_mul_right _ (by omega)

/-- Rounding to a double keeps the order. -/
theorem mag_round_mono {n n' d : Nat} (h : n ≤ n') (s s' : Bool) : mag (mk s (roundBits n d)) ≤ mag (mk s' (roundBits n' d)) := by
  rw [(mk_facts (roundBits_le n d)).2.2.2.1, (mk_facts (roundBits_le n' d)).2.2.2.1]
  exact val_mono (roundBits_mono h)

theorem near_half (n : Nat) {u : Nat} (hu : 0 < u) : 2 * near n u * u ≤ 2 * n + u ∧ 2 * n ≤ 2 * near n u * u + u := by
  unfold near
  have h1 := Nat.div_add_mod n u
  have h2 := Nat.mod_lt n hu
  rw [Nat.mul_comm] at h1
  generalize n / u = q at *
  generalize n % u = r at *
  have e1 : 2 * (q + 1) * u = 2 * (q * u) + 2 * u := by rw [Nat.mul_assoc, Nat.add_mul, Nat.one_mul, Nat.mul_add]
  have e2 : 2 * q * u = 2 * (q * u) := Nat.mul_assoc _ _ _
  generalize q * u = w at *
  split
  · rw [e1]; omega
  · rw [e2]; omega

theorem val_parts {e q : Nat} (h : q ≤ 2 ^ 53) (h0 : 0 < e → 2 ^ 52 ≤ q) : val (e * 2 ^ 52 + q) = q * 2 ^ e := by
  unfold val
  by_cases q1 : q < 2 ^ 52
  · have : e = 0 := by omega
    subst this
    rw [Nat.zero_mul, Nat.zero_add, if_pos (by omega), Nat.mod_eq_of_lt q1, Nat.pow_zero, Nat.mul_one]
  · by_cases q2 : q < 2 ^ 53
    · have d1 : (e * 2 ^ 52 + q) / 2 ^ 52 = e + 1 := by omega
      have d2 : (e * 2 ^ 52 + q) % 2 ^ 52 = q - 2 ^ 52 := by omega
      rw [d1, d2, if_neg (by omega), Nat.add_sub_cancel]
      exact congrArg (· * 2 ^ e) (by omega)
    · have d1 : (e * 2 ^ 52 + q) / 2 ^ 52 = e + 2 := by omega
      have d2 : (e * 2 ^ 52 + q) % 2 ^ 52 = 0 := by omega
      rw [d1, d2, if_neg (by omega), show e + 2 - 1 = e + 1 from rfl, Nat.pow_succ 2 e, show q = 2 ^ 53 by omega, Nat.add_zero,
        Nat.mul_comm (2 ^ e) 2, ← Nat.mul_assoc]

/-- Rounding to a double is exact up to half a unit of the last place. -/
theorem round_half {n d : Nat} (hd : 0 < d) (hs : ex (n / d) ≤ 2044) :
    roundBits n d < infBits ∧ 2 * (val (roundBits n d) * d) ≤ 2 * n + d * 2 ^ ex (n / d) ∧
      2 * n ≤ 2 * (val (roundBits n d) * d) + d * 2 ^ ex (n / d) := by
  have h1 := near_bounds n (d * 2 ^ ex (n / d))
  have hu : 0 < d * 2 ^ ex (n / d) := Nat.mul_pos hd (Nat.two_pow_pos _)
  have h2 := near_half n hu
  rw [← Nat.div_div_eq_div_mul] at h1
  have b := ex_bounds (n / d)
  have c1 : n / d / 2 ^ ex (n / d) < 2 ^ 53 := by
    rw [Nat.div_lt_iff_lt_mul (Nat.two_pow_pos _)]; exact b.1
  have c2 : 0 < ex (n / d) → 2 ^ 52 ≤ n / d / 2 ^ ex (n / d) := by
    intro h
    rw [Nat.le_div_iff_mul_le (Nat.two_pow_pos _)]; exact b.2 h
  have hb : ex (n / d) * 2 ^ 52 + near n (d * 2 ^ ex (n / d)) < infBits := by
    unfold infBits
    generalize near n (d * 2 ^ ex (n / d)) = q at *
    generalize ex (n / d) = e at *
    omega
  rw [roundBits_eq, Nat.min_eq_left (Nat.le_of_lt hb)]
  refine ⟨hb, ?_⟩
  rw [val_parts (by omega) (fun h => Nat.le_trans (c2 h) h1.1)]
  have e1 : 2 * (near n (d * 2 ^ ex (n / d)) * 2 ^ ex (n / d) * d) = 2 * near n (d * 2 ^ ex (n / d)) * (d * 2 ^ ex (n / d)) := by
    rw [Nat.mul_assoc, Nat.mul_comm (2 ^ _) d, Nat.mul_assoc]
  rw [e1]
  exact h2

/-- Rounding a number that is large enough is exact up to one part in `2^53`. -/
theorem round_rel {m d : Nat} (hd : 0 < d) (hs : m < 2 ^ 2096) (hl : 2 ^ 53 ≤ m) :
    roundBits (m * d) d < infBits ∧ val (roundBits (m * d) d) * 2 ^ 53 ≤ m * 2 ^ 53 + m ∧
      m * 2 ^ 53 ≤ val (roundBits (m * d) d) * 2 ^ 53 + m := by
  have hx : ex m = m.log2 - 52 := by unfold ex; rw [if_neg (Nat.not_lt.2 hl)]
  have hn : m ≠ 0 := by intro h; rw [h] at hl; exact absurd hl (by decide)
  have hlog : m.log2 < 2096 := (Nat.log2_lt hn).2 hs
  have hlog' : 53 ≤ m.log2 := (Nat.le_log2 hn).2 hl
  have hq : m * d / d = m := Nat.mul_div_cancel _ hd
  obtain ⟨h1, h2, h3⟩ := round_half (n := m * d) (d := d) hd (by rw [hq]; omega)
  rw [hq] at h2 h3
  have b := (ex_bounds m).2 (by omega)
  refine ⟨h1, ?_⟩
  generalize val (roundBits (m * d) d) = v at *
  generalize 2 ^ ex m = w at *
  have k2 : 2 * v ≤ 2 * m + w := by
    apply Nat.le_of_mul_le_mul_right _ hd
    rw [Nat.add_mul, Nat.mul_assoc, Nat.mul_assoc, Nat.mul_comm w]; exact h2
  have k3 : 2 * m ≤ 2 * v + w := by
    apply Nat.le_of_mul_le_mul_right _ hd
    rw [Nat.add_mul, Nat.mul_assoc, Nat.mul_assoc, Nat.mul_comm w]; exact h3
  clear hs hl hx h2 h3
  omega

theorem near_zero {u : Nat} (hu : 0 < u) : near 0 u = 0 := by
  unfold near
  rw [Nat.zero_mod, Nat.zero_div, if_neg (by omega)]

theorem ex_zero : ex 0 = 0 := by unfold ex; rw [if_pos (Nat.two_pow_pos _)]

theorem roundBits_zero {d : Nat} (hd : 0 < d) : roundBits 0 d = 0 := by
  rw [roundBits_eq, Nat.zero_div, ex_zero, near_zero (Nat.mul_pos hd (Nat.two_pow_pos _))]
  exact Nat.zero_min _

theorem val_zero : val 0 = 0 := by
  unfold val
  rw [Nat.zero_div, Nat.zero_mod, if_pos rfl]

theorem scaled_mk {s : Bool} {b : Nat} (h : b ≤ infBits) : scaled (mk s b) = if s then -(val b : Int) else val b := by
  unfold scaled
  rw [(mk_facts h).1, (mk_facts h).2.2.2.1]

theorem sign_mono (g : Nat → Nat) (g0 : g 0 = 0) (hg : ∀ n n', n ≤ n' → g n ≤ g n') (x y : Int) (s t : Bool) (hxy : x ≤ y)
    (hs : x ≠ 0 → s = decide (x < 0)) (ht : y ≠ 0 → t = decide (y < 0)) :
    (if s then -(g x.natAbs : Int) else (g x.natAbs : Int)) ≤ if t then -(g y.natAbs : Int) else (g y.natAbs : Int) := by
  have z : ∀ (b : Bool) (w : Int), w = 0 → (if b then -(g w.natAbs : Int) else (g w.natAbs : Int)) = 0 := by
    intro b w hw
    subst hw
    rw [show (0 : Int).natAbs = 0 from rfl, g0]
    cases b <;> rfl
  by_cases x0 : x = 0
  · rw [z s x x0]
    by_cases y0 : y = 0
    · rw [z t y y0]; exact Int.le_refl _
    · rw [ht y0, decide_eq_false (by omega)]
      exact Int.natCast_nonneg _
  · rw [hs x0]
    by_cases y0 : y = 0
    · rw [z t y y0, decide_eq_true (by omega)]
      show -(g x.natAbs : Int) ≤ 0
      omega
    · rw [ht y0]
      by_cases hx : x < 0
      · by_cases hy : y < 0
        · have := hg y.natAbs x.natAbs (by omega)
          simp only [hx, hy, decide_true, if_true]
          omega
        · simp only [hx, hy, decide_true, decide_false, if_true, Bool.false_eq_true, if_false]
          omega
      · have hy : ¬ y < 0 := by omega
        have := hg x.natAbs y.natAbs (by omega)
        simp only [hx, hy, decide_false, Bool.false_eq_true, if_false]
        omega

theorem add_finite {a c : Word} (ha : isNaN a = false ∧ isInf a = false) (hc : isNaN c = false ∧ isInf c = false) :
    ∃ s, (scaled a + scaled c ≠ 0 → s = decide (scaled a + scaled c < 0)) ∧
      add a c = mk s (roundBits (scaled a + scaled c).natAbs 1) := by
  refine ⟨if scaled a + scaled c = 0 then neg? a && neg? c else decide (scaled a + scaled c < 0), fun h => if_neg h, ?_⟩
  unfold add
  rw [ha.1, ha.2, hc.1, hc.2]
  simp only [Bool.or_false, Bool.false_eq_true, if_false]

/-- Adding keeps the order of floats that are neither infinite nor not a number. -/
theorem add_mono {a b c : Word} (ha : isNaN a = false ∧ isInf a = false) (hb : isNaN b = false ∧ isInf b = false)
    (hc : isNaN c = false ∧ isInf c = false) (h : scaled a ≤ scaled b) : scaled (add a c) ≤ scaled (add b c) := by
  obtain ⟨s, hs, e1⟩ := add_finite ha hc
  obtain ⟨t, ht, e2⟩ := add_finite hb hc
  rw [e1, e2, scaled_mk (roundBits_le _ _), scaled_mk (roundBits_le _ _)]
  exact sign_mono (fun n => val (roundBits n 1)) (by show val (roundBits 0 1) = 0; rw [roundBits_zero Nat.one_pos, val_zero])
    (fun n n' h => val_mono (roundBits_mono h)) _ _ s t (by omega) hs ht

/-- Rounding a quotient that is large enough is exact up to one part in `2^53`. -/
theorem round_part {n d : Nat} (hd : 0 < d) (hs : n / d < 2 ^ 2096) (hl : 2 ^ 53 ≤ n / d) :
    roundBits n d < infBits ∧ val (roundBits n d) * d * 2 ^ 53 ≤ n * 2 ^ 53 + n ∧ n * 2 ^ 53 ≤ val (roundBits n d) * d * 2 ^ 53 + n := by
  have hx : ex (n / d) = (n / d).log2 - 52 := by unfold ex; rw [if_neg (Nat.not_lt.2 hl)]
  have hn : n / d ≠ 0 := by intro h; rw [h] at hl; exact absurd hl (by decide)
  have hlog : (n / d).log2 < 2096 := (Nat.log2_lt hn).2 hs
  have hlog' : 53 ≤ (n / d).log2 := (Nat.le_log2 hn).2 hl
  obtain ⟨h1, h2, h3⟩ := round_half (n := n) (d := d) hd (by omega)
  have b := Nat.le_trans (Nat.mul_le_mul_left d ((ex_bounds (n / d)).2 (by omega))) (Nat.mul_div_le n d)
  refine ⟨h1, ?_⟩
  rw [Nat.mul_left_comm] at b
  generalize val (roundBits n d) * d = v at *
  generalize d * 2 ^ ex (n / d) = w at *
  clear hs hl hx
  omega

theorem near_double (m w : Nat) : near (m * 2) (2 * w) = near m w := by
  unfold near
  have h1 : m * 2 / (2 * w) = m / w := by rw [Nat.mul_comm 2 w]; exact Nat.mul_div_mul_right _ _ (by decide)
  have h2 : m * 2 % (2 * w) = m % w * 2 := by rw [Nat.mul_comm 2 w]; exact Nat.mul_mod_mul_right _ _ _
  rw [h1, h2]
  have e : (2 * w < 2 * (m % w * 2) ∨ 2 * (m % w * 2) = 2 * w ∧ m / w % 2 = 1) ↔ (w < 2 * (m % w) ∨ 2 * (m % w) = w ∧ m / w % 2 = 1) := by
    omega
  simp only [e]

theorem roundBits_double (m : Nat) : roundBits (2 * m) 2 = roundBits m 1 := by
  rw [Nat.mul_comm, roundBits_eq, roundBits_eq, Nat.mul_div_cancel _ (by decide), Nat.div_one, near_double, Nat.one_mul]

/-- A function that works on the magnitude, keeps the order of magnitudes and leaves zero and the sign alone keeps the order. -/
theorem op_mono {B : Nat → Nat} (hB : ∀ n, B n ≤ infBits) (h0 : B 0 = 0) (hm : ∀ n n', n ≤ n' → B n ≤ B n') {a b : Word}
    (h : scaled a ≤ scaled b) : scaled (mk (neg? a) (B (mag a))) ≤ scaled (mk (neg? b) (B (mag b))) := by
  rw [scaled_mk (hB _), scaled_mk (hB _)]
  have na : ∀ w : Word, (scaled w).natAbs = mag w ∧ (scaled w ≠ 0 → neg? w = decide (scaled w < 0)) := by
    intro w
    unfold scaled
    cases neg? w
    · simp
    · simp; omega
  have := sign_mono (fun n => val (B n)) (by show val (B 0) = 0; rw [h0, val_zero]) (fun n n' h => val_mono (hm n n' h)) (scaled a) (scaled b)
    (neg? a) (neg? b) h (na a).2 (na b).2
  rw [(na a).1, (na b).1] at this
  exact this

end Verif.Vm.Ieee
