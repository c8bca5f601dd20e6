import Verif.Base.FloatText
import Verif.Base.IntegerProps
/-
Lemmas on rounding and on the texts of floating point numbers.
-/
namespace Verif.FloatText
open Verif.Str (Bytes lowerChar)
open Verif.Integer
open Verif.Vm (Word)
open Verif.Vm.Ieee

/-! ### Patterns and magnitudes -/

theorem word_lt (w : Word) : w.toNat < 2 ^ 64 := w.isLt

theorem expo_lt (w : Word) : expo w < 2048 := Nat.mod_lt _ (by decide)
theorem frac_lt (w : Word) : frac w < 2 ^ 52 := Nat.mod_lt _ (by decide)

theorem mk_self (w : Word) : mk (neg? w) (expo w * 2 ^ 52 + frac w) = w := by
  apply BitVec.eq_of_toNat_eq
  have hw := word_lt w
  unfold mk neg? expo frac
  rw [BitVec.toNat_ofNat]
  by_cases h : 2 ^ 63 ≤ w.toNat
  · simp only [h, decide_true, if_true]; omega
  · simp only [h, decide_false]; simp only [Bool.false_eq_true, if_false]; omega

theorem mk_fields {s : Bool} {b : Nat} (hb : b < 2 ^ 63) :
    neg? (mk s b) = s ∧ expo (mk s b) = b / 2 ^ 52 ∧ frac (mk s b) = b % 2 ^ 52 := by
  have e : (mk s b).toNat = (if s then 2 ^ 63 else 0) + b := by
    unfold mk
    rw [BitVec.toNat_ofNat]
    apply Nat.mod_eq_of_lt
    cases s <;> simp only [if_true, Bool.false_eq_true, if_false] <;> omega
  unfold neg? expo frac
  rw [e]
  cases s
  · simp only [Bool.false_eq_true, if_false]
    refine ⟨decide_eq_false (by omega), by omega, by omega⟩
  · simp only [if_true]
    refine ⟨decide_eq_true (by omega), by omega, by omega⟩

/-- A number that a `double` holds exactly. -/
def Fits (m : Nat) : Prop := m < 2 ^ 2098 ∧ ∃ q e, m = q * 2 ^ e ∧ q < 2 ^ 53

theorem log2_bounds {m : Nat} (h : m ≠ 0) : 2 ^ m.log2 ≤ m ∧ m < 2 ^ (m.log2 + 1) :=
  ⟨Nat.log2_self_le h, Nat.lt_log2_self⟩

theorem dvd_of_fits {m k q e : Nat} (h : m = q * 2 ^ e) (hq : q < 2 ^ (k + 1)) (hm : m ≠ 0) : 2 ^ (m.log2 - k) ∣ m := by
  have hb := log2_bounds hm
  have : m.log2 - k ≤ e := by
    apply Classical.byContradiction
    intro hn
    have h1 : m < 2 ^ (k + 1 + e) := by
      rw [h, Nat.pow_add]; exact Nat.mul_lt_mul_of_pos_right hq (Nat.two_pow_pos _)
    have h2 : 2 ^ (k + 1 + e) ≤ 2 ^ m.log2 := Nat.pow_le_pow_right (by omega) (by omega)
    omega
  rw [h]
  rw [← h]
  exact Nat.dvd_trans (Nat.pow_dvd_pow 2 this) (by rw [h]; exact Nat.dvd_mul_left _ _)

/-- Rounding keeps what fits. -/
theorem roundBits_fits {m : Nat} (h : Fits m) :
    roundBits m 1 < infBits ∧ (∀ s, mag (mk s (roundBits m 1)) = m) := by
  obtain ⟨hlt, q, e, he, hq⟩ := h
  unfold roundBits
  simp only [Nat.div_one, Nat.one_mul]
  by_cases hm : m < 2 ^ 53
  · simp only [if_pos hm, Nat.pow_zero, Nat.div_one, Nat.mod_one, Nat.mul_zero, Nat.zero_mul, Nat.zero_add]
    rw [if_neg (by simp), Nat.min_eq_left (by unfold infBits; omega)]
    refine ⟨by unfold infBits; omega, fun s => ?_⟩
    obtain ⟨_, h2, h3⟩ := mk_fields (s := s) (b := m) (by omega)
    unfold mag
    rw [h2, h3]
    by_cases h52 : m < 2 ^ 52
    · rw [if_pos (Nat.div_eq_of_lt h52), Nat.mod_eq_of_lt h52]
    · rw [if_neg (by omega)]
      have : m / 2 ^ 52 = 1 := by omega
      rw [this]; simp only [Nat.sub_self, Nat.pow_zero, Nat.mul_one]; omega
  · simp only [if_neg hm]
    have hm0 : m ≠ 0 := by omega
    have hb := log2_bounds hm0
    have hd := dvd_of_fits (k := 52) he hq hm0
    obtain ⟨c, hc⟩ := hd
    have hlog : 53 ≤ m.log2 := (Nat.le_log2 hm0).2 (by omega)
    have hlog2 : m.log2 < 2098 := (Nat.log2_lt hm0).2 hlt
    generalize hx : m.log2 - 52 = x at *
    have hsplit : m.log2 = 52 + x := by omega
    have hpos : 0 < 2 ^ x := Nat.two_pow_pos _
    have hmod : m % 2 ^ x = 0 := by rw [hc]; exact Nat.mul_mod_right _ _
    have hdiv : m / 2 ^ x = c := by rw [hc]; exact Nat.mul_div_cancel_left _ hpos
    rw [hmod, hdiv, if_neg (by omega)]
    rw [hsplit, Nat.pow_add] at hb
    have c1 : 2 ^ 52 ≤ c := by
      apply Classical.byContradiction; intro hn
      have : 2 ^ x * c < 2 ^ x * 2 ^ 52 := Nat.mul_lt_mul_of_pos_left (by omega) hpos
      rw [Nat.mul_comm (2 ^ x) (2 ^ 52), ← hc] at this
      omega
    have c2 : c < 2 ^ 53 := by
      apply Classical.byContradiction; intro hn
      have : 2 ^ x * 2 ^ 53 ≤ 2 ^ x * c := Nat.mul_le_mul_left _ (by omega)
      rw [← hc] at this
      have e2 : 2 ^ (52 + x + 1) = 2 ^ x * 2 ^ 53 := by rw [← Nat.pow_add]; congr 1; omega
      omega
    have hxl : x ≤ 2045 := by omega
    have hbits : x * 2 ^ 52 + c < infBits := by unfold infBits; omega
    rw [Nat.min_eq_left (by omega)]
    refine ⟨hbits, fun s => ?_⟩
    obtain ⟨_, h2, h3⟩ := mk_fields (s := s) (b := x * 2 ^ 52 + c) (by unfold infBits at hbits; omega)
    unfold mag
    rw [h2, h3, if_neg (by omega)]
    have d1 : (x * 2 ^ 52 + c) / 2 ^ 52 = x + 1 := by omega
    have d2 : 2 ^ 52 + (x * 2 ^ 52 + c) % 2 ^ 52 = c := by omega
    rw [d1, d2, Nat.add_sub_cancel, hc, Nat.mul_comm]

theorem not_special {s : Bool} {b : Nat} (h : b < infBits) : isNaN (mk s b) = false ∧ isInf (mk s b) = false := by
  obtain ⟨_, h2, _⟩ := mk_fields (s := s) (b := b) (by unfold infBits at h; omega)
  have : b / 2 ^ 52 ≠ 2047 := by unfold infBits at h; omega
  unfold isNaN isInf
  rw [h2]
  simp [this]

def Finite (w : Word) : Prop := isNaN w = false ∧ isInf w = false

theorem finite_expo {w : Word} (h : Finite w) : expo w < 2047 := by
  have := expo_lt w
  obtain ⟨h1, h2⟩ := h
  unfold isNaN at h1
  unfold isInf at h2
  by_cases he : expo w = 2047
  · by_cases hf : frac w = 0
    · simp [he, hf] at h2
    · simp [he, hf] at h1
  · omega

theorem mag_fits {w : Word} (h : Finite w) : Fits (mag w) := by
  have he := finite_expo h
  have hf := frac_lt w
  unfold mag
  by_cases h0 : expo w = 0
  · rw [if_pos h0]
    exact ⟨Nat.lt_trans hf (Nat.pow_lt_pow_right (by omega) (by omega)), frac w, 0, by simp, by omega⟩
  · rw [if_neg h0]
    refine ⟨?_, _, _, rfl, by omega⟩
    calc (2 ^ 52 + frac w) * 2 ^ (expo w - 1) < 2 ^ 53 * 2 ^ (expo w - 1) :=
          Nat.mul_lt_mul_of_pos_right (by omega) (Nat.two_pow_pos _)
      _ = 2 ^ (53 + (expo w - 1)) := by rw [Nat.pow_add]
      _ ≤ 2 ^ 2098 := Nat.pow_le_pow_right (by omega) (by omega)

/-- Two finite numbers with the same sign bit and magnitude are the same. -/
theorem finite_ext {w w' : Word} (h : Finite w) (h' : Finite w') (hs : neg? w = neg? w') (hm : mag w = mag w') : w = w' := by
  have key : expo w = expo w' ∧ frac w = frac w' := by
    have := frac_lt w
    have := frac_lt w'
    unfold mag at hm
    have big : ∀ a b : Nat, a < 2 ^ 52 → b < 2 ^ 52 → ∀ e f : Nat, e < f → (2 ^ 52 + a) * 2 ^ e < (2 ^ 52 + b) * 2 ^ f := by
      intro a b ha hb e f hef
      calc (2 ^ 52 + a) * 2 ^ e < 2 ^ 53 * 2 ^ e := Nat.mul_lt_mul_of_pos_right (by omega) (Nat.two_pow_pos _)
        _ = 2 ^ 52 * 2 ^ (e + 1) := by rw [Nat.pow_succ 2 e]; omega
        _ ≤ 2 ^ 52 * 2 ^ f := Nat.mul_le_mul_left _ (Nat.pow_le_pow_right (by omega) hef)
        _ ≤ (2 ^ 52 + b) * 2 ^ f := Nat.mul_le_mul_right _ (by omega)
    have low : ∀ b e : Nat, 2 ^ 52 ≤ (2 ^ 52 + b) * 2 ^ e := by
      intro b e
      calc 2 ^ 52 ≤ (2 ^ 52 + b) * 1 := by omega
        _ ≤ (2 ^ 52 + b) * 2 ^ e := Nat.mul_le_mul_left _ (Nat.two_pow_pos _)
    by_cases h0 : expo w = 0 <;> by_cases h1 : expo w' = 0
    · rw [if_pos h0, if_pos h1] at hm; omega
    · rw [if_pos h0, if_neg h1] at hm
      have := low (frac w') (expo w' - 1); omega
    · rw [if_neg h0, if_pos h1] at hm
      have := low (frac w) (expo w - 1); omega
    · rw [if_neg h0, if_neg h1] at hm
      rcases Nat.lt_trichotomy (expo w - 1) (expo w' - 1) with hl | he | hl
      · have := big (frac w) (frac w') (by omega) (by omega) _ _ hl; omega
      · rw [he] at hm
        have := Nat.eq_of_mul_eq_mul_right (Nat.two_pow_pos _) hm
        omega
      · have := big (frac w') (frac w) (by omega) (by omega) _ _ hl; omega
  rw [← mk_self w, ← mk_self w', hs, key.1, key.2]

/-! ### `float` -/

/-- `v` units of `2^-149` is a finite `float`. -/
def Fits32 (v : Nat) : Prop := v < 2 ^ 277 ∧ ∃ q e, v = q * 2 ^ e ∧ q < 2 ^ 24

theorem nearest_exact {q d : Nat} (hd : 0 < d) : nearest (q * d) d = q := by
  unfold nearest
  simp only [Nat.mul_mod_left, Nat.mul_div_cancel q hd]
  rw [if_neg (by omega)]

theorem round32_exact {n d v : Nat} (hd : 0 < d) (hv : Fits32 v) (h : n * 2 ^ 149 = v * d) : round32 n d = .fin v false := by
  obtain ⟨hlt, q, e, he, hq⟩ := hv
  unfold round32
  simp only [h, Nat.mul_div_cancel v hd]
  have hdv : 2 ^ (v.log2 - 23) ∣ v := by
    by_cases h0 : v = 0
    · rw [h0]; exact Nat.dvd_zero _
    · exact dvd_of_fits he hq h0
  obtain ⟨c, hc⟩ := hdv
  have hpos : 0 < d * 2 ^ (v.log2 - 23) := Nat.mul_pos hd (Nat.two_pow_pos _)
  have e1 : v * d = c * (d * 2 ^ (v.log2 - 23)) := by
    conv => lhs; rw [hc]
    rw [Nat.mul_comm (2 ^ _) c, Nat.mul_assoc, Nat.mul_comm (2 ^ _) d]
  rw [e1, nearest_exact hpos]
  have e2 : c * 2 ^ (v.log2 - 23) = v := by conv => rhs; rw [hc]
                                            rw [Nat.mul_comm]
  rw [e2, if_neg (by omega), ← e1]
  simp

theorem fits_of_32 {v : Nat} (h : Fits32 v) : Fits (v * 2 ^ 925) := by
  obtain ⟨hlt, q, e, he, hq⟩ := h
  refine ⟨?_, q, e + 925, by rw [he, Nat.mul_assoc, ← Nat.pow_add], by omega⟩
  calc v * 2 ^ 925 < 2 ^ 277 * 2 ^ 925 := Nat.mul_lt_mul_of_pos_right hlt (Nat.two_pow_pos _)
    _ = 2 ^ 1202 := by rw [← Nat.pow_add]
    _ ≤ 2 ^ 2098 := Nat.pow_le_pow_right (by omega) (by omega)

theorem toDouble_exact {v : Nat} (h : Fits32 v) (neg e : Bool) :
    Finite (toDouble neg (.fin v e)) ∧ neg? (toDouble neg (.fin v e)) = neg ∧ mag (toDouble neg (.fin v e)) = v * 2 ^ 925 := by
  obtain ⟨h1, h2⟩ := roundBits_fits (fits_of_32 h)
  exact ⟨not_special h1, (mk_fields (by unfold infBits at h1; omega)).1, h2 neg⟩

/-! ### Digits -/

theorem natText_eq : ∀ (f n : Nat), n < 2 ^ f → 0 < f → natText f n = decText n
  | 0, _, _, hf => absurd hf (by omega)
  | f + 1, n, hn, _ => by
    rw [natText, decText]
    split
    · rfl
    · rename_i h
      have hf : 0 < f := by
        cases f with
        | zero => simp at hn; omega
        | succ f => omega
      rw [natText_eq f (n / 10) (by rw [Nat.pow_succ] at hn; omega) hf]

theorem natText_log (n : Nat) : natText (n.log2 + 1) n = decText n := natText_eq _ n Nat.lt_log2_self (by omega)

theorem lastDigits_spec : ∀ (k n : Nat), (lastDigits k n).length = k ∧ (∀ c ∈ lastDigits k n, 48 ≤ c ∧ c ≤ 57) ∧
    (n < 10 ^ k → value 10 (lastDigits k n) = n)
  | 0, n => ⟨rfl, (fun c hc => by cases hc), (fun h => by
      have : n = 0 := by simpa using h
      subst this; rfl)⟩
  | k + 1, n => by
    obtain ⟨h1, h2, h3⟩ := lastDigits_spec k (n / 10)
    have hd := digit_ofNat (k := n % 10) (Nat.mod_lt _ (by omega))
    rw [lastDigits]
    refine ⟨by simp [h1], ?_, ?_⟩
    · intro c hc
      rcases List.mem_append.1 hc with hc | hc
      · exact h2 c hc
      · simp only [List.mem_singleton] at hc; subst hc; exact hd.1
    · intro hn
      rw [value_append, h3 (by rw [Nat.pow_succ] at hn; omega), hd.2]; omega

theorem valueFrom_append (acc : Nat) (a b : Bytes) : valueFrom 10 acc (a ++ b) = valueFrom 10 (valueFrom 10 acc a) b := by
  simp [valueFrom, List.foldl_append]

theorem valueFrom_acc : ∀ (b : Bytes) (acc : Nat), valueFrom 10 acc b = acc * 10 ^ b.length + value 10 b
  | [], acc => by simp [value, valueFrom]
  | c :: b, acc => by
    have h1 := valueFrom_acc b (acc * 10 + digit c)
    have h2 := valueFrom_acc b (0 * 10 + digit c)
    simp only [value, valueFrom, List.foldl_cons] at h1 h2 ⊢
    rw [h1, h2, List.length_cons, Nat.pow_succ, Nat.add_mul, Nat.zero_mul, Nat.zero_add, Nat.mul_assoc,
      Nat.mul_comm 10 (10 ^ b.length), Nat.add_assoc]

theorem value_join (a b : Bytes) : value 10 (a ++ b) = value 10 a * 10 ^ b.length + value 10 b := by
  unfold value
  rw [valueFrom_append, valueFrom_acc]
  rfl

theorem strtoDigits_dec {l : Bytes} (h : ∀ c ∈ l, 48 ≤ c ∧ c ≤ 57) : strtoDigits 10 l 0 = value 10 l := by
  have := strtoDigits_eq 10 l [] 0 (fun x hx => ⟨(digitVal_hex (dec_hex (h x hx))).1, digit_dec (h x hx)⟩) (.inl rfl)
  rwa [List.append_nil] at this

theorem decText_len : ∀ (k n : Nat), 0 < k → n < 10 ^ k → (decText n).length ≤ k
  | 0, _, h, _ => absurd h (by omega)
  | k + 1, n, _, hn => by
    rw [decText]
    split
    · simp
    · rename_i h
      have hk : 0 < k := by
        cases k with
        | zero => simp at hn; omega
        | succ k => omega
      have := decText_len k (n / 10) hk (by rw [Nat.pow_succ] at hn; omega)
      simp; omega

/-! ### Reading a decimal number -/

theorem dig_iff (c : UInt8) : isDigit c = true ↔ 48 ≤ c ∧ c ≤ 57 := by simp [isDigit]

theorem takeWhile_digits {l r : Bytes} (h : ∀ c ∈ l, 48 ≤ c ∧ c ≤ 57) (hr : ∀ c, r.head? = some c → isDigit c = false) :
    (l ++ r).takeWhile isDigit = l ∧ (l ++ r).dropWhile isDigit = r := by
  induction l with
  | nil =>
    cases r with
    | nil => exact ⟨rfl, rfl⟩
    | cons c r =>
      have := hr c rfl
      simp [this]
  | cons c l ih =>
    obtain ⟨h1, h2⟩ := ih fun x hx => h x (List.mem_cons_of_mem _ hx)
    have hc := (dig_iff c).2 (h c (by simp))
    simp only [List.cons_append, List.takeWhile_cons, List.dropWhile_cons, hc, if_true, h1, h2, and_self]

end Verif.FloatText
