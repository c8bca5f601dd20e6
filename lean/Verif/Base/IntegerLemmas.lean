import Verif.Base.Integer
/- Helper lemmas for `IntegerProps.lean`. -/
namespace Verif.Integer
open Verif Verif.Str

theorem log2_bounds {n : Nat} (h : 2 ^ 53 ≤ n) : 52 ≤ n.log2 ∧ 2 ^ n.log2 ≤ n ∧ n < 2 ^ (n.log2 + 1) := by
  have h0 : n ≠ 0 := by intro e; subst e; simp at h
  refine ⟨?_, Nat.log2_self_le h0, Nat.lt_log2_self⟩
  exact (Nat.le_log2 h0).2 (Nat.le_trans (by decide) h)

/-- Any multiple of `2^55` below `n` stays below the rounded value (`n < 2^108`). -/
theorem round53_ge {n q : Nat} (h : q * 2 ^ 55 ≤ n) (hn : n < 2 ^ 108) : q * 2 ^ 55 ≤ round53 n := by
  unfold round53
  split
  · exact h
  · rename_i hb
    obtain ⟨h1, h2, h3⟩ := log2_bounds (n := n) (by omega)
    have hl : n.log2 < 108 := (Nat.log2_lt (by omega)).2 hn
    simp only
    generalize hs : n.log2 - 52 = s
    have hs55 : s ≤ 55 := by omega
    have key : q * 2 ^ 55 ≤ n / 2 ^ s * 2 ^ s := by
      have e : q * 2 ^ 55 = (q * 2 ^ (55 - s)) * 2 ^ s := by
        rw [Nat.mul_assoc, ← Nat.pow_add]; congr 2; omega
      rw [e]
      apply Nat.mul_le_mul_right
      rw [Nat.le_div_iff_mul_le (Nat.two_pow_pos s), ← e]
      exact h
    refine Nat.le_trans key (Nat.mul_le_mul_right _ ?_)
    split <;> omega

/-- Half a unit in the last place bounds the rounding. -/
theorem round53_le {n k : Nat} (hn : n < 2 ^ (53 + k)) (hk : 0 < k) : round53 n ≤ n + 2 ^ (k - 1) := by
  unfold round53
  split
  · exact Nat.le_add_right _ _
  · rename_i hb
    obtain ⟨h1, h2, h3⟩ := log2_bounds (n := n) (by omega)
    have hl : n.log2 < 53 + k := (Nat.log2_lt (by omega)).2 hn
    simp only
    generalize hs : n.log2 - 52 = s
    have hsk : s ≤ k := by omega
    have hdm := Nat.div_add_mod n (2 ^ s)
    rw [Nat.mul_comm] at hdm
    split
    · rename_i hc
      by_cases hs0 : s = 0
      · subst hs0
        simp [Nat.mod_one] at hc
      · have e : 2 ^ s = 2 ^ (s - 1) + 2 ^ (s - 1) := by
          conv => lhs; rw [show s = (s - 1) + 1 by omega, Nat.pow_succ]
          omega
        have hle : 2 ^ (s - 1) ≤ n % 2 ^ s := by omega
        have h5 : 2 ^ (s - 1) ≤ 2 ^ (k - 1) := Nat.pow_le_pow_right (by omega) (by omega)
        rw [Nat.add_mul]
        omega
    · exact Nat.le_trans (Nat.div_mul_le_self _ _) (Nat.le_add_right _ _)

theorem round53_small {n : Nat} (h : n < 2 ^ 53) : round53 n = n := by
  unfold round53; rw [if_pos h]

/-- Relative error bound. -/
theorem round53_rel (n : Nat) : round53 n * 2 ^ 53 ≤ n * (2 ^ 53 + 1) := by
  by_cases h : n < 2 ^ 53
  · rw [round53_small h]; exact Nat.mul_le_mul_left _ (by omega)
  · obtain ⟨h1, h2, h3⟩ := log2_bounds (n := n) (by omega)
    by_cases h52 : n.log2 = 52
    · exfalso; rw [h52] at h3; omega
    · have := round53_le (n := n) (k := n.log2 - 52) (by rw [show 53 + (n.log2 - 52) = n.log2 + 1 by omega]; exact h3)
        (by omega)
      have e : 2 ^ (n.log2 - 52 - 1) * 2 ^ 53 = 2 ^ n.log2 := by
        rw [← Nat.pow_add]; congr 1; omega
      have := Nat.mul_le_mul_right (2 ^ 53) this
      rw [Nat.add_mul, e] at this
      omega

/-- The digit loop makes progress for every number. -/
theorem mulTenth_le_half (n : Nat) : mulTenth n ≤ n / 2 := by
  unfold mulTenth
  have h1 := round53_rel n
  have h2 := round53_rel (round53 n * tenth)
  simp only [tenth] at *
  omega

/-- The first number whose last digit is cut off wrongly. -/
def firstBad : Nat := 6755399441055749

theorem mulTenth_exact {n : Nat} (h : n < firstBad) : mulTenth n = n / 10 := by
  simp only [firstBad] at h
  unfold mulTenth
  rw [round53_small (n := n) (by omega)]
  generalize hP : n * tenth = P
  simp only [tenth] at hP
  have lo : n / 10 * 2 ^ 55 ≤ round53 P := round53_ge (by omega) (by omega)
  have hi : round53 P < (n / 10 + 1) * 2 ^ 55 := by
    have hP2 : P < 2 ^ (53 + 52) := by omega
    have := round53_le (k := 52) hP2 (by omega)
    have e : 2 ^ (52 - 1) = 2251799813685248 := by decide
    rw [e] at this
    omega
  have a := (Nat.le_div_iff_mul_le (Nat.two_pow_pos 55)).2 lo
  have b := (Nat.div_lt_iff_lt_mul (Nat.two_pow_pos 55)).2 hi
  omega

/-! ### digits -/

/-- Decimal text of a natural number. -/
def decText (n : Nat) : Bytes :=
  if n < 10 then [UInt8.ofNat (48 + n)] else decText (n / 10) ++ [UInt8.ofNat (48 + n % 10)]
termination_by n
decreasing_by omega

theorem digitLoop_total (k : Nat) : ∀ n fuel, n < 2 ^ k → k < fuel → ∃ d, digitLoop fuel n = some d := by
  induction k with
  | zero =>
    intro n fuel hn hf
    obtain ⟨f, rfl⟩ : ∃ f, fuel = f + 1 := ⟨fuel - 1, by omega⟩
    have : n = 0 := by simpa using hn
    subst this
    exact ⟨[], by simp [digitLoop]⟩
  | succ k ih =>
    intro n fuel hn hf
    obtain ⟨f, rfl⟩ : ∃ f, fuel = f + 1 := ⟨fuel - 1, by omega⟩
    unfold digitLoop
    by_cases h : n = 0
    · simp [h]
    · rw [if_pos h]
      have := mulTenth_le_half n
      obtain ⟨d, hd⟩ := ih (mulTenth n) f (by rw [Nat.pow_succ] at hn; omega) (by omega)
      exact ⟨_, by rw [hd]; rfl⟩

theorem digitLoop_exact (k : Nat) : ∀ n fuel, 0 < n → n < firstBad → n < 10 ^ k → k < fuel →
    digitLoop fuel n = some (decText n).reverse := by
  induction k with
  | zero => intro n fuel h0 _ hn; simp at hn; omega
  | succ k ih =>
    intro n fuel h0 hb hn hf
    obtain ⟨f, rfl⟩ : ∃ f, fuel = f + 1 := ⟨fuel - 1, by omega⟩
    unfold digitLoop
    rw [if_pos (by omega), mulTenth_exact hb]
    by_cases h : n < 10
    · rw [Nat.div_eq_of_lt h]
      obtain ⟨f', rfl⟩ : ∃ f', f = f' + 1 := ⟨f - 1, by omega⟩
      rw [decText, if_pos h, Nat.mod_eq_of_lt h]
      simp [digitLoop, Nat.add_comm]
    · rw [ih (n / 10) f (by omega) (by unfold firstBad at *; omega) (by rw [Nat.pow_succ] at hn; omega) (by omega)]
      conv => rhs; rw [decText, if_neg h]
      simp [Nat.add_comm]

/-! ### the swap loop reverses -/

theorem swapLoop_length (k : Nat) : ∀ i b, (swapLoop k i b).length = b.length := by
  induction k with
  | zero => intros; rfl
  | succ k ih => intro i b; simp only [swapLoop]; rw [ih]; simp

theorem swapLoop_get (k : Nat) : ∀ (i : Nat) (b : Bytes), (i + k) * 2 ≤ b.length → ∀ (x : Nat), x < b.length →
    (swapLoop k i b)[x]? = if (i ≤ x ∧ x < i + k) ∨ (b.length - (i + k) ≤ x ∧ x < b.length - i) then
      b[b.length - 1 - x]? else b[x]? := by
  induction k with
  | zero => intro i b _ x hx; rw [if_neg (by omega)]; rfl
  | succ k ih =>
    intro i b hb x hx
    simp only [swapLoop]
    rw [ih (i+1) _ (by simp; omega) x (by simpa using hx)]
    simp only [List.length_set]
    have hi : i < b.length := by omega
    have hj : b.length - i - 1 < b.length := by omega
    have gi : b.getD i 0 = b[i] := by simp [hi]
    have gj : b.getD (b.length - i - 1) 0 = b[b.length - i - 1] := by simp [hj]
    rw [gi, gj]
    have hget : ∀ y, y < b.length → ((b.set (b.length - i - 1) b[i]).set i b[b.length - i - 1])[y]? =
        if y = i ∨ y = b.length - 1 - i then b[b.length - 1 - y]? else b[y]? := by
      intro y hy
      by_cases h1 : i = y
      · subst h1
        rw [if_pos (.inl rfl), List.getElem?_set_self (by simpa using hi),
          List.getElem?_eq_getElem (by omega)]
        congr 2; omega
      · rw [List.getElem?_set_ne h1]
        by_cases h2 : b.length - i - 1 = y
        · rw [if_pos (.inr (by omega)), h2, List.getElem?_set_self hy, List.getElem?_eq_getElem (by omega)]
          congr 2; omega
        · rw [List.getElem?_set_ne h2, if_neg (by omega)]
    rw [hget x hx, hget (b.length - 1 - x) (by omega)]
    have e : b.length - 1 - (b.length - 1 - x) = x := by omega
    rw [e]
    by_cases c1 : (i + 1 ≤ x ∧ x < i + 1 + k) ∨ (b.length - (i + 1 + k) ≤ x ∧ x < b.length - (i + 1))
    · rw [if_pos c1, if_neg (by omega), if_pos (by omega)]
    · rw [if_neg c1]
      by_cases c2 : x = i ∨ x = b.length - 1 - i
      · rw [if_pos c2, if_pos (by omega)]
      · rw [if_neg c2, if_neg (by omega)]

theorem reverse_eq (b : Bytes) : reverse b = b.reverse := by
  unfold reverse
  apply List.ext_getElem?
  intro x
  by_cases hx : x < b.length
  · rw [swapLoop_get _ _ _ (by omega) x hx, List.getElem?_reverse hx]
    split
    · rfl
    · have : b.length - 1 - x = x := by omega
      rw [this]
  · rw [List.getElem?_eq_none (by rw [swapLoop_length]; omega), List.getElem?_eq_none (by simp; omega)]

end Verif.Integer
