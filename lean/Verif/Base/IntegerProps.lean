import Verif.Base.IntegerLemmas
/-
C11 (integer text round trip) and C12 (classification of integer literals).
-/
namespace Verif.Integer
open Verif Verif.Str

/-! ### Specification -/

/-- `l` is a decimal numeral: one or more of `0`..`9`. -/
def IsDec (l : Bytes) : Prop := l ≠ [] ∧ ∀ c ∈ l, 48 ≤ c ∧ c ≤ 57

/-- One hexadecimal digit. -/
def IsHexDigit (c : UInt8) : Prop := (48 ≤ c ∧ c ≤ 57) ∨ (97 ≤ c ∧ c ≤ 102) ∨ (65 ≤ c ∧ c ≤ 70)

/-- `l` is `0x` (or `0X`) followed by one or more hexadecimal digits. -/
def IsHex (l : Bytes) : Prop :=
  ∃ x r, l = 48 :: x :: r ∧ (x = 120 ∨ x = 88) ∧ r ≠ [] ∧ ∀ c ∈ r, IsHexDigit c

/-- `l` is one or more of `0`,`1` followed by `b` (or `B`). -/
def IsBin (l : Bytes) : Prop :=
  ∃ d m, l = d ++ [m] ∧ (m = 98 ∨ m = 66) ∧ d ≠ [] ∧ ∀ c ∈ d, c = 48 ∨ c = 49

/-- Numeric value of one (hexadecimal) digit. -/
def digit (c : UInt8) : Nat :=
  if 48 ≤ c ∧ c ≤ 57 then c.toNat - 48 else if 97 ≤ c then c.toNat - 87 else c.toNat - 55

/-- Value of a numeral, most significant digit first. -/
def valueFrom (base acc : Nat) (l : Bytes) : Nat := l.foldl (fun a c => a * base + digit c) acc
def value (base : Nat) (l : Bytes) : Nat := valueFrom base 0 l

/-- The decimal text of an integer (`decText`: most significant digit first, no leading zero). -/
def intText (n : Int) : Bytes := if n < 0 then 45 :: decText n.natAbs else decText n.natAbs

/-! ### Helper lemmas -/

theorem isDigit_iff (c : UInt8) : isDigit c = true ↔ 48 ≤ c ∧ c ≤ 57 := by simp [isDigit]

theorem lower_eq {c k : UInt8} (hk : 97 ≤ k ∧ k ≤ 122) : lowerChar c = k ↔ c = k ∨ c = k - 32 := by
  obtain ⟨h1, h2⟩ := hk
  rw [UInt8.le_iff_toNat_le] at h1 h2
  unfold lowerChar
  split
  · rename_i h
    obtain ⟨h3, h4⟩ := h
    rw [UInt8.le_iff_toNat_le] at h3 h4
    simp only [← UInt8.toNat_inj, UInt8.toNat_add, UInt8.toNat_sub, UInt8.reduceToNat] at *
    omega
  · rename_i h
    simp only [UInt8.le_iff_toNat_le, ← UInt8.toNat_inj, UInt8.toNat_sub, UInt8.reduceToNat] at *
    omega

theorem isHexaDigit_iff (c : UInt8) : isHexaDigit c = true ↔ IsHexDigit c := by
  unfold isHexaDigit IsHexDigit lowerChar
  simp only [Bool.or_eq_true, Bool.and_eq_true, decide_eq_true_eq]
  split
  · rename_i h
    obtain ⟨h3, h4⟩ := h
    simp only [UInt8.le_iff_toNat_le, UInt8.toNat_add, UInt8.toNat_sub, UInt8.reduceToNat] at *
    omega
  · rename_i h
    simp only [UInt8.le_iff_toNat_le, UInt8.reduceToNat] at *
    omega

theorem binaryMark_iff (l : Bytes) : binaryMark l = true ↔
    ∃ d m r, l = d ++ m :: r ∧ (m = 98 ∨ m = 66) ∧ ∀ c ∈ d, c = 48 ∨ c = 49 := by
  induction l with
  | nil => simp [binaryMark]
  | cons c cs ih =>
    unfold binaryMark
    split
    · rename_i h
      have h' : c = 48 ∨ c = 49 := by simpa using h
      rw [ih]
      constructor
      · rintro ⟨d, m, r, rfl, hm, hd⟩
        exact ⟨c :: d, m, r, rfl, hm, by intro x hx; rcases List.mem_cons.1 hx with rfl | hx; exact h'; exact hd x hx⟩
      · rintro ⟨d, m, r, e, hm, hd⟩
        cases d with
        | nil =>
          simp only [List.nil_append, List.cons.injEq] at e
          obtain ⟨rfl, _⟩ := e
          rcases hm with rfl | rfl <;> simp at h'
        | cons x d =>
          simp only [List.cons_append, List.cons.injEq] at e
          obtain ⟨rfl, rfl⟩ := e
          exact ⟨d, m, r, rfl, hm, fun y hy => hd y (List.mem_cons_of_mem _ hy)⟩
    · rename_i h
      rw [beq_iff_eq, lower_eq (by decide)]
      constructor
      · intro hc
        exact ⟨[], c, cs, rfl, by simpa using hc, by intro x hx; cases hx⟩
      · rintro ⟨d, m, r, e, hm, hd⟩
        cases d with
        | nil =>
          simp only [List.nil_append, List.cons.injEq] at e
          obtain ⟨rfl, _⟩ := e
          simpa using hm
        | cons x d =>
          simp only [List.cons_append, List.cons.injEq] at e
          obtain ⟨rfl, rfl⟩ := e
          have := hd c List.mem_cons_self
          simp at h
          exact absurd this (by intro h2; rcases h2 with h2 | h2; exact h.1 h2; exact h.2 h2)

theorem hexaPrefix_iff (l r : Bytes) : hexaPrefix l = some r ↔ ∃ x, l = 48 :: x :: r ∧ (x = 120 ∨ x = 88) := by
  match l with
  | [] => simp [hexaPrefix]
  | [a] => simp [hexaPrefix]
  | a :: b :: t =>
    have := lower_eq (c := b) (k := 120) (by decide)
    simp only [UInt8.reduceSub] at this
    have e : hexaPrefix (a :: b :: t) = if (a == 48 && lowerChar b == 120) = true then some t else none := rfl
    rw [e]
    constructor
    · intro h
      by_cases h2 : (a == 48 && lowerChar b == 120) = true
      · rw [if_pos h2] at h
        simp only [Bool.and_eq_true, beq_iff_eq, this] at h2
        simp only [Option.some.injEq] at h
        exact ⟨b, by rw [h2.1, h], h2.2⟩
      · rw [if_neg h2] at h; cases h
    · rintro ⟨x, e, hx⟩
      simp only [List.cons.injEq] at e
      obtain ⟨rfl, rfl, rfl⟩ := e
      rw [if_pos]
      simp only [Bool.and_eq_true, beq_iff_eq, this]
      exact ⟨trivial, hx⟩

/-- What `takeWhile`/`dropWhile` followed by an end-or-blank test accepts. -/
theorem endOrBlank_iff (p : UInt8 → Bool) (hp : p 32 = false) (l : Bytes) :
    endOrBlank (l.dropWhile p) = true ↔
      ∃ d r, l = d ++ r ∧ (∀ c ∈ d, p c = true) ∧ (r = [] ∨ ∃ t, r = 32 :: t) ∧ d = l.takeWhile p := by
  have split := List.takeWhile_append_dropWhile (p := p) (l := l)
  have all : ∀ c ∈ l.takeWhile p, p c = true := fun c hc => by
    have := List.all_takeWhile (p := p) (l := l)
    exact List.all_eq_true.1 this c hc
  constructor
  · intro h
    refine ⟨l.takeWhile p, l.dropWhile p, split.symm, all, ?_, rfl⟩
    cases hd : l.dropWhile p with
    | nil => exact .inl rfl
    | cons a t =>
      rw [hd] at h
      simp [endOrBlank] at h
      exact .inr ⟨t, by rw [h]⟩
  · rintro ⟨d, r, rfl, hd, hr, _⟩
    rw [List.dropWhile_append_of_pos hd]
    rcases hr with rfl | ⟨t, rfl⟩
    · rfl
    · simp [List.dropWhile, hp, endOrBlank]

theorem takeWhile_of_blank (p : UInt8 → Bool) (hp : p 32 = false) (d r : Bytes) (hd : ∀ c ∈ d, p c = true)
    (hr : r = [] ∨ ∃ t, r = 32 :: t) : (d ++ r).takeWhile p = d := by
  rw [List.takeWhile_append_of_pos hd]
  rcases hr with rfl | ⟨t, rfl⟩
  · simp
  · simp [List.takeWhile, hp]

/-! ### C12 -/

/-- The full property C12. -/
def ClassifiesExactly : Prop := ∀ l : Bytes,
  (isInteger l = .int ↔ IsDec l) ∧ (isInteger l = .hexa ↔ IsHex l) ∧ (isInteger l = .binary ↔ IsBin l)

/-- Exactly the texts classified as binary: `[01]*[bB]` followed by anything. -/
theorem isInteger_binary_iff (l : Bytes) : isInteger l = .binary ↔
    ∃ d m r, l = d ++ m :: r ∧ (m = 98 ∨ m = 66) ∧ ∀ c ∈ d, c = 48 ∨ c = 49 := by
  rw [← binaryMark_iff]
  unfold isInteger
  cases l with
  | nil => simp [binaryMark]
  | cons a t =>
    cases hb : binaryMark (a :: t)
    · simp only [List.isEmpty_cons, Bool.false_eq_true, if_false, iff_false]
      split <;> (try split) <;> (try split) <;> simp
    · simp

/-- Exactly the texts classified as hexadecimal: `0[xX]` hex digits, then the end or a blank and anything. -/
theorem isInteger_hexa_iff (l : Bytes) : isInteger l = .hexa ↔
    ∃ x h r, l = 48 :: x :: (h ++ r) ∧ (x = 120 ∨ x = 88) ∧ h ≠ [] ∧ (∀ c ∈ h, IsHexDigit c) ∧
      (r = [] ∨ ∃ t, r = 32 :: t) := by
  constructor
  · intro h
    unfold isInteger at h
    split at h
    · cases h
    split at h
    · cases h
    split at h
    · rename_i r hr
      obtain ⟨x, rfl, hx⟩ := (hexaPrefix_iff _ _).1 hr
      split at h
      · cases h
      rename_i hne
      split at h
      · rename_i he
        obtain ⟨d, r', e, hd, hr', hd'⟩ := (endOrBlank_iff isHexaDigit (by decide) r).1 he
        refine ⟨x, d, r', by rw [e], hx, ?_, fun c hc => (isHexaDigit_iff c).1 (hd c hc), hr'⟩
        rw [hd']; intro e0; rw [e0] at hne; simp at hne
      · cases h
    · split at h <;> cases h
  · rintro ⟨x, h, r, rfl, hx, hne, hh, hr⟩
    have hb : binaryMark (48 :: x :: (h ++ r)) = false := by
      rcases hx with rfl | rfl <;> simp [binaryMark] <;> decide
    have hp : hexaPrefix (48 :: x :: (h ++ r)) = some (h ++ r) := (hexaPrefix_iff _ _).2 ⟨x, rfl, hx⟩
    have hh' : ∀ c ∈ h, isHexaDigit c = true := fun c hc => (isHexaDigit_iff c).2 (hh c hc)
    have ht := takeWhile_of_blank isHexaDigit (by decide) h r hh' hr
    have he : endOrBlank ((h ++ r).dropWhile isHexaDigit) = true :=
      (endOrBlank_iff isHexaDigit (by decide) _).2 ⟨h, r, rfl, hh', hr, ht.symm⟩
    have hemp : h.isEmpty = false := by cases h with
      | nil => exact absurd rfl hne
      | cons => rfl
    unfold isInteger
    rw [hb, hp]
    simp only [List.isEmpty_cons, ht, he, hemp, Bool.false_eq_true, if_false, if_true]

/-- Exactly the texts classified as decimal: digits (possibly none), then the end or a blank and anything. -/
theorem isInteger_int_iff (l : Bytes) : isInteger l = .int ↔
    l ≠ [] ∧ ∃ d r, l = d ++ r ∧ (∀ c ∈ d, 48 ≤ c ∧ c ≤ 57) ∧ (r = [] ∨ ∃ t, r = 32 :: t) := by
  constructor
  · intro h
    unfold isInteger at h
    split at h
    · cases h
    rename_i hne
    split at h
    · cases h
    split at h
    · split at h
      · cases h
      · split at h <;> cases h
    · split at h
      · rename_i he
        obtain ⟨d, r, e, hd, hr, _⟩ := (endOrBlank_iff isDigit (by decide) l).1 he
        refine ⟨?_, d, r, e, fun c hc => (isDigit_iff c).1 (hd c hc), hr⟩
        intro e0; subst e0; simp at hne
      · cases h
  · rintro ⟨hne, d, r, rfl, hd, hr⟩
    have hd' : ∀ c ∈ d, isDigit c = true := fun c hc => (isDigit_iff c).2 (hd c hc)
    have hchar : ∀ c ∈ d, c ≠ 98 ∧ c ≠ 66 ∧ c ≠ 120 ∧ c ≠ 88 := by
      intro c hc
      have := hd c hc
      refine ⟨?_, ?_, ?_, ?_⟩ <;> (intro e; subst e; revert this; decide)
    have hb : binaryMark (d ++ r) = false := by
      cases hbm : binaryMark (d ++ r) with
      | false => rfl
      | true =>
        exfalso
        obtain ⟨d2, m, r2, e, hm, hd2⟩ := (binaryMark_iff _).1 hbm
        have hmem : ∀ (d r d2 : Bytes), d ++ r = d2 ++ m :: r2 → (∀ c ∈ d, c ≠ 98 ∧ c ≠ 66) →
            (∀ c ∈ d2, c = 48 ∨ c = 49) → (r = [] ∨ ∃ t, r = 32 :: t) → False := by
          intro d
          induction d with
          | nil =>
            intro r d2 e _ hd2 hr
            rcases hr with rfl | ⟨t, rfl⟩
            · simp at e
            · cases d2 with
              | nil => simp at e; rcases hm with rfl | rfl <;> simp at e
              | cons y d2 =>
                simp at e
                have := hd2 y List.mem_cons_self
                rw [← e.1] at this; revert this; decide
          | cons a d ih =>
            intro r d2 e hd hd2 hr
            cases d2 with
            | nil =>
              simp at e
              have := hd a List.mem_cons_self
              rw [e.1] at this
              rcases hm with rfl | rfl <;> simp at this
            | cons y d2 =>
              simp at e
              exact ih r d2 e.2 (fun c hc => hd c (List.mem_cons_of_mem _ hc))
                (fun c hc => hd2 c (List.mem_cons_of_mem _ hc)) hr
        exact hmem d r d2 e (fun c hc => ⟨(hchar c hc).1, (hchar c hc).2.1⟩) hd2 hr
    have hp : hexaPrefix (d ++ r) = none := by
      cases hx : hexaPrefix (d ++ r) with
      | none => rfl
      | some q =>
        exfalso
        obtain ⟨x, e, hx'⟩ := (hexaPrefix_iff _ _).1 hx
        clear hx hb
        match d, hd, hchar, e with
        | [], _, _, e =>
          rcases hr with rfl | ⟨t, rfl⟩ <;> simp at e
        | [a], _, _, e =>
          rcases hr with rfl | ⟨t, rfl⟩
          · simp at e
          · simp at e; rw [← e.2.1] at hx'; revert hx'; decide
        | a :: b :: d, _, hchar, e =>
          simp at e
          have := hchar b (by simp)
          rw [e.2.1] at this
          rcases hx' with rfl | rfl <;> simp at this
    have he : endOrBlank ((d ++ r).dropWhile isDigit) = true :=
      (endOrBlank_iff isDigit (by decide) _).2
        ⟨d, r, rfl, hd', hr, (takeWhile_of_blank isDigit (by decide) d r hd' hr).symm⟩
    have hemp : (d ++ r).isEmpty = false := by
      cases h : d ++ r with
      | nil => exact absurd h hne
      | cons => rfl
    unfold isInteger
    rw [hemp, hb, hp]
    simp only [he, Bool.false_eq_true, if_false, if_true]

/-- **C12** (missing: texts containing a blank, and texts with more characters after — or no digit
before — the binary mark `b`). Every literal of the grammar is classified correctly; conversely a text
without blanks is classified decimal / hexadecimal only if it has that grammar, and a text whose only `b`/`B`
is its last character, not its first, is classified binary only if it has the binary grammar. -/
theorem classification_partial (l : Bytes) :
    (IsDec l → isInteger l = .int) ∧ (IsHex l → isInteger l = .hexa) ∧ (IsBin l → isInteger l = .binary) ∧
    ((∀ c ∈ l, c ≠ 32) → isInteger l = .int → IsDec l) ∧
    ((∀ c ∈ l, c ≠ 32) → isInteger l = .hexa → IsHex l) ∧
    ((∀ c ∈ l.dropLast, c ≠ 98 ∧ c ≠ 66) → l.length ≥ 2 → isInteger l = .binary → IsBin l) := by
  refine ⟨?_, ?_, ?_, ?_, ?_, ?_⟩
  · intro ⟨h1, h2⟩
    exact (isInteger_int_iff l).2 ⟨h1, l, [], by simp, h2, .inl rfl⟩
  · rintro ⟨x, r, rfl, hx, hr, hh⟩
    exact (isInteger_hexa_iff _).2 ⟨x, r, [], by simp, hx, hr, hh, .inl rfl⟩
  · rintro ⟨d, m, rfl, hm, _, hd⟩
    exact (isInteger_binary_iff _).2 ⟨d, m, [], rfl, hm, hd⟩
  · intro hb h
    obtain ⟨hne, d, r, rfl, hd, hr⟩ := (isInteger_int_iff _).1 h
    rcases hr with rfl | ⟨t, rfl⟩
    · rw [List.append_nil] at *; exact ⟨hne, hd⟩
    · exact absurd rfl (hb 32 (by simp))
  · intro hb h
    obtain ⟨x, g, r, rfl, hx, hne, hh, hr⟩ := (isInteger_hexa_iff _).1 h
    rcases hr with rfl | ⟨t, rfl⟩
    · exact ⟨x, g, by simp, hx, hne, hh⟩
    · exact absurd rfl (hb 32 (by simp))
  · intro hb hlen h
    obtain ⟨d, m, r, rfl, hm, hd⟩ := (isInteger_binary_iff _).1 h
    cases r with
    | nil =>
      refine ⟨d, m, rfl, hm, ?_, hd⟩
      rintro rfl; simp at hlen
    | cons a r =>
      exfalso
      have : m ∈ (d ++ m :: a :: r).dropLast := by
        rw [List.dropLast_append_of_ne_nil (by simp)]
        simp
      have := hb m this
      rcases hm with rfl | rfl <;> simp at this

/-- `"12 abc"` is classified as a decimal literal, `"1bxyz"` and `"b"` as binary ones. -/
theorem classification_violated : ¬ ClassifiesExactly := by
  intro h
  have := (h [49, 50, 32, 97, 98, 99]).1.1 (by decide)
  exact absurd (this.2 32 (by simp)) (by decide)

theorem classification_binary_violated :
    isInteger [49, 98, 120, 121, 122] = .binary ∧ isInteger [98] = .binary := by decide

example : IsHex [48, 120, 49, 70] := ⟨120, [49, 70], rfl, by decide, by decide, by
  intro c hc; simp at hc; rcases hc with rfl | rfl <;> simp [IsHexDigit]⟩
example : IsBin [49, 48, 98] := ⟨[49, 48], 98, rfl, by decide, by decide, by decide⟩

/-! ### Values of parsed literals -/

theorem digitVal_hex {c : UInt8} (h : IsHexDigit c) : digitVal c = some (digit c) ∧ digit c < 16 := by
  unfold IsHexDigit at h
  simp only [UInt8.le_iff_toNat_le, UInt8.reduceToNat] at h
  have hlow : (lowerChar c).toNat = if 65 ≤ c.toNat ∧ c.toNat ≤ 90 then c.toNat + 32 else c.toNat := by
    unfold lowerChar
    simp only [UInt8.le_iff_toNat_le, UInt8.reduceToNat]
    split
    · simp only [UInt8.toNat_add, UInt8.toNat_sub, UInt8.reduceToNat]; omega
    · rfl
  unfold digitVal digit isDigit
  simp only [Bool.and_eq_true, decide_eq_true_eq, UInt8.le_iff_toNat_le, UInt8.reduceToNat]
  generalize (lowerChar c).toNat = m at *
  rcases h with h | h | h
  · rw [if_pos h, if_pos h]; exact ⟨rfl, by omega⟩
  · rw [if_neg (by omega)] at hlow
    subst hlow
    rw [if_neg (by omega), if_pos (by omega), if_neg (by omega), if_pos (by omega)]
    exact ⟨rfl, by omega⟩
  · rw [if_pos (by omega)] at hlow
    subst hlow
    rw [if_neg (by omega), if_pos (by omega), if_neg (by omega), if_neg (by omega)]
    exact ⟨by congr 1, by omega⟩

theorem digit_dec {c : UInt8} (h : 48 ≤ c ∧ c ≤ 57) : digit c < 10 := by
  unfold digit
  rw [if_pos h]
  simp only [UInt8.le_iff_toNat_le, UInt8.reduceToNat] at h
  omega

theorem strtoDigits_eq (base : Nat) : ∀ (l t : Bytes) (acc : Nat),
    (∀ c ∈ l, digitVal c = some (digit c) ∧ digit c < base) →
    (t = [] ∨ ∃ c r, t = c :: r ∧ ∀ d, digitVal c = some d → ¬ d < base) →
    strtoDigits base (l ++ t) acc = valueFrom base acc l := by
  intro l
  induction l with
  | nil =>
    intro t acc _ ht
    rcases ht with rfl | ⟨c, r, rfl, hc⟩
    · rfl
    · simp only [List.nil_append, strtoDigits, valueFrom, List.foldl]
      cases hv : digitVal c with
      | none => rfl
      | some d => simp only [if_neg (hc d hv)]
  | cons c l ih =>
    intro t acc h ht
    have hc := h c List.mem_cons_self
    simp only [List.cons_append, strtoDigits, hc.1, if_pos hc.2, valueFrom, List.foldl]
    exact ih t _ (fun x hx => h x (List.mem_cons_of_mem _ hx)) ht

/-- A text that starts with a digit: no blank, no sign. -/
theorem strtoll_digit_head (c : UInt8) (l : Bytes) (base : Nat) (h : 48 ≤ c ∧ c ≤ 57) :
    strtoll (c :: l) base = min INT_MAX (strtoDigits base
      (if base = 16 then (hexaPrefix (c :: l)).getD (c :: l) else c :: l) 0) := by
  have hs : isSpace c = false := by
    unfold isSpace
    simp only [UInt8.le_iff_toNat_le, UInt8.reduceToNat] at h
    simp only [Bool.or_eq_false_iff, Bool.and_eq_false_iff, decide_eq_false_iff_not, beq_eq_false_iff_ne, ne_eq,
      ← UInt8.toNat_inj, UInt8.le_iff_toNat_le, UInt8.reduceToNat]
    omega
  have h1 : c ≠ 45 := by intro e; subst e; revert h; decide
  have h2 : c ≠ 43 := by intro e; subst e; revert h; decide
  unfold strtoll
  have hd : List.dropWhile isSpace (c :: l) = c :: l := by simp [List.dropWhile, hs]
  rw [hd]
  dsimp only
  split
  · rename_i e; simp only [List.cons.injEq] at e; exact absurd e.1 h1
  · rename_i e; simp only [List.cons.injEq] at e; exact absurd e.1 h2
  · simp

theorem dec_hex {c : UInt8} (h : 48 ≤ c ∧ c ≤ 57) : IsHexDigit c := .inl h

/-- Parsing a decimal literal gives its value, or the largest integer if it does not fit. -/
theorem parse_decimal (l : Bytes) (h : IsDec l) : parse l = some (min INT_MAX (value 10 l)) := by
  have hk := (classification_partial l).1 h
  unfold parse
  rw [hk]
  obtain ⟨hne, hd⟩ := h
  cases l with
  | nil => exact absurd rfl hne
  | cons c l =>
    simp only
    rw [strtoll_digit_head c l 10 (hd c List.mem_cons_self), if_neg (by decide)]
    have := strtoDigits_eq 10 (c :: l) [] 0
      (fun x hx => ⟨(digitVal_hex (dec_hex (hd x hx))).1, digit_dec (hd x hx)⟩) (.inl rfl)
    rw [List.append_nil] at this
    rw [this]
    rfl

/-- Parsing a hexadecimal literal gives the value of its digits, or the largest integer. -/
theorem parse_hexadecimal (x : UInt8) (r : Bytes) (h : IsHex (48 :: x :: r)) :
    parse (48 :: x :: r) = some (min INT_MAX (value 16 r)) := by
  have hk := (classification_partial _).2.1 h
  unfold parse
  rw [hk]
  obtain ⟨x', r', e, hx, hne, hh⟩ := h
  simp only [List.cons.injEq, true_and] at e
  obtain ⟨rfl, rfl⟩ := e
  simp only
  rw [strtoll_digit_head 48 _ 16 (by decide), if_pos rfl, (hexaPrefix_iff _ _).2 ⟨x, rfl, hx⟩]
  have := strtoDigits_eq 16 r [] 0 (fun x hx => digitVal_hex (hh x hx)) (.inl rfl)
  rw [List.append_nil] at this
  simp only [Option.getD_some, this]
  rfl

/-- Parsing a binary literal gives the value of its digits, or the largest integer. -/
theorem parse_binary (d : Bytes) (m : UInt8) (h : IsBin (d ++ [m])) :
    parse (d ++ [m]) = some (min INT_MAX (value 2 d)) := by
  have hk := (classification_partial _).2.2.1 h
  unfold parse
  rw [hk]
  obtain ⟨d', m', e, hm, hne, hd⟩ := h
  have := List.append_inj' e rfl
  obtain ⟨rfl, e2⟩ := this
  simp only [List.dropLast_concat]
  cases d with
  | nil => exact absurd rfl hne
  | cons c l =>
    have hc := hd c List.mem_cons_self
    rw [strtoll_digit_head c l 2 (by rcases hc with rfl | rfl <;> decide), if_neg (by decide)]
    have := strtoDigits_eq 2 (c :: l) [] 0 (fun x hx => by rcases hd x hx with rfl | rfl <;> decide) (.inl rfl)
    rw [List.append_nil] at this
    rw [this]
    rfl

/-! ### C11 -/

theorem value_append (l : Bytes) (c : UInt8) : value 10 (l ++ [c]) = value 10 l * 10 + digit c := by
  simp [value, valueFrom]

theorem digit_ofNat {k : Nat} (h : k < 10) :
    (48 ≤ UInt8.ofNat (48 + k) ∧ UInt8.ofNat (48 + k) ≤ 57) ∧ digit (UInt8.ofNat (48 + k)) = k := by
  have hn : (UInt8.ofNat (48 + k)).toNat = 48 + k := by
    rw [UInt8.toNat_ofNat']; omega
  have h1 : 48 ≤ UInt8.ofNat (48 + k) ∧ UInt8.ofNat (48 + k) ≤ 57 := by
    simp only [UInt8.le_iff_toNat_le, UInt8.reduceToNat, hn]; omega
  refine ⟨h1, ?_⟩
  unfold digit
  rw [if_pos h1, hn]; omega

/-- The specification text is a decimal numeral of value `n`, without superfluous leading zero. -/
theorem decText_spec (n : Nat) : IsDec (decText n) ∧ value 10 (decText n) = n ∧
    (n ≠ 0 → (decText n).head? ≠ some 48) := by
  induction n using Nat.strongRecOn with
  | _ n ih =>
    rw [decText]
    split
    · rename_i h
      have hd := digit_ofNat h
      refine ⟨⟨by simp, ?_⟩, ?_, ?_⟩
      · intro c hc; simp only [List.mem_singleton] at hc; subst hc; exact hd.1
      · have := hd.2
        simp only [value, valueFrom, List.foldl, Nat.zero_mul, Nat.zero_add]; exact this
      · intro h0 e
        simp only [List.head?_cons, Option.some.injEq] at e
        have := hd.2
        rw [e] at this
        simp [digit] at this
        omega
    · rename_i h
      have hm : n % 10 < 10 := Nat.mod_lt _ (by omega)
      have hd := digit_ofNat hm
      obtain ⟨⟨h1, h2⟩, h3, h4⟩ := ih (n / 10) (by omega)
      refine ⟨⟨by simp, ?_⟩, ?_, ?_⟩
      · intro c hc
        rcases List.mem_append.1 hc with hc | hc
        · exact h2 c hc
        · simp only [List.mem_singleton] at hc; subst hc; exact hd.1
      · rw [value_append, h3, hd.2]; omega
      · intro _
        have := h4 (by omega)
        cases hdt : decText (n / 10) with
        | nil => exact absurd hdt h1
        | cons a t => rw [hdt] at this; simpa using this

/-- The full property C11: printing terminates without undefined behaviour and parsing the text gives the
number back. -/
def RoundTrips : Prop :=
  ∀ n : Int, IsInt n → ∃ t, (∀ fuel, 65 ≤ fuel → toString fuel n [] = some (.ok t)) ∧ parse t = some n

/-- Printing terminates for every integer and every format. -/
theorem toString_terminates (n : Int) (h : IsInt n) (f : Bytes) (fuel : Nat) (hf : 65 ≤ fuel) :
    ∃ r, toString fuel n f = some r := by
  unfold toString
  split
  · exact ⟨_, rfl⟩
  · simp only
    by_cases h0 : n.natAbs ≠ 0
    · obtain ⟨d, hd⟩ := digitLoop_total 63 n.natAbs fuel (by unfold IsInt INT_MIN INT_MAX at *; omega) (by omega)
      rw [if_pos h0, hd]
      exact ⟨_, rfl⟩
    · rw [if_neg h0]
      exact ⟨_, rfl⟩

/-- Printing is exact below 6755399441055749 in absolute value. -/
theorem toString_exact (n : Int) (h : n.natAbs < 6755399441055749) (fuel : Nat) (hf : 65 ≤ fuel) :
    toString fuel n [] = some (.ok (intText n)) := by
  unfold toString intText
  rw [if_neg (by unfold INT_MIN; omega)]
  simp only [List.map_nil, padFormat]
  by_cases h0 : n = 0
  · subst h0
    rw [decText]
    simp [reverse, swapLoop]
  · rw [if_pos (by omega), digitLoop_exact 16 _ fuel (by omega) h (by omega) (by omega)]
    simp [reverse_eq]

theorem toString_padded_gen (n : Int) (h : n.natAbs < 6755399441055749) (k : Nat) (hk : k < 2 ^ 63) (fuel : Nat)
    (hf : 65 ≤ fuel) :
    toString fuel n (100 :: decText k) = some (.ok ((if n < 0 then [45] else []) ++
      List.replicate (toInt32 ((k : Int) - (decText n.natAbs).length)).toNat 48 ++ decText n.natAbs)) ∧
    (decText n.natAbs).length ≤ 16 := by
  have hlen : (decText n.natAbs).length ≤ 16 := by
    have : ∀ j m, m < 10 ^ j → 0 < j → (decText m).length ≤ j := by
      intro j
      induction j with
      | zero => intro m _ h; omega
      | succ j ih =>
        intro m hm _
        rw [decText]
        split
        · simp
        · have := ih (m / 10) (by rw [Nat.pow_succ] at hm; omega) (by
            rcases j with _ | j
            · simp at hm; omega
            · omega)
          simp; omega
    exact this 16 _ (by omega) (by omega)
  refine ⟨?_, hlen⟩
  have base := toString_exact n h fuel hf
  unfold toString at base ⊢
  rw [if_neg (by unfold INT_MIN; omega)] at base ⊢
  simp only [List.map_nil, List.map_cons, Option.map_eq_some_iff, Out.ok.injEq] at base ⊢
  obtain ⟨d, hd, he⟩ := base
  refine ⟨d, hd, ?_⟩
  have hr : reverse d = decText n.natAbs := by
    unfold intText padFormat at he
    by_cases hn : n < 0
    · simpa [hn] using he
    · simpa [hn] using he
  have hlow : (decText k).map lowerChar = decText k := by
    have := (decText_spec k).1.2
    revert this
    generalize decText k = l
    intro h
    induction l with
    | nil => rfl
    | cons c l ih =>
      have hc := h c List.mem_cons_self
      rw [List.map_cons, ih (fun x hx => h x (List.mem_cons_of_mem _ hx))]
      congr 1
      unfold lowerChar
      rw [if_neg]
      simp only [UInt8.le_iff_toNat_le, UInt8.reduceToNat] at *
      omega
  have hl0 : lowerChar 100 = 100 := by decide
  rw [hl0, hlow, hr]
  unfold padFormat
  simp only
  rw [parse_decimal _ (decText_spec k).1, (decText_spec k).2.1]
  have hmin : min INT_MAX (k : Int) = k := by unfold INT_MAX; omega
  simp only [hmin]
  by_cases hn : n < 0 <;> simp [hn]

/-- Zero-padding format `dK` (`K` written in decimal): at least `K` digits, the sign in front. -/
theorem toString_padded (n : Int) (h : n.natAbs < 6755399441055749) (k : Nat) (hk : k < 2 ^ 31) (fuel : Nat)
    (hf : 65 ≤ fuel) :
    toString fuel n (100 :: decText k) = some (.ok ((if n < 0 then [45] else []) ++
      List.replicate (k - (decText n.natAbs).length) 48 ++ decText n.natAbs)) := by
  obtain ⟨h1, h2⟩ := toString_padded_gen n h k (by omega) fuel hf
  have e32 : (toInt32 ((k : Int) - (decText n.natAbs).length)).toNat = k - (decText n.natAbs).length := by
    unfold toInt32; omega
  rw [h1, e32]

/-- Wider formats are not followed: the width is an `int`. From `2^31 + 16` on there is no padding at all, and from
`2^32 + 16` on it is that of a smaller number. -/
theorem toString_padded_wide_violated (n : Int) (h : n.natAbs < 6755399441055749) (fuel : Nat) (hf : 65 ≤ fuel) :
    (∀ k : Nat, 2 ^ 31 + 16 ≤ k → k < 2 ^ 32 → toString fuel n (100 :: decText k) = some (.ok (intText n))) ∧
    ∀ k : Nat, 16 ≤ k → k < 2 ^ 31 →
      toString fuel n (100 :: decText (2 ^ 32 + k)) = toString fuel n (100 :: decText k) := by
  constructor
  · intro k h1 h2
    obtain ⟨h3, h4⟩ := toString_padded_gen n h k (by omega) fuel hf
    have e32 : (toInt32 ((k : Int) - (decText n.natAbs).length)).toNat = 0 := by
      unfold toInt32; omega
    rw [h3, e32]
    unfold intText
    by_cases hn : n < 0 <;> simp [hn]
  · intro k h1 h2
    obtain ⟨h3, h4⟩ := toString_padded_gen n h (2 ^ 32 + k) (by omega) fuel hf
    have e32 : (toInt32 (((2 ^ 32 + k : Nat) : Int) - (decText n.natAbs).length)).toNat = k - (decText n.natAbs).length := by
      unfold toInt32; omega
    rw [h3, e32, toString_padded n h k h2 fuel hf]

/-- **C11** (missing: negative numbers and numbers from 6755399441055749 on, where it fails — see below). -/
theorem integer_roundtrip_partial (n : Int) (h0 : 0 ≤ n) (h : n < 6755399441055749) :
    ∃ t, (∀ fuel, 65 ≤ fuel → toString fuel n [] = some (.ok t)) ∧ parse t = some n := by
  refine ⟨intText n, fun fuel hf => toString_exact n (by omega) fuel hf, ?_⟩
  unfold intText
  rw [if_neg (by omega), parse_decimal _ (decText_spec _).1, (decText_spec _).2.1]
  congr 1
  unfold INT_MAX
  omega

/-- Every text starting with a minus sign is refused, so no negative number round-trips. -/
theorem parse_negative_none (l : Bytes) : parse (45 :: l) = none := by
  have h1 : isInteger (45 :: l) = .invalid := by
    have hb : binaryMark (45 :: l) = false := by simp [binaryMark]; decide
    have hp : hexaPrefix (45 :: l) = none := by cases l <;> simp [hexaPrefix]
    unfold isInteger
    rw [hb, hp]
    simp [List.dropWhile, isDigit, endOrBlank]
  unfold parse
  rw [h1]

theorem roundtrip_negative_violated (n : Int) (_ : IsInt n) (hn : n < 0) :
    ¬ ∃ t, (∀ fuel, 65 ≤ fuel → toString fuel n [] = some (.ok t)) ∧ parse t = some n := by
  rintro ⟨t, h1, h2⟩
  have := h1 65 (by omega)
  unfold toString at this
  split at this
  · cases this
  · simp only [Option.map_eq_some_iff, hn, decide_true, if_true, Out.ok.injEq] at this
    obtain ⟨d, _, e⟩ := this
    rw [← e, parse_negative_none] at h2
    cases h2

/-- The least positive number that is printed wrongly: 6755399441055749 is printed as 6755399441055759. -/
theorem roundtrip_large_violated : ¬ RoundTrips := by
  intro h
  obtain ⟨t, h1, h2⟩ := h 6755399441055749 (by unfold IsInt INT_MIN INT_MAX; omega)
  have e : toString 65 6755399441055749 [] =
      some (.ok [54, 55, 53, 53, 51, 57, 57, 52, 52, 49, 48, 53, 53, 55, 53, 57]) := by decide
  have := h1 65 (by omega)
  rw [e] at this
  simp only [Option.some.injEq, Out.ok.injEq] at this
  subst this
  revert h2; decide

/-- Printing the least integer negates it, which overflows. -/
theorem roundtrip_min_violated (fuel : Nat) : toString fuel INT_MIN [] = some .ub := by
  unfold toString; simp

example : toString 65 (-1203) [68, 54] = some (.ok [45, 48, 48, 49, 50, 48, 51]) := by decide

end Verif.Integer
