import Verif.Base.FloatTextLemmas
/-
C66 (text of a floating point number) and C67 (value of a floating point literal).
-/
namespace Verif.FloatText
open Verif.Str (Bytes lowerChar)
open Verif.Integer
open Verif.Vm (Word)
open Verif.Vm.Ieee

/-! ### Specification -/

/-- `t` is a decimal numeral with optional sign, decimals and exponent; it stands for `± mant * 10 ^ e`. -/
def Decimal (t : Bytes) (neg : Bool) (mant : Nat) (e : Int) : Prop :=
  ∃ (s ip f fp x : Bytes) (k : Int), t = s ++ (ip ++ (f ++ x)) ∧
    ((s = [] ∧ neg = false) ∨ (s = [45] ∧ neg = true)) ∧
    IsDec ip ∧
    ((f = [] ∧ fp = []) ∨ (IsDec fp ∧ f = 46 :: fp)) ∧
    ((x = [] ∧ k = 0) ∨ ∃ m sg d, (m = 101 ∨ m = 69) ∧ IsDec d ∧ x = m :: (sg ++ d) ∧
      (((sg = [] ∨ sg = [43]) ∧ k = value 10 d) ∨ (sg = [45] ∧ k = -(value 10 d : Int)))) ∧
    mant = value 10 (ip ++ fp) ∧ e = k - fp.length

/-- `mant * 10 ^ e = v * 2 ^ -149`. -/
def Exactly (mant : Nat) (e : Int) (v : Nat) : Prop :=
  mant * 10 ^ e.toNat * 2 ^ 149 = v * 10 ^ (-e).toNat

/-- The magnitude `n / d` (in units of `2^-1074`) is nearer to the finite number `a` than to `b`. -/
def Nearer (n d : Nat) (a b : Word) : Prop :=
  (n - mag a * d : Int).natAbs < (n - mag b * d : Int).natAbs

/-! ### Reading -/

theorem not_digit {c : UInt8} (h : c = 46 ∨ c = 101 ∨ c = 69) : isDigit c = false := by
  rcases h with rfl | rfl | rfl <;> decide

theorem head_append {a b : Bytes} {c : UInt8} (h : (a ++ b).head? = some c) :
    a.head? = some c ∨ (a = [] ∧ b.head? = some c) := by
  cases a with
  | nil => exact Or.inr ⟨rfl, h⟩
  | cons x a => exact Or.inl h

/-- What may not follow a numeral: a digit, a point, the letter of an exponent, the `x` of `0x`. -/
def Ends (r : Bytes) : Prop :=
  ∀ c, r.head? = some c → isDigit c = false ∧ c ≠ 46 ∧ lowerChar c ≠ 101 ∧ lowerChar c ≠ 120

theorem ends_nil : Ends [] := fun c h => by cases h

theorem exponent_none {r : Bytes} (hr : Ends r) : exponent 101 r = (0, r) := by
  cases r with
  | nil => rfl
  | cons c r =>
    unfold exponent
    simp only [if_neg (hr c rfl).2.2.1]

theorem exponent_spec {x r : Bytes} {k : Int} (hr : Ends r)
    (h : (x = [] ∧ k = 0) ∨ ∃ m sg d, (m = 101 ∨ m = 69) ∧ IsDec d ∧ x = m :: (sg ++ d) ∧
      (((sg = [] ∨ sg = [43]) ∧ k = value 10 d) ∨ (sg = [45] ∧ k = -(value 10 d : Int)))) :
    exponent 101 (x ++ r) = (k, r) := by
  rcases h with ⟨rfl, rfl⟩ | ⟨m, sg, d, hm, ⟨hne, hd⟩, rfl, hk⟩
  · exact exponent_none hr
  · have hl : lowerChar m = 101 := by rcases hm with rfl | rfl <;> decide
    obtain ⟨c, d', rfl⟩ : ∃ c d', d = c :: d' := by
      cases d with
      | nil => exact absurd rfl hne
      | cons c d' => exact ⟨c, d', rfl⟩
    have hc := hd c (by simp)
    have c45 : c ≠ 45 := by rintro rfl; exact absurd hc.1 (by decide)
    have c43 : c ≠ 43 := by rintro rfl; exact absurd hc.1 (by decide)
    have tw := takeWhile_digits (l := c :: d') (r := r) hd (fun c h => (hr c h).1)
    rw [List.cons_append] at tw
    have sd := strtoDigits_dec hd
    unfold exponent
    simp only [List.cons_append, List.append_assoc, hl, if_true]
    rcases hk with ⟨rfl | rfl, rfl⟩ | ⟨rfl, rfl⟩
    · simp only [List.nil_append, List.head?_cons, Option.some.injEq, c45, c43, or_self, if_false, tw.1, tw.2, sd]
      rfl
    · have n1 : ¬ (some (43 : UInt8) = some 45) := by decide
      simp only [List.cons_append, List.nil_append, List.head?_cons, List.tail_cons, or_true, n1, if_true, if_false,
        tw.1, tw.2, sd]
      rfl
    · simp only [List.cons_append, List.nil_append, List.head?_cons, List.tail_cons, true_or, if_true, tw.1, tw.2, sd]
      rfl

/-- `strtof` reads a decimal numeral up to its end. -/
theorem strtof_rest {t r : Bytes} {neg : Bool} {mant : Nat} {e : Int} (h : Decimal t neg mant e) (hr : Ends r) :
    strtof (t ++ r) = some (neg, scaleRound mant 10 e, r) := by
  obtain ⟨s, ip, f, fp, x, k, rfl, hs, ⟨hne, hip⟩, hf, hx, rfl, rfl⟩ := h
  obtain ⟨c, l, rfl⟩ : ∃ c l, ip = c :: l := by
    cases ip with
    | nil => exact absurd rfl hne
    | cons c l => exact ⟨c, l, rfl⟩
  have hc := hip c (by simp)
  have hfp : ∀ c ∈ fp, 48 ≤ c ∧ c ≤ 57 := by
    rcases hf with ⟨_, rfl⟩ | ⟨h, _⟩
    · intro c hc; cases hc
    · exact h.2
  have xhead : ∀ c, (x ++ r).head? = some c → isDigit c = false ∧ c ≠ 46 ∧ c ≠ 120 ∧ c ≠ 88 := by
    intro d hd
    rcases hx with ⟨rfl, _⟩ | ⟨m, sg, d', hm, _, rfl, _⟩
    · obtain ⟨h1, h2, _, h4⟩ := hr d hd
      refine ⟨h1, h2, ?_, ?_⟩ <;> (rintro rfl; exact h4 (by decide))
    · simp at hd; subst hd
      rcases hm with rfl | rfl <;> decide
  have fxhead : ∀ c, (f ++ (x ++ r)).head? = some c → isDigit c = false ∧ c ≠ 120 ∧ c ≠ 88 := by
    intro d hd
    rcases head_append hd with h1 | ⟨_, h2⟩
    · rcases hf with ⟨rfl, _⟩ | ⟨_, rfl⟩
      · cases h1
      · simp at h1; subst h1; decide
    · obtain ⟨h1, _, h3⟩ := xhead d h2
      exact ⟨h1, h3⟩
  -- the body
  have body : strtofBody (c :: l ++ (f ++ (x ++ r))) = some (scaleRound (value 10 (c :: l ++ fp)) 10 (k - fp.length), r) := by
    have w1 : word [105, 110, 102] (c :: l ++ (f ++ (x ++ r))) = none := by
      unfold word
      rw [if_neg]
      intro e
      have : lowerChar c = 105 := by
        have := congrArg List.head? e
        simpa using this
      rcases (lower_eq (k := 105) (by decide)).1 this with rfl | rfl <;> revert hc <;> decide
    have w2 : word [110, 97, 110] (c :: l ++ (f ++ (x ++ r))) = none := by
      unfold word
      rw [if_neg]
      intro e
      have : lowerChar c = 110 := by
        have := congrArg List.head? e
        simpa using this
      rcases (lower_eq (k := 110) (by decide)).1 this with rfl | rfl <;> revert hc <;> decide
    have w3 : hexaPrefix (c :: l ++ (f ++ (x ++ r))) = none := by
      cases hh : hexaPrefix (c :: l ++ (f ++ (x ++ r))) with
      | none => rfl
      | some q =>
        obtain ⟨y, e, hy⟩ := (hexaPrefix_iff _ _).1 hh
        simp only [List.cons_append, List.cons.injEq] at e
        have hy2 : (l ++ (f ++ (x ++ r))).head? = some y := by rw [e.2]; rfl
        rcases head_append hy2 with h1 | ⟨_, h2⟩
        · have : y ∈ l := by
            cases l with
            | nil => cases h1
            | cons z l => simp at h1; subst h1; simp
          have := hip y (by simp [this])
          exact absurd this (by rcases hy with rfl | rfl <;> decide)
        · obtain ⟨_, h3, h4⟩ := fxhead y h2
          rcases hy with rfl | rfl
          · exact absurd rfl h3
          · exact absurd rfl h4
    unfold strtofBody
    simp only [w1, w2, w3, Option.bind_none]
    unfold strtofDec mantissa
    have tw := takeWhile_digits (l := c :: l) (r := f ++ (x ++ r)) hip fun d hd => (fxhead d hd).1
    simp only [tw.1, tw.2]
    have sd : strtoDigits 10 (c :: l ++ fp) 0 = value 10 (c :: l ++ fp) := by
      apply strtoDigits_dec
      intro d hd
      rcases List.mem_append.1 hd with hd | hd
      · exact hip d hd
      · exact hfp d hd
    rcases hf with ⟨rfl, rfl⟩ | ⟨hd, rfl⟩
    · have : ¬ ([] ++ (x ++ r)).head? = some 46 := fun e => (xhead 46 e).2.1 rfl
      rw [if_neg this]
      simp only [List.nil_append, List.append_nil, List.isEmpty_cons, Bool.false_eq_true, if_false, exponent_spec hr hx]
      rw [List.append_nil] at sd
      rw [sd]
    · have hh : (46 :: fp ++ (x ++ r)).head? = some 46 := rfl
      rw [if_pos hh]
      have tw2 := takeWhile_digits (l := fp) (r := x ++ r) hfp fun d hd => (xhead d hd).1
      simp only [List.cons_append, List.tail_cons, tw2.1, tw2.2, List.isEmpty_cons, Bool.false_eq_true, if_false,
        exponent_spec hr hx]
      rw [List.cons_append] at sd
      rw [sd]
  -- blanks and sign
  have sp : isSpace c = false := by
    unfold isSpace
    have : ¬ c = 32 := by rintro rfl; revert hc; decide
    have h2 : ¬ c ≤ 13 := by
      intro h
      have h1 := hc.1
      rw [UInt8.le_iff_toNat_le] at h h1
      revert h h1
      simp only [UInt8.reduceToNat]
      omega
    simp [this, h2]
  have c45 : c ≠ 45 := by rintro rfl; revert hc; decide
  have c43 : c ≠ 43 := by rintro rfl; revert hc; decide
  unfold strtof
  simp only [List.append_assoc]
  rcases hs with ⟨rfl, rfl⟩ | ⟨rfl, rfl⟩
  · simp only [List.nil_append]
    have d0 : (c :: l ++ (f ++ (x ++ r))).dropWhile isSpace = c :: l ++ (f ++ (x ++ r)) := by
      rw [List.cons_append, List.dropWhile_cons, sp]; rfl
    simp only [d0]
    have hd : (c :: l ++ (f ++ (x ++ r))).head? = some c := rfl
    rw [hd, if_neg (by simp [c45, c43]), body]
    simp [c45]
  · have d0 : ([45] ++ (c :: l ++ (f ++ (x ++ r)))).dropWhile isSpace = 45 :: (c :: l ++ (f ++ (x ++ r))) := rfl
    simp only [d0, List.head?_cons, List.tail_cons, true_or, if_true, body]
    rfl

theorem strtof_decimal {t : Bytes} {neg : Bool} {mant : Nat} {e : Int} (h : Decimal t neg mant e) :
    strtof t = some (neg, scaleRound mant 10 e, []) := by
  have := strtof_rest h ends_nil
  rwa [List.append_nil] at this

/-- A numeral followed by something that does not belong to it is refused. -/
theorem trailing_refused {t r : Bytes} {neg : Bool} {mant : Nat} {e : Int} (h : Decimal t neg mant e) (hr : Ends r)
    (hne : r ≠ []) : parse (t ++ r) = none := by
  unfold parse
  rw [strtof_rest h hr]
  simp only
  split
  · rfl
  · rw [if_pos]
    cases r with
    | nil => exact absurd rfl hne
    | cons c r => simp

/- `f` and a blank may follow `1` in that theorem. -/
example : Ends [102] ∧ Ends [32, 50] := by
  constructor <;> (intro c h; simp at h; subst h; decide)

/-- A decimal numeral whose value is a `float` is read exactly. -/
theorem parse_exact {t : Bytes} {neg : Bool} {mant : Nat} {e : Int} {v : Nat} (h : Decimal t neg mant e) (hv : Fits32 v)
    (hx : Exactly mant e v) : parse t = some (toDouble neg (.fin v false)) := by
  have hr : scaleRound mant 10 e = .fin v false := by
    unfold scaleRound
    unfold Exactly at hx
    split
    · rename_i h0
      have : (-e).toNat = 0 := by omega
      rw [this, Nat.pow_zero] at hx
      exact round32_exact (by omega) hv hx
    · rename_i h0
      have : e.toNat = 0 := by omega
      rw [this, Nat.pow_zero, Nat.mul_one] at hx
      exact round32_exact (Nat.pow_pos (by omega)) hv hx
  unfold parse
  rw [strtof_decimal h, hr]
  have hne : t.isEmpty = false := by
    obtain ⟨s, ip, f, fp, x, k, rfl, hs, ⟨hne, hip⟩, _⟩ := h
    cases ip with
    | nil => exact absurd rfl hne
    | cons c l => cases s <;> rfl
  simp only [refused, Bool.false_and, Bool.false_eq_true, if_false, hne, List.isEmpty_nil, Bool.not_true, Bool.or_self]

/-! ### Printing -/

theorem nearest_half (n d : Nat) (hd : 0 < d) : 2 * (n - nearest n d * d : Int).natAbs ≤ d := by
  have h1 := Nat.div_add_mod n d
  have h2 := Nat.mod_lt n hd
  unfold nearest
  simp only
  generalize n / d = q at *
  generalize n % d = r at *
  have h3 : (n : Int) = d * q + r := by rw [← h1]; simp
  split
  · rename_i h
    have : (n - ((q + 1 : Nat) : Int) * d : Int) = r - d := by
      rw [h3, Int.natCast_add, Int.add_mul, Int.mul_comm (q : Int)]; simp; omega
    rw [this]; omega
  · rename_i h
    have : (n - (q : Int) * d : Int) = r := by
      rw [h3, Int.mul_comm (q : Int)]; omega
    rw [this]; omega

/-- The text of a finite number: optional minus, digits, a point, six digits; its value differs from the number by at
most half a unit of the sixth decimal. -/
theorem toText_value {w : Word} (h : Finite w) : ∃ ip fp,
    toText w = (if neg? w then [45] else []) ++ (ip ++ 46 :: fp) ∧ IsDec ip ∧ (ip = [48] ∨ ip.head? ≠ some 48) ∧
    ip.length ≤ 310 ∧ IsDec fp ∧ fp.length = 6 ∧
    2 * ((mag w * 10 ^ 6 : Int) - value 10 (ip ++ fp) * 2 ^ 1074).natAbs ≤ 2 ^ 1074 := by
  unfold toText
  simp only [h.1, h.2, Bool.false_eq_true, if_false, natText_log]
  generalize hn : nearest (mag w * 10 ^ 6) (2 ^ 1074) = n
  obtain ⟨d1, d2, d3⟩ := decText_spec (n / 10 ^ 6)
  obtain ⟨l1, l2, l3⟩ := lastDigits_spec 6 (n % 10 ^ 6)
  have half := nearest_half (mag w * 10 ^ 6) (2 ^ 1074) (Nat.two_pow_pos _)
  rw [hn] at half
  have hval : value 10 (decText (n / 10 ^ 6) ++ lastDigits 6 (n % 10 ^ 6)) = n := by
    rw [value_join, d2, l1, l3 (Nat.mod_lt _ (by decide)), Nat.mul_comm]
    exact Nat.div_add_mod n (10 ^ 6)
  have hlen : (decText (n / 10 ^ 6)).length ≤ 310 := by
    apply decText_len 310 _ (by omega)
    have hm := (mag_fits h).1
    have hb : n * 2 ^ 1074 ≤ mag w * 10 ^ 6 + 2 ^ 1074 := by
      have : ((mag w * 10 ^ 6 : Nat) - (n : Int) * (2 ^ 1074 : Nat)).natAbs ≤ 2 ^ 1074 := by omega
      have h2 : ((n * 2 ^ 1074 : Nat) : Int) ≤ ((mag w * 10 ^ 6 + 2 ^ 1074 : Nat) : Int) := by
        rw [Int.natCast_mul, Int.natCast_add]; omega
      exact Int.ofNat_le.1 h2
    have hb2 : n * 2 ^ 1074 < (2 ^ 1024 * 10 ^ 6 + 1) * 2 ^ 1074 := by
      have : mag w * 10 ^ 6 < 2 ^ 2098 * 10 ^ 6 := Nat.mul_lt_mul_of_pos_right hm (by decide)
      have e : (2 ^ 1024 * 10 ^ 6 + 1) * 2 ^ 1074 = 2 ^ 2098 * 10 ^ 6 + 2 ^ 1074 := by decide +kernel
      rw [e]; omega
    have hb3 : n < 2 ^ 1024 * 10 ^ 6 + 1 := Nat.lt_of_mul_lt_mul_right hb2
    have hb4 : n / 10 ^ 6 ≤ 2 ^ 1024 := by
      apply Nat.div_le_of_le_mul
      rw [Nat.mul_comm]; omega
    exact Nat.lt_of_le_of_lt hb4 (by decide +kernel)
  refine ⟨_, _, rfl, d1, ?_, hlen, ⟨?_, l2⟩, l1, ?_⟩
  · by_cases h0 : n / 10 ^ 6 = 0
    · left; rw [h0, decText]; rfl
    · exact Or.inr (d3 h0)
  · intro e; rw [e] at l1; cases l1
  · rw [hval]
    have e1 : ((2 ^ 1074 : Nat) : Int) = 2 ^ 1074 := by simp
    have e2 : ((mag w * 10 ^ 6 : Nat) : Int) = mag w * 10 ^ 6 := by simp
    rw [e2, e1] at half
    exact half

/-! ### C66 -/

/-- The full property: parsing the text of a finite number gives the number. -/
def RoundTrip : Prop := ∀ w : Word, Finite w → parse (toText w) = some w

/-- `0.1` comes back as another number. -/
theorem roundtrip_violated : ¬ RoundTrip := by
  intro h
  have := h 0x3FB999999999999A#64 (by constructor <;> decide +kernel)
  revert this
  decide +kernel

/-- `1e-7` comes back as zero. -/
theorem roundtrip_small_violated : parse (toText 0x3E7AD7F29ABCAF48#64) = some (0 : Word) := by decide +kernel

/-- `1e39` is not read at all. -/
theorem roundtrip_large_violated : parse (toText 0x48078287F49C4A1D#64) = none := by decide +kernel

theorem cancel {n v A B C : Nat} (hB : 0 < B) (h : v * B * C = A * B * n) : n * A = v * C := by
  apply Nat.eq_of_mul_eq_mul_right hB
  rw [Nat.mul_assoc, Nat.mul_comm n, ← h, Nat.mul_assoc, Nat.mul_comm B, ← Nat.mul_assoc]

/-- A number that is a `float` and has no more than six decimals comes back. -/
theorem roundtrip_partial {w : Word} (h : Finite w) {v : Nat} (hv : Fits32 v) (hm : mag w = v * 2 ^ 925)
    (h6 : 2 ^ 1074 ∣ mag w * 10 ^ 6) : parse (toText w) = some w := by
  obtain ⟨n, hn⟩ := h6
  have hne : nearest (mag w * 10 ^ 6) (2 ^ 1074) = n := by
    rw [hn, Nat.mul_comm]; exact nearest_exact (Nat.two_pow_pos _)
  obtain ⟨d1, d2, _⟩ := decText_spec (n / 10 ^ 6)
  obtain ⟨l1, l2, l3⟩ := lastDigits_spec 6 (n % 10 ^ 6)
  have hval : value 10 (decText (n / 10 ^ 6) ++ lastDigits 6 (n % 10 ^ 6)) = n := by
    rw [value_join, d2, l1, l3 (Nat.mod_lt _ (by decide)), Nat.mul_comm]
    exact Nat.div_add_mod n (10 ^ 6)
  have ht : toText w = (if neg? w then [45] else []) ++ (decText (n / 10 ^ 6) ++ 46 :: lastDigits 6 (n % 10 ^ 6)) := by
    unfold toText
    simp only [h.1, h.2, Bool.false_eq_true, if_false, natText_log, hne]
  have hd : Decimal (toText w) (neg? w) n (-6) := by
    refine ⟨if neg? w then [45] else [], decText (n / 10 ^ 6), 46 :: lastDigits 6 (n % 10 ^ 6), lastDigits 6 (n % 10 ^ 6),
      [], 0, by rw [ht, List.append_nil], ?_, d1, Or.inr ⟨⟨?_, l2⟩, rfl⟩, Or.inl ⟨rfl, rfl⟩, hval.symm, by rw [l1]; rfl⟩
    · cases neg? w
      · exact Or.inl ⟨rfl, rfl⟩
      · exact Or.inr ⟨rfl, rfl⟩
    · intro e; rw [e] at l1; cases l1
  have hx : Exactly n (-6) v := by
    unfold Exactly
    have := cancel (A := 2 ^ 149) (B := 2 ^ 925) (C := 10 ^ 6) (n := n) (v := v) (Nat.two_pow_pos _)
      (by rw [← hm, hn, ← Nat.pow_add])
    have e0 : (-6 : Int).toNat = 0 := rfl
    have e6 : (-(-6) : Int).toNat = 6 := rfl
    simp only [e0, e6, Nat.pow_zero, Nat.mul_one]
    exact this
  rw [parse_exact hd hv hx]
  obtain ⟨f1, f2, f3⟩ := toDouble_exact hv (neg? w) false
  rw [finite_ext f1 h f2 (by rw [f3, hm])]

/-- In particular every integer up to `2^24`. -/
theorem roundtrip_integers_partial (i : Int) (h : i.natAbs ≤ 2 ^ 24) : parse (toText (ofInt i)) = some (ofInt i) := by
  have fits : Fits (i.natAbs * 2 ^ 1074) := by
    refine ⟨?_, i.natAbs, 1074, rfl, by omega⟩
    calc i.natAbs * 2 ^ 1074 ≤ 2 ^ 24 * 2 ^ 1074 := Nat.mul_le_mul_right _ h
      _ = 2 ^ 1098 := by rw [← Nat.pow_add]
      _ < 2 ^ 2098 := Nat.pow_lt_pow_right (by omega) (by omega)
  obtain ⟨b1, b2⟩ := roundBits_fits fits
  have hm : mag (ofInt i) = i.natAbs * 2 ^ 1074 := b2 _
  have f32 : Fits32 (i.natAbs * 2 ^ 149) := by
    refine ⟨?_, ?_⟩
    · calc i.natAbs * 2 ^ 149 ≤ 2 ^ 24 * 2 ^ 149 := Nat.mul_le_mul_right _ h
        _ = 2 ^ 173 := by rw [← Nat.pow_add]
        _ < 2 ^ 277 := Nat.pow_lt_pow_right (by omega) (by omega)
    · by_cases h24 : i.natAbs = 2 ^ 24
      · exact ⟨1, 24 + 149, by rw [h24, Nat.one_mul, Nat.pow_add], by decide⟩
      · exact ⟨i.natAbs, 149, rfl, by omega⟩
  refine roundtrip_partial (not_special b1) f32 ?_ ?_
  · rw [hm, Nat.mul_assoc, ← Nat.pow_add]
  · rw [hm, Nat.mul_assoc, Nat.mul_comm (2 ^ 1074), ← Nat.mul_assoc]
    exact Nat.dvd_mul_left _ _

/- `-2.75` meets the hypotheses of `roundtrip_partial`; `toText` of it is `-2.750000`. -/
example : parse (toText 0xC006000000000000#64) = some 0xC006000000000000#64 :=
  roundtrip_partial (v := 11 * 2 ^ 147) ⟨by decide +kernel, by decide +kernel⟩
    ⟨by decide +kernel, 11, 147, rfl, by decide⟩ (by decide +kernel) (by decide +kernel)
example : toText 0xC006000000000000#64 = [45, 50, 46, 55, 53, 48, 48, 48, 48] := by decide +kernel
example : Finite 0xC006000000000000#64 := ⟨by decide +kernel, by decide +kernel⟩

/-! ### C67 -/

/-- The full property: a decimal literal stands for the nearest number, if its value is within the range of `zs_float`
(here: up to `2^1023`, more than `8 * 10^307`). -/
def LiteralNearest : Prop :=
  ∀ (t : Bytes) (mant : Nat) (e : Int), Decimal t false mant e → mant * 10 ^ e.toNat ≤ 2 ^ 1023 * 10 ^ (-e).toNat →
    ∃ w, parse t = some w ∧ Finite w ∧ neg? w = false ∧
      ∀ w', Finite w' → ¬ Nearer (mant * 10 ^ e.toNat * 2 ^ 1074) (10 ^ (-e).toNat) w' w

/-- `0.1` stands for `0.10000000149`, although `0.1000000000000000055` is a number. -/
theorem literal_nearest_violated : ¬ LiteralNearest := by
  intro h
  have hd : Decimal [48, 46, 49] false 1 (-1) :=
    ⟨[], [48], [46, 49], [49], [], 0, rfl, Or.inl ⟨rfl, rfl⟩, ⟨by simp, by decide⟩, Or.inr ⟨⟨by simp, by decide⟩, rfl⟩,
      Or.inl ⟨rfl, rfl⟩, by decide, rfl⟩
  obtain ⟨w, hw, _, _, hn⟩ := h _ _ _ hd (by decide +kernel)
  have e : parse [48, 46, 49] = some 0x3FB99999A0000000#64 := by decide +kernel
  rw [e] at hw
  injection hw with hw
  subst hw
  refine hn 0x3FB999999999999A#64 ⟨by decide +kernel, by decide +kernel⟩ ?_
  unfold Nearer
  decide +kernel

/-- A literal of `1e39`, which is well within the range, is refused. -/
theorem literal_range_violated : parse [49, 101, 51, 57] = none := by decide +kernel

/-- A literal whose value is a `float` stands for exactly that value. -/
theorem literal_exact_partial {t : Bytes} {neg : Bool} {mant : Nat} {e : Int} {v : Nat} (h : Decimal t neg mant e)
    (hv : Fits32 v) (hx : Exactly mant e v) :
    ∃ w, parse t = some w ∧ Finite w ∧ neg? w = neg ∧ mant * 10 ^ e.toNat * 2 ^ 1074 = mag w * 10 ^ (-e).toNat := by
  obtain ⟨h1, h2, h3⟩ := toDouble_exact hv neg false
  refine ⟨_, parse_exact h hv hx, h1, h2, ?_⟩
  rw [h3]
  unfold Exactly at hx
  rw [show (2 : Nat) ^ 1074 = 2 ^ 149 * 2 ^ 925 by rw [← Nat.pow_add], ← Nat.mul_assoc, hx]
  rw [Nat.mul_assoc, Nat.mul_comm (10 ^ _), ← Nat.mul_assoc]

theorem nearest_le {n d m : Nat} (hd : 0 < d) (h : n < m * d) : nearest n d ≤ m := by
  have : n / d < m := (Nat.div_lt_iff_lt_mul hd).2 h
  unfold nearest
  simp only
  split <;> omega

theorem round32_fits {n d v : Nat} {e : Bool} (hd : 0 < d) (h : round32 n d = .fin v e) : Fits32 v := by
  unfold round32 at h
  simp only at h
  split at h
  · cases h
  · rename_i hlt
    generalize hx : n * 2 ^ 149 = x at *
    generalize hs : (x / d).log2 - 23 = s at *
    have hq : nearest x (d * 2 ^ s) ≤ 2 ^ 24 := by
      apply nearest_le (Nat.mul_pos hd (Nat.two_pow_pos _))
      have h1 : x / d < 2 ^ ((x / d).log2 + 1) := Nat.lt_log2_self
      have h2 : 2 ^ ((x / d).log2 + 1) ≤ 2 ^ (24 + s) := Nat.pow_le_pow_right (by omega) (by omega)
      have h3 : x < 2 ^ (24 + s) * d := (Nat.div_lt_iff_lt_mul hd).1 (Nat.lt_of_lt_of_le h1 h2)
      rw [Nat.pow_add, Nat.mul_assoc, Nat.mul_comm (2 ^ s)] at h3
      exact h3
    injection h with hv _
    subst hv
    refine ⟨by omega, ?_⟩
    by_cases h24 : nearest x (d * 2 ^ s) = 2 ^ 24
    · exact ⟨1, 24 + s, by rw [h24, Nat.one_mul, Nat.pow_add], by decide⟩
    · exact ⟨_, s, rfl, by omega⟩

theorem scaleRound_fits {mant : Nat} {e : Int} {v : Nat} {b : Bool} (h : scaleRound mant 10 e = .fin v b) : Fits32 v := by
  unfold scaleRound at h
  split at h
  · exact round32_fits (by omega) h
  · exact round32_fits (Nat.pow_pos (by omega)) h

theorem scaleRound_kind (mant : Nat) (e : Int) : (∃ v b, scaleRound mant 10 e = .fin v b) ∨ scaleRound mant 10 e = .inf true := by
  unfold scaleRound
  split <;> (unfold round32; simp only; split)
  · exact Or.inr rfl
  · exact Or.inl ⟨_, _, rfl⟩
  · exact Or.inr rfl
  · exact Or.inl ⟨_, _, rfl⟩

/-- No decimal literal stands for an infinity or a NaN, and the sign is that of the literal. -/
theorem literal_finite {t : Bytes} {neg : Bool} {mant : Nat} {e : Int} {w : Word} (h : Decimal t neg mant e)
    (hp : parse t = some w) : Finite w ∧ neg? w = neg := by
  unfold parse at hp
  rw [strtof_decimal h] at hp
  simp only at hp
  rcases scaleRound_kind mant e with ⟨v, b, hv⟩ | hv
  · rw [hv] at hp
    split at hp
    · cases hp
    · split at hp
      · cases hp
      · injection hp with hp
        subst hp
        obtain ⟨h1, h2, _⟩ := toDouble_exact (scaleRound_fits hv) neg b
        exact ⟨h1, h2⟩
  · rw [hv] at hp
    simp [refused] at hp

/- `-1e39` has the form and is refused as well; `-1.5` is read. -/
example : parse [45, 49, 101, 51, 57] = none := by decide +kernel
example : ∃ w, parse [45, 49, 46, 53] = some w ∧ neg? w = true := ⟨0xBFF8000000000000#64, by decide +kernel, by decide +kernel⟩

/- `2.75e1` meets the hypotheses. -/
example : Decimal [50, 46, 55, 53, 101, 49] false 275 (-1) ∧ Fits32 (55 * 2 ^ 148) ∧ Exactly 275 (-1) (55 * 2 ^ 148) :=
  ⟨⟨[], [50], [46, 55, 53], [55, 53], [101, 49], 1, rfl, Or.inl ⟨rfl, rfl⟩, ⟨by simp, by decide⟩,
    Or.inr ⟨⟨by simp, by decide⟩, rfl⟩,
    Or.inr ⟨101, [], [49], Or.inl rfl, ⟨by simp, by decide⟩, rfl, Or.inl ⟨Or.inl rfl, by decide⟩⟩, by decide, rfl⟩,
    ⟨by decide +kernel, 55, 148, rfl, by decide⟩, by unfold Exactly; decide +kernel⟩

section sanity
/- "0.1", "-2.5e1", "16777217", "1e40" (refused), "0x10", "1.5x" (refused), "1e-50" (refused), "nan" -/
example : parse [48, 46, 49] = some 0x3FB99999A0000000#64 := by decide +kernel
example : parse [45, 50, 46, 53, 101, 49] = some (ofInt (-25)) := by decide +kernel
example : parse [49, 54, 55, 55, 55, 50, 49, 55] = some (ofInt 16777216) := by decide +kernel
example : parse [49, 101, 52, 48] = none := by decide +kernel
example : parse [48, 120, 49, 48] = some (ofInt 16) := by decide +kernel
example : parse [49, 46, 53, 120] = none := by decide +kernel
example : parse [49, 101, 45, 53, 48] = none := by decide +kernel
example : parse [110, 97, 110] = some nan := by decide +kernel
example : toText 0x3FB999999999999A#64 = [48, 46, 49, 48, 48, 48, 48, 48] := by decide +kernel
example : toText (ofInt (-25)) = [45, 50, 53, 46, 48, 48, 48, 48, 48, 48] := by decide +kernel
end sanity

end Verif.FloatText
