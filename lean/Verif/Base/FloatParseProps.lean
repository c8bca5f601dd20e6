import Verif.Base.FloatTextProps
/-
C67, the rest of `Float::parse`: blanks, hexadecimal numerals, the words for infinity and for no number.
-/
namespace Verif.FloatText
open Verif.Str (Bytes lowerChar)
open Verif.Integer
open Verif.Vm (Word)
open Verif.Vm.Ieee

/-! ### Specification -/

/-- A blank: space, tab, line feed, vertical tab, form feed, carriage return. -/
def Blank (c : UInt8) : Prop := c = 32 ∨ c = 9 ∨ c = 10 ∨ c = 11 ∨ c = 12 ∨ c = 13

/-- `t` is a hexadecimal numeral `0x…` with optional sign, digits behind a point and a binary exponent; it stands for
`± mant * 2 ^ e`. -/
def Hexadecimal (t : Bytes) (neg : Bool) (mant : Nat) (e : Int) : Prop :=
  ∃ (s z ip f fp x : Bytes) (k : Int), t = s ++ (z ++ (ip ++ (f ++ x))) ∧
    ((s = [] ∧ neg = false) ∨ (s = [43] ∧ neg = false) ∨ (s = [45] ∧ neg = true)) ∧
    (z = [48, 120] ∨ z = [48, 88]) ∧
    (ip ≠ [] ∧ ∀ c ∈ ip, IsHexDigit c) ∧
    ((f = [] ∧ fp = []) ∨ (f = 46 :: fp ∧ ∀ c ∈ fp, IsHexDigit c)) ∧
    ((x = [] ∧ k = 0) ∨ ∃ m sg d, (m = 112 ∨ m = 80) ∧ IsDec d ∧ x = m :: (sg ++ d) ∧
      (((sg = [] ∨ sg = [43]) ∧ k = value 10 d) ∨ (sg = [45] ∧ k = -(value 10 d : Int)))) ∧
    mant = value 16 (ip ++ fp) ∧ e = k - 4 * fp.length

/-- `mant * 2 ^ e = v * 2 ^ -149`. -/
def ExactlyTwo (mant : Nat) (e : Int) (v : Nat) : Prop :=
  mant * 2 ^ e.toNat * 2 ^ 149 = v * 2 ^ (-e).toNat

/-- The letters of the word, each small or capital. -/
def Spells (t w : Bytes) : Prop := t.length = w.length ∧ ∀ (i : Nat) (c d : UInt8), t[i]? = some c → w[i]? = some d → c = d ∨ c + 32 = d

/-! ### Lemmas -/

theorem isSpace_iff (c : UInt8) : isSpace c = true ↔ Blank c := by
  unfold isSpace Blank
  simp only [Bool.or_eq_true, beq_iff_eq, Bool.and_eq_true, decide_eq_true_eq, UInt8.le_iff_toNat_le, ← UInt8.toNat_inj,
    UInt8.reduceToNat]
  omega

theorem exponent_bin {x : Bytes} {k : Int}
    (h : (x = [] ∧ k = 0) ∨ ∃ m sg d, (m = 112 ∨ m = 80) ∧ IsDec d ∧ x = m :: (sg ++ d) ∧
      (((sg = [] ∨ sg = [43]) ∧ k = value 10 d) ∨ (sg = [45] ∧ k = -(value 10 d : Int)))) :
    exponent 112 x = (k, []) := by
  rcases h with ⟨rfl, rfl⟩ | ⟨m, sg, d, hm, ⟨hne, hd⟩, rfl, hk⟩
  · rfl
  · have hl : lowerChar m = 112 := by rcases hm with rfl | rfl <;> decide
    obtain ⟨c, d', rfl⟩ : ∃ c d', d = c :: d' := by
      cases d with
      | nil => exact absurd rfl hne
      | cons c d' => exact ⟨c, d', rfl⟩
    have hc := hd c (by simp)
    have c45 : c ≠ 45 := by rintro rfl; exact absurd hc.1 (by decide)
    have c43 : c ≠ 43 := by rintro rfl; exact absurd hc.1 (by decide)
    have tw := takeWhile_digits (l := c :: d') (r := []) hd (fun c h => by cases h)
    rw [List.append_nil] at tw
    have sd := strtoDigits_dec hd
    unfold exponent
    simp only [hl, if_true]
    rcases hk with ⟨rfl | rfl, rfl⟩ | ⟨rfl, rfl⟩
    · simp only [List.nil_append, List.head?_cons, Option.some.injEq, c45, c43, or_self, if_false, tw.1, tw.2, sd]
      rfl
    · have n1 : ¬ (some (43 : UInt8) = some 45) := by decide
      simp only [List.cons_append, List.nil_append, List.head?_cons, List.tail_cons, or_true, n1, if_true, if_false,
        tw.1, tw.2, sd]
      rfl
    · simp only [List.cons_append, List.nil_append, List.head?_cons, List.tail_cons, true_or, if_true, tw.1, tw.2, sd]
      rfl

theorem takeWhile_hex {l r : Bytes} (h : ∀ c ∈ l, IsHexDigit c) (hr : ∀ c, r.head? = some c → isHexaDigit c = false) :
    (l ++ r).takeWhile isHexaDigit = l ∧ (l ++ r).dropWhile isHexaDigit = r := by
  induction l with
  | nil =>
    cases r with
    | nil => exact ⟨rfl, rfl⟩
    | cons c r =>
      have := hr c rfl
      simp [this]
  | cons c l ih =>
    obtain ⟨h1, h2⟩ := ih fun x hx => h x (List.mem_cons_of_mem _ hx)
    have hc := (isHexaDigit_iff c).2 (h c (by simp))
    simp only [List.cons_append, List.takeWhile_cons, List.dropWhile_cons, hc, if_true, h1, h2, and_self]

theorem strtoDigits_hex {l : Bytes} (h : ∀ c ∈ l, IsHexDigit c) : strtoDigits 16 l 0 = value 16 l := by
  have := strtoDigits_eq 16 l [] 0 (fun x hx => digitVal_hex (h x hx)) (.inl rfl)
  rwa [List.append_nil] at this

theorem strtof_hexadecimal {t : Bytes} {neg : Bool} {mant : Nat} {e : Int} (h : Hexadecimal t neg mant e) :
    strtof t = some (neg, scaleRound mant 2 e, []) := by
  obtain ⟨s, z, ip, f, fp, x, k, rfl, hs, hz, ⟨hne, hip⟩, hf, hx, rfl, rfl⟩ := h
  have hfp : ∀ c ∈ fp, IsHexDigit c := by
    rcases hf with ⟨_, rfl⟩ | ⟨_, h⟩
    · intro c hc; cases hc
    · exact h
  have xhead : ∀ c, x.head? = some c → isHexaDigit c = false ∧ c ≠ 46 := by
    intro d hd
    rcases hx with ⟨rfl, _⟩ | ⟨m, sg, d', hm, _, rfl, _⟩
    · cases hd
    · simp at hd; subst hd
      rcases hm with rfl | rfl <;> decide
  have fxhead : ∀ c, (f ++ x).head? = some c → isHexaDigit c = false := by
    intro d hd
    rcases head_append hd with h1 | ⟨_, h2⟩
    · rcases hf with ⟨rfl, _⟩ | ⟨rfl, _⟩
      · cases h1
      · simp at h1; subst h1; decide
    · exact (xhead d h2).1
  have body : strtofHex (ip ++ (f ++ x)) = some (scaleRound (value 16 (ip ++ fp)) 2 (k - 4 * fp.length), []) := by
    unfold strtofHex mantissa
    have tw := takeWhile_hex (l := ip) (r := f ++ x) hip fxhead
    simp only [tw.1, tw.2]
    have sd : strtoDigits 16 (ip ++ fp) 0 = value 16 (ip ++ fp) := by
      apply strtoDigits_hex
      intro d hd
      rcases List.mem_append.1 hd with hd | hd
      · exact hip d hd
      · exact hfp d hd
    have he : (ip ++ fp).isEmpty = false := by
      cases ip with
      | nil => exact absurd rfl hne
      | cons c l => rfl
    rcases hf with ⟨rfl, rfl⟩ | ⟨rfl, hd⟩
    · have : ¬ ([] ++ x).head? = some 46 := fun e => (xhead 46 e).2 rfl
      rw [if_neg this]
      simp only [List.nil_append, he, Bool.false_eq_true, if_false, exponent_bin hx, sd]
    · have hh : (46 :: fp ++ x).head? = some 46 := rfl
      rw [if_pos hh]
      have tw2 := takeWhile_hex (l := fp) (r := x) hfp fun d hd => (xhead d hd).1
      simp only [List.cons_append, List.tail_cons, tw2.1, tw2.2, he, Bool.false_eq_true, if_false, exponent_bin hx, sd]
  have body2 : strtofBody (z ++ (ip ++ (f ++ x))) =
      some (scaleRound (value 16 (ip ++ fp)) 2 (k - 4 * fp.length), []) := by
    unfold strtofBody
    have w1 : ∀ (a b c : UInt8), a ≠ 48 → word [a, b, c] (z ++ (ip ++ (f ++ x))) = none := by
      intro a b c ha
      unfold word
      rw [if_neg]
      intro e
      have := congrArg List.head? e
      have l48 : lowerChar 48 = 48 := by decide
      rcases hz with rfl | rfl <;> simp [l48] at this <;> exact ha this.symm
    rw [w1 _ _ _ (by decide), w1 _ _ _ (by decide)]
    have hp : hexaPrefix (z ++ (ip ++ (f ++ x))) = some (ip ++ (f ++ x)) := by
      rw [hexaPrefix_iff]
      rcases hz with rfl | rfl
      · exact ⟨120, rfl, Or.inl rfl⟩
      · exact ⟨88, rfl, Or.inr rfl⟩
    simp only [hp, Option.bind_some, body]
  unfold strtof
  rcases hs with ⟨rfl, rfl⟩ | ⟨rfl, rfl⟩ | ⟨rfl, rfl⟩
  · have d0 : ([] ++ (z ++ (ip ++ (f ++ x)))).dropWhile isSpace = z ++ (ip ++ (f ++ x)) ∧
        (z ++ (ip ++ (f ++ x))).head? = some 48 := by rcases hz with rfl | rfl <;> exact ⟨rfl, rfl⟩
    simp only [d0.1, d0.2]
    rw [if_neg (by decide), body2]
    rfl
  · have d0 : ([43] ++ (z ++ (ip ++ (f ++ x)))).dropWhile isSpace = 43 :: (z ++ (ip ++ (f ++ x))) := rfl
    simp only [d0, List.head?_cons, List.tail_cons, or_true, if_true, body2]
    rfl
  · have d0 : ([45] ++ (z ++ (ip ++ (f ++ x)))).dropWhile isSpace = 45 :: (z ++ (ip ++ (f ++ x))) := rfl
    simp only [d0, List.head?_cons, List.tail_cons, true_or, if_true, body2]
    rfl

theorem lower_spells {c d : UInt8} (hd : 97 ≤ d ∧ d ≤ 122) (h : c = d ∨ c + 32 = d) : lowerChar c = d := by
  apply (lower_eq hd).2
  rcases h with h | h
  · exact Or.inl h
  · right; rw [← h]; simp

theorem spells_map : ∀ (t w : Bytes), (∀ d ∈ w, 97 ≤ d ∧ d ≤ 122) → Spells t w → t.map lowerChar = w
  | [], [], _, _ => rfl
  | [], _ :: _, _, h => by simp [Spells] at h
  | _ :: _, [], _, h => by simp [Spells] at h
  | c :: t, d :: w, hw, h => by
    rw [List.map_cons, spells_map t w (fun x hx => hw x (by simp [hx])) ⟨by simpa using h.1, fun i a b h1 h2 =>
      h.2 (i + 1) a b (by simpa using h1) (by simpa using h2)⟩]
    rw [lower_spells (hw d (by simp)) (h.2 0 c d rfl rfl)]

theorem word_hit {w s r : Bytes} (h : s.map lowerChar = w ++ r) : word w s = some (s.drop w.length) := by
  unfold word
  rw [if_pos]
  rw [List.map_take, h, List.take_left' rfl]

/-! ### C67 -/

/-- Blanks in front do not matter. -/
theorem parse_blanks (b t : Bytes) (hb : ∀ c ∈ b, Blank c) : parse (b ++ t) = parse t := by
  have hd : (b ++ t).dropWhile isSpace = t.dropWhile isSpace := by
    induction b with
    | nil => rfl
    | cons c b ih =>
      rw [List.cons_append, List.dropWhile_cons, (isSpace_iff c).2 (hb c (by simp)), if_pos rfl]
      exact ih fun x hx => hb x (by simp [hx])
  have hs : strtof (b ++ t) = strtof t := by unfold strtof; rw [hd]
  cases t with
  | nil =>
    have h0 : strtof ([] : Bytes) = none := by decide
    unfold parse
    rw [hs, h0]
  | cons c t =>
    unfold parse
    rw [hs]
    have h1 : (b ++ c :: t).isEmpty = false := by cases b <;> rfl
    rw [h1]
    rfl

/-- A hexadecimal numeral whose value is a `float` is read exactly. -/
theorem parse_hexadecimal_exact {t : Bytes} {neg : Bool} {mant : Nat} {e : Int} {v : Nat} (h : Hexadecimal t neg mant e)
    (hv : Fits32 v) (hx : ExactlyTwo mant e v) : parse t = some (toDouble neg (.fin v false)) := by
  have hr : scaleRound mant 2 e = .fin v false := by
    unfold scaleRound
    unfold ExactlyTwo at hx
    split
    · rename_i h0
      have : (-e).toNat = 0 := by omega
      rw [this, Nat.pow_zero] at hx
      exact round32_exact (by omega) hv hx
    · rename_i h0
      have : e.toNat = 0 := by omega
      rw [this, Nat.pow_zero, Nat.mul_one] at hx
      exact round32_exact (Nat.pow_pos (by omega)) hv hx
  have hne : t.isEmpty = false := by
    obtain ⟨s, z, ip, f, fp, x, k, rfl, hs, hz, _⟩ := h
    rcases hz with rfl | rfl <;> cases s <;> rfl
  unfold parse
  rw [strtof_hexadecimal h, hr]
  simp only [refused, Bool.false_and, Bool.false_eq_true, if_false, hne, List.isEmpty_nil, Bool.not_true, Bool.or_self]

/- `-0x1.8p1` is -3. -/
example : Hexadecimal [45, 48, 120, 49, 46, 56, 112, 49] true 24 (-3) :=
  ⟨[45], [48, 120], [49], [46, 56], [56], [112, 49], 1, rfl, .inr (.inr ⟨rfl, rfl⟩), .inl rfl,
    ⟨by simp, by intro c; simp; rintro rfl; exact .inl (by decide)⟩,
    .inr ⟨rfl, by intro c; simp; rintro rfl; exact .inl (by decide)⟩,
    .inr ⟨112, [], [49], .inl rfl, ⟨by simp, by intro c; simp; rintro rfl; decide⟩, rfl, .inl ⟨.inl rfl, by decide⟩⟩,
    by decide, by decide⟩

/-- The words `inf` and `infinity`, small or capital: minus infinity is read, plus infinity is refused. -/
theorem parse_infinity (t : Bytes)
    (h : Spells t [105, 110, 102] ∨ Spells t [105, 110, 102, 105, 110, 105, 116, 121]) :
    parse (45 :: t) = some (mk true infBits) ∧ parse t = none ∧ parse (43 :: t) = none := by
  have hb : strtofBody t = some (.inf false, []) := by
    rcases h with h | h
    · have hm := spells_map _ _ (by decide) h
      have hl : t.length = 3 := h.1
      unfold strtofBody
      rw [word_hit (r := []) (by rw [hm]; rfl)]
      have : t.drop ([105, 110, 102] : Bytes).length = [] := List.drop_eq_nil_of_le (by rw [hl]; simp)
      simp only [this]
      rfl
    · have hm := spells_map _ _ (by decide) h
      have hl : t.length = 8 := h.1
      unfold strtofBody
      rw [word_hit (w := [105, 110, 102]) (r := [105, 110, 105, 116, 121]) (by rw [hm]; rfl)]
      simp only
      have hm2 : (t.drop ([105, 110, 102] : Bytes).length).map lowerChar = [105, 110, 105, 116, 121] ++ [] := by
        rw [List.map_drop, hm]; rfl
      rw [word_hit hm2]
      have : (t.drop ([105, 110, 102] : Bytes).length).drop ([105, 110, 105, 116, 121] : Bytes).length = [] :=
        List.drop_eq_nil_of_le (by rw [List.length_drop, hl]; simp)
      rw [this]; rfl
  have hc : ∃ c r, t = c :: r ∧ (c = 105 ∨ c = 73) := by
    rcases h with h | h
    all_goals
      cases t with
      | nil => simp [Spells] at h
      | cons c r =>
        refine ⟨c, r, rfl, ?_⟩
        rcases h.2 0 c 105 rfl rfl with e | e
        · exact .inl e
        · right
          have := congrArg (· - 32) e
          simpa using this
  obtain ⟨c, r, rfl, hc⟩ := hc
  have n1 : isSpace c = false ∧ c ≠ 45 ∧ c ≠ 43 := by rcases hc with rfl | rfl <;> decide
  refine ⟨?_, ?_, ?_⟩
  · have hs : strtof (45 :: c :: r) = some (true, .inf false, []) := by
      have d0 : (45 :: c :: r).dropWhile isSpace = 45 :: c :: r := rfl
      unfold strtof
      simp only [d0, List.head?_cons, List.tail_cons, true_or, if_true, hb]
      rfl
    unfold parse
    rw [hs]; rfl
  · have hs : strtof (c :: r) = some (false, .inf false, []) := by
      unfold strtof
      simp only [List.dropWhile_cons, n1.1, Bool.false_eq_true, if_false, List.head?_cons, Option.some.injEq, n1.2.1, n1.2.2,
        or_self, hb]
      rfl
    unfold parse
    rw [hs]; rfl
  · have hs : strtof (43 :: c :: r) = some (false, .inf false, []) := by
      have d0 : (43 :: c :: r).dropWhile isSpace = 43 :: c :: r := rfl
      unfold strtof
      simp only [d0, List.head?_cons, List.tail_cons, or_true, if_true, hb]
      rfl
    unfold parse
    rw [hs]; rfl

/-- The word `nan`, also with letters, digits and `_` in parentheses: no number, for which there is one value. -/
theorem parse_nan (t l : Bytes) (h : Spells t [110, 97, 110])
    (hl : ∀ c ∈ l, (48 ≤ c ∧ c ≤ 57) ∨ (97 ≤ c ∧ c ≤ 122) ∨ (65 ≤ c ∧ c ≤ 90) ∨ c = 95) :
    parse t = some nan ∧ parse (t ++ 40 :: (l ++ [41])) = some nan := by
  have hm := spells_map _ _ (by decide) h
  have hln : t.length = 3 := h.1
  have hw : ∀ c ∈ l, wordChar c = true := by
    intro c hc
    have := hl c hc
    unfold wordChar isDigit lowerChar
    simp only [UInt8.le_iff_toNat_le, ← UInt8.toNat_inj, UInt8.reduceToNat] at this
    rcases this with h | h | h | h
    · simp [UInt8.le_iff_toNat_le, h]
    · have h1 : ¬ ((65 : UInt8) ≤ c ∧ c ≤ 90) := by rw [UInt8.le_iff_toNat_le, UInt8.le_iff_toNat_le]; simp only [UInt8.reduceToNat]; omega
      rw [if_neg h1]
      simp [UInt8.le_iff_toNat_le, h]
    · have h1 : ((65 : UInt8) ≤ c ∧ c ≤ 90) := by rw [UInt8.le_iff_toNat_le, UInt8.le_iff_toNat_le]; simp only [UInt8.reduceToNat]; omega
      rw [if_pos h1]
      have h3 : (c - 65).toNat = c.toNat - 65 := by
        rw [UInt8.toNat_sub_of_le _ _ h1.1]; rfl
      simp only [UInt8.le_iff_toNat_le, UInt8.reduceToNat, Bool.or_eq_true, Bool.and_eq_true, decide_eq_true_eq,
        UInt8.toNat_add, h3]
      omega
    · have : c = 95 := by rw [← UInt8.toNat_inj]; simpa using h
      subst this; decide
  have hdrop : ∀ r : Bytes, (l ++ 41 :: r).dropWhile wordChar = 41 :: r := by
    intro r
    clear hl
    induction l with
    | nil => rfl
    | cons c l ih =>
      rw [List.cons_append, List.dropWhile_cons, hw c (by simp), if_pos rfl]
      exact ih fun x hx => hw x (by simp [hx])
  have hb : ∀ r : Bytes, (r = [] ∨ r = 40 :: (l ++ [41])) → strtofBody (t ++ r) = some (.nan, []) := by
    intro r hr
    have w1 : word [105, 110, 102] (t ++ r) = none := by
      unfold word
      rw [if_neg]
      have : ([105, 110, 102] : Bytes).length = t.length := by rw [hln]; rfl
      rw [this, List.take_left' rfl, hm]
      decide
    have w2 : word [110, 97, 110] (t ++ r) = some r := by
      rw [word_hit (r := r.map lowerChar) (by rw [List.map_append, hm])]
      have : ([110, 97, 110] : Bytes).length = t.length := by rw [hln]; rfl
      rw [this, List.drop_left' rfl]
    unfold strtofBody
    simp only [w1, w2]
    rcases hr with rfl | rfl
    · rfl
    · have h1 := hdrop []
      simp only [List.head?_cons, List.tail_cons, h1, and_self, if_true]
  have hc : ∃ c r, t = c :: r ∧ (c = 110 ∨ c = 78) := by
    cases t with
    | nil => simp at hln
    | cons c r =>
      refine ⟨c, r, rfl, ?_⟩
      rcases h.2 0 c 110 rfl rfl with e | e
      · exact .inl e
      · right
        have := congrArg (· - 32) e
        simpa using this
  obtain ⟨c, r, rfl, hc⟩ := hc
  have n1 : isSpace c = false ∧ c ≠ 45 ∧ c ≠ 43 := by rcases hc with rfl | rfl <;> decide
  have key : ∀ q : Bytes, (q = [] ∨ q = 40 :: (l ++ [41])) → parse (c :: r ++ q) = some nan := by
    intro q hq
    have hs : strtof (c :: (r ++ q)) = some (false, .nan, []) := by
      have := hb q hq
      rw [List.cons_append] at this
      unfold strtof
      simp only [List.dropWhile_cons, n1.1, Bool.false_eq_true, if_false, List.head?_cons, Option.some.injEq, n1.2.1, n1.2.2,
        or_self, this]
      rfl
    unfold parse
    rw [List.cons_append, hs]; rfl
  exact ⟨by simpa using key [] (.inl rfl), key _ (.inr rfl)⟩

example : Spells [73, 110, 70] [105, 110, 102] :=
  ⟨rfl, by
    intro i c d h1 h2
    match i with
    | 0 => simp at h1 h2; subst h1 h2; decide
    | 1 => simp at h1 h2; subst h1 h2; decide
    | 2 => simp at h1 h2; subst h1 h2; decide
    | i + 3 => simp at h1⟩

end Verif.FloatText
