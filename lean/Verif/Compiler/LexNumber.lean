import Verif.Compiler.LexTokens
/-
Helper lemmas on the numeral scanner.
-/
namespace Verif.Lex
open Verif Verif.Str

/-! ### Specification -/

/-- `0`..`9`. -/
def Digit (c : UInt8) : Prop := 48 ≤ c ∧ c ≤ 57
/-- Hexadecimal digit. -/
def HexDigit (c : UInt8) : Prop := Digit c ∨ (97 ≤ c ∧ c ≤ 102) ∨ (65 ≤ c ∧ c ≤ 70)

/-- Binary numeral: digits `0`, `1` and a closing `b`. -/
def Binary (v : Bytes) : Prop := ∃ d, v = d ++ [98] ∧ d ≠ [] ∧ ∀ c ∈ d, c = 48 ∨ c = 49

/-- Numerals of the language: decimal, binary, hexadecimal, and decimal fractions with an optional
exponent (which needs a digit before and behind it). -/
inductive Numeral : Bytes → Prop
  | dec {d : Bytes} : d ≠ [] → (∀ c ∈ d, Digit c) → Numeral d
  | bin {v : Bytes} : Binary v → Numeral v
  | hex {x : UInt8} {d : Bytes} : (x = 120 ∨ x = 88) → d ≠ [] → (∀ c ∈ d, HexDigit c) → Numeral (48 :: x :: d)
  | frac {d f : Bytes} : (∀ c ∈ d, Digit c) → (∀ c ∈ f, Digit c) → Numeral (d ++ 46 :: f)
  | exp {d f sg x : Bytes} {e : UInt8} : (∀ c ∈ d, Digit c) → f ≠ [] → (∀ c ∈ f, Digit c) → (e = 101 ∨ e = 69) →
      (sg = [] ∨ sg = [43] ∨ sg = [45]) → x ≠ [] → (∀ c ∈ x, Digit c) → Numeral (d ++ 46 :: (f ++ e :: (sg ++ x)))

/-- What may follow a numeral: a delimiter; a dot only behind a binary numeral. -/
def EndsNumeral (v t : Bytes) : Prop := delim t = true ∧ (t.head? ≠ some 46 ∨ Binary v)

/-! ### One iteration -/

/-- The loop condition behind a character. -/
def goes (t : Bytes) : Bool := !(delim t && t.headD 0 != 46)

theorem goes_false (t : Bytes) : goes t = false ↔ delim t = true ∧ t.head? ≠ some 46 := by
  cases t with
  | nil => simp [goes, delim]
  | cons c t => simp [goes]

theorem digit_iff (c : UInt8) : isDec c = true ↔ Digit c := by simp [isDec, Digit]

theorem digit_ne {c : UInt8} (h : Digit c) (a : UInt8) (ha : a < 48 ∨ 57 < a) : c ≠ a := by
  rintro rfl
  obtain ⟨h1, h2⟩ := h
  rw [UInt8.le_iff_toNat_le] at h1 h2
  rw [UInt8.lt_iff_toNat_lt, UInt8.lt_iff_toNat_lt] at ha
  simp at *
  omega

theorem hex_ne {c : UInt8} (h : HexDigit c) (a : UInt8) (ha : a < 48 ∨ (57 < a ∧ a < 65) ∨ (70 < a ∧ a < 97) ∨ 102 < a) :
    c ≠ a := by
  rintro rfl
  unfold HexDigit Digit at h
  simp only [UInt8.le_iff_toNat_le, UInt8.lt_iff_toNat_lt] at h ha
  simp at *
  omega

theorem hex_goes {c : UInt8} (h : HexDigit c) (t : Bytes) : goes (c :: t) = true := by
  have := hex_ne h
  simp only [goes, delim, List.headD_cons, List.contains_cons, List.contains_nil]
  have k : ∀ a : UInt8, (a < 48 ∨ (57 < a ∧ a < 65) ∨ (70 < a ∧ a < 97) ∨ 102 < a) → (c == a) = false := by
    intro a ha
    simpa using this a ha
  rw [k 61 (by decide), k 43 (by decide), k 45 (by decide), k 42 (by decide), k 47 (by decide), k 37 (by decide),
    k 94 (by decide), k 38 (by decide), k 124 (by decide), k 60 (by decide), k 62 (by decide), k 63 (by decide),
    k 58 (by decide), k 44 (by decide), k 59 (by decide), k 40 (by decide), k 41 (by decide), k 91 (by decide),
    k 93 (by decide), k 123 (by decide), k 125 (by decide), k 0 (by decide), k 32 (by decide), k 9 (by decide),
    k 46 (by decide), k 10 (by decide), k 13 (by decide), k 34 (by decide), k 33 (by decide)]
  rfl

theorem flag_eq (t : Bytes) : (do
    let stop ← endSymbol t
    let d ← peek t 0
    Out.ok (!((stop || isSpecial d) && d != 46))) = Out.ok (goes t) := by
  rw [endSymbol_eq]
  cases t with
  | nil => rfl
  | cons c t =>
    simp only [Out.bind_ok, peek_zero, goes, List.headD_cons]
    by_cases h : isSpecial c = true
    · have : delim (c :: t) = true := by
        simp only [isSpecial, List.contains_iff_mem] at h
        simp only [delim, Bool.or_eq_true, List.contains_iff_mem]
        left
        revert h
        simp only [List.mem_cons, List.not_mem_nil]
        grind
      simp [this, h]
    · simp at h
      simp [h]

/-- The state after a character. -/
def Num.put (m : Num) (c : UInt8) : Num := { m.add c with is01 := m.is01 && (c == 48 || c == 49) }

theorem add_is01 (m : Num) (c : UInt8) : (m.add c).is01 = m.is01 := by
  unfold Num.add; split <;> rfl
theorem add_hexa (m : Num) (c : UInt8) : (m.add c).hexa = m.hexa := by
  unfold Num.add; split <;> rfl
theorem add_float (m : Num) (c : UInt8) : (m.add c).float = m.float := by
  unfold Num.add; split <;> rfl
theorem add_part (m : Num) (c : UInt8) : (m.add c).part = m.part := by
  unfold Num.add; split <;> rfl

/-- An iteration that takes one plain character. -/
theorem step_plain (m : Num) (c : UInt8) (t : Bytes) (he : (m.float && (c == 101 || c == 69)) = false) :
    numStep m (c :: t) = (do
      let (m, e) ← numChar m c
      Out.ok (m, t, !e && goes t)) := by
  have e1 : exponent m (c :: t) = .ok (m, c :: t) := by
    simp only [exponent, peek_zero, Out.bind_ok, he]
    rfl
  simp only [numStep, e1, Out.bind_ok, peek_zero]
  cases numChar m c with
  | err => rfl
  | ub => rfl
  | ok p =>
    obtain ⟨m', e⟩ := p
    simp only [Out.bind_ok, adv_one]
    cases e with
    | true => simp
    | false =>
      simp only [Bool.false_eq_true, if_false, Bool.not_false, Bool.true_and]
      have := flag_eq t
      rw [endSymbol_eq] at this ⊢
      cases hp : peek t 0 with
      | err => rw [hp] at this; simp at this
      | ub => rw [hp] at this; simp at this
      | ok d =>
        rw [hp] at this
        simp only [Out.bind_ok] at this ⊢
        injection this with this
        rw [this]

theorem char_digit (m : Num) (c : UInt8) (h : Digit c) : numChar m c = .ok (m.put c, false) := by
  have : isDec c = true := (digit_iff c).2 h
  simp [numChar, this, Num.put, add_is01]

theorem char_hex (m : Num) (c : UInt8) (h : HexDigit c) (hm : m.hexa = true) : numChar m c = .ok (m.put c, false) := by
  rcases h with h | h
  · exact char_digit m c h
  · have h' : ((97 ≤ c && c ≤ 102) || (65 ≤ c && c ≤ 70)) = true := by simpa using h
    unfold numChar
    by_cases hd : isDec c = true
    · simp [hd, Num.put, add_is01]
    · simp only [hd, Bool.false_eq_true, if_false, h', hm, Bool.and_self, if_true, Out.bind_ok, Num.put, add_is01]

/-- Taking several characters. -/
def Num.puts (m : Num) (d : Bytes) : Num := d.foldl Num.put m

/-- Characters that an iteration takes without changing the phase. -/
def Plain (m : Num) (d : Bytes) : Prop := (∀ c ∈ d, Digit c) ∨ (m.hexa = true ∧ m.float = false ∧ ∀ c ∈ d, HexDigit c)

theorem put_hexa (m : Num) (c : UInt8) : (m.put c).hexa = m.hexa := add_hexa m c
theorem put_float (m : Num) (c : UInt8) : (m.put c).float = m.float := add_float m c

theorem Plain.head {m : Num} {c : UInt8} {d : Bytes} (h : Plain m (c :: d)) :
    HexDigit c ∧ numChar m c = .ok (m.put c, false) ∧ (m.float && (c == 101 || c == 69)) = false ∧ Plain (m.put c) d := by
  rcases h with h | ⟨h1, h2, h3⟩
  · have hc := h c (by simp)
    refine ⟨.inl hc, char_digit m c hc, ?_, .inl fun x hx => h x (by simp [hx])⟩
    have a := digit_ne hc 101 (by decide)
    have b := digit_ne hc 69 (by decide)
    simp [a, b]
  · have hc := h3 c (by simp)
    exact ⟨hc, char_hex m c hc h1, by simp [h2],
      .inr ⟨by rw [put_hexa]; exact h1, by rw [put_float]; exact h2, fun x hx => h3 x (by simp [hx])⟩⟩

theorem loop_plain (t : Bytes) (fuel : Nat) : ∀ (d : Bytes) (m : Num), d ≠ [] → Plain m d →
    numLoop (fuel + d.length) m (d ++ t) =
      if goes t = true then numLoop fuel (m.puts d) t else some (.ok (m.puts d, t))
  | [], _, h, _ => absurd rfl h
  | [c], m, _, h => by
    obtain ⟨-, h2, h3, -⟩ := h.head
    rw [List.length_singleton, numLoop, List.singleton_append, step_plain m c t h3, h2]
    simp only [Out.bind_ok, Bool.not_false, Bool.true_and]
    cases goes t <;> simp [Num.puts]
  | c :: e :: d, m, _, h => by
    obtain ⟨-, h2, h3, h4⟩ := h.head
    obtain ⟨h5, -⟩ := h4.head
    have e1 : fuel + (c :: e :: d).length = (fuel + (e :: d).length) + 1 := by simp; omega
    rw [e1, numLoop, List.cons_append, step_plain m c _ h3, h2]
    simp only [Out.bind_ok, Bool.not_false, Bool.true_and]
    rw [List.cons_append, hex_goes h5]
    simp only
    rw [← List.cons_append, loop_plain t fuel (e :: d) (m.put c) (by simp) h4]
    rfl

/-! ### The phases -/

theorem puts0 (d : Bytes) : ∀ (p q r : Bytes) (h i f : Bool),
    Num.puts ⟨0, p, q, r, h, i, f⟩ d = ⟨0, p ++ d, q, r, h, i && d.all (fun c => c == 48 || c == 49), f⟩ := by
  induction d with
  | nil => intros; simp [Num.puts]
  | cons c d ih =>
    intro p q r h i f
    have := ih (p ++ [c]) q r h (i && (c == 48 || c == 49)) f
    simp only [Num.puts, List.foldl_cons] at this ⊢
    rw [show Num.put ⟨0, p, q, r, h, i, f⟩ c = ⟨0, p ++ [c], q, r, h, i && (c == 48 || c == 49), f⟩ from rfl, this]
    simp [Bool.and_assoc]

theorem puts1 (d : Bytes) : ∀ (p q r : Bytes) (h i f : Bool), ∃ i',
    Num.puts ⟨1, p, q, r, h, i, f⟩ d = ⟨1, p, q ++ d, r, h, i', f⟩ := by
  induction d with
  | nil => intros; exact ⟨_, by simp [Num.puts]; rfl⟩
  | cons c d ih =>
    intro p q r h i f
    obtain ⟨i', this⟩ := ih p (q ++ [c]) r h (i && (c == 48 || c == 49)) f
    refine ⟨i', ?_⟩
    simp only [Num.puts, List.foldl_cons] at this ⊢
    rw [show Num.put ⟨1, p, q, r, h, i, f⟩ c = ⟨1, p, q ++ [c], r, h, i && (c == 48 || c == 49), f⟩ from rfl, this]
    simp

theorem puts2 (d : Bytes) : ∀ (p q r : Bytes) (h i f : Bool), ∃ i',
    Num.puts ⟨2, p, q, r, h, i, f⟩ d = ⟨2, p, q, r ++ d, h, i', f⟩ := by
  induction d with
  | nil => intros; exact ⟨_, by simp [Num.puts]; rfl⟩
  | cons c d ih =>
    intro p q r h i f
    obtain ⟨i', this⟩ := ih p q (r ++ [c]) h (i && (c == 48 || c == 49)) f
    refine ⟨i', ?_⟩
    simp only [Num.puts, List.foldl_cons] at this ⊢
    rw [show Num.put ⟨2, p, q, r, h, i, f⟩ c = ⟨2, p, q, r ++ [c], h, i && (c == 48 || c == 49), f⟩ from rfl, this]
    simp

/-- The dot. -/
theorem step_dot (p q r : Bytes) (i f : Bool) (t : Bytes) :
    ∃ i', numStep ⟨0, p, q, r, false, i, f⟩ (46 :: t) = .ok (⟨1, p, q ++ [46], r, false, i', true⟩, t, goes t) := by
  rw [step_plain _ _ _ (by simp)]
  refine ⟨i && ((46 : UInt8) == 48 || (46 : UInt8) == 49), ?_⟩
  simp [numChar, isDec, Num.add]

/-- The closing `b`. -/
theorem step_b (p q r : Bytes) (f : Bool) (t : Bytes) :
    ∃ i', numStep ⟨0, p, q, r, false, true, f⟩ (98 :: t) = .ok (⟨0, p ++ [98], q, r, false, i', f⟩, t, false) := by
  rw [step_plain _ _ _ (by simp)]
  exact ⟨_, by simp [numChar, isDec, Num.add]; rfl⟩

/-- The exponent mark, its sign and the first digit behind it. -/
theorem step_exp (p q r : Bytes) (h i : Bool) (e : UInt8) (he : e = 101 ∨ e = 69) (sg : Bytes)
    (hs : sg = [] ∨ sg = [43] ∨ sg = [45]) (c : UInt8) (hc : Digit c) (t : Bytes) (hq : 1 < q.length) :
    ∃ i', numStep ⟨1, p, q, r, h, i, true⟩ (e :: (sg ++ c :: t)) =
      .ok (⟨2, p, q, r ++ e :: (sg ++ [c]), h, i', true⟩, t, goes t) := by
  have h43 := digit_ne hc 43 (by decide)
  have h45 := digit_ne hc 45 (by decide)
  have hx : exponent ⟨1, p, q, r, h, i, true⟩ (e :: (sg ++ c :: t)) =
      .ok (⟨2, p, q, r ++ e :: sg, h, i, true⟩, c :: t) := by
    rcases he with rfl | rfl <;> rcases hs with rfl | rfl | rfl <;>
      simp [exponent, Num.add, hq, h43, h45]
  have hp := step_plain ⟨2, p, q, r ++ e :: sg, h, i, true⟩ c t (by
    have a := digit_ne hc 101 (by decide)
    have b := digit_ne hc 69 (by decide)
    simp [a, b])
  have hx2 : exponent ⟨2, p, q, r ++ e :: sg, h, i, true⟩ (c :: t) =
      .ok (⟨2, p, q, r ++ e :: sg, h, i, true⟩, c :: t) := by
    have a := digit_ne hc 101 (by decide)
    have b := digit_ne hc 69 (by decide)
    simp [exponent, a, b]
  have : numStep ⟨1, p, q, r, h, i, true⟩ (e :: (sg ++ c :: t)) = numStep ⟨2, p, q, r ++ e :: sg, h, i, true⟩ (c :: t) := by
    unfold numStep
    rw [hx, hx2]
  rw [this, hp, char_digit _ _ hc]
  exact ⟨i && (c == 48 || c == 49), by simp [Num.put, Num.add]⟩

theorem loop_step {m m' : Num} {s t : Bytes} {b : Bool} (h : numStep m s = .ok (m', t, b)) (fuel : Nat) :
    numLoop (fuel + 1) m s = if b = true then numLoop fuel m' t else some (.ok (m', t)) := by
  rw [numLoop, h]
  cases b <;> rfl

def start : Num := ⟨0, [], [], [], false, true, false⟩

theorem head_goes_false {t : Bytes} (hd : delim t = true) (h : t.head? ≠ some 46) : goes t = false :=
  (goes_false t).2 ⟨hd, h⟩

theorem goes_of_not_delim {t : Bytes} (h : delim t = false) : goes t = true := by simp [goes, h]

theorem goes_dot (t : Bytes) : goes (46 :: t) = true := by simp [goes]

theorem not_bin_dec {d : Bytes} (h : ∀ c ∈ d, Digit c) : ¬ Binary d := by
  rintro ⟨e, rfl, -, -⟩
  have := h 98 (by simp)
  exact digit_ne this 98 (by decide) rfl

theorem not_bin_dot {d f : Bytes} : ¬ Binary (d ++ 46 :: f) := by
  rintro ⟨e, he, -, h⟩
  have : (46 : UInt8) ∈ e ++ [98] := by rw [← he]; simp
  rcases List.mem_append.1 this with hm | hm
  · rcases h 46 hm with h | h <;> exact absurd h (by decide)
  · exact absurd (List.mem_singleton.1 hm) (by decide)

theorem not_bin_hex {x : UInt8} {d : Bytes} (hx : x = 120 ∨ x = 88) : ¬ Binary (48 :: x :: d) := by
  rintro ⟨e, he, -, h⟩
  have : x ∈ e ++ [98] := by rw [← he]; simp
  rcases List.mem_append.1 this with hm | hm
  · rcases hx with rfl | rfl <;> rcases h _ hm with h | h <;> exact absurd h (by decide)
  · rcases hx with rfl | rfl <;> exact absurd (List.mem_singleton.1 hm) (by decide)

/-- Scanning a fraction (with optional exponent) from the dot on. -/
theorem loop_frac (d f t : Bytes) (i : Bool) (fuel : Nat) (hf : ∀ c ∈ f, Digit c) (ht : goes t = false) :
    ∃ m, numLoop (fuel + (46 :: f).length) ⟨0, d, [], [], false, i, false⟩ (46 :: f ++ t) = some (.ok (m, t)) ∧
      m.text = d ++ 46 :: f := by
  obtain ⟨i', h⟩ := step_dot d [] [] i false (f ++ t)
  have e : fuel + (46 :: f).length = (fuel + f.length) + 1 := by simp; omega
  rw [e, List.cons_append, loop_step h]
  by_cases hn : f = []
  · subst hn
    simp only [List.nil_append, ht, Bool.false_eq_true, if_false]
    exact ⟨_, rfl, by simp [Num.text]⟩
  · have hg : goes (f ++ t) = true := by
      cases f with
      | nil => exact absurd rfl hn
      | cons c f => exact hex_goes (.inl (hf c (by simp))) _
    rw [if_pos hg, loop_plain t fuel f _ hn (.inl hf), if_neg (by simp [ht])]
    obtain ⟨i2, h2⟩ := puts1 f d [46] [] false i' true
    rw [List.nil_append, h2]
    exact ⟨_, rfl, by simp [Num.text]⟩

theorem loop_exp (d f sg x t : Bytes) (e : UInt8) (i : Bool) (fuel : Nat) (hfn : f ≠ []) (hf : ∀ c ∈ f, Digit c)
    (he : e = 101 ∨ e = 69) (hs : sg = [] ∨ sg = [43] ∨ sg = [45]) (hxn : x ≠ []) (hx : ∀ c ∈ x, Digit c)
    (ht : goes t = false) :
    ∃ m, numLoop (fuel + (46 :: (f ++ e :: (sg ++ x))).length) ⟨0, d, [], [], false, i, false⟩
      (46 :: (f ++ e :: (sg ++ x)) ++ t) = some (.ok (m, t)) ∧ m.text = d ++ 46 :: (f ++ e :: (sg ++ x)) := by
  obtain ⟨c, x, rfl⟩ : ∃ c y, x = c :: y := by
    cases x with
    | nil => exact absurd rfl hxn
    | cons c x => exact ⟨c, x, rfl⟩
  have e0 : (46 :: (f ++ e :: (sg ++ c :: x)) ++ t) = 46 :: (f ++ (e :: (sg ++ c :: (x ++ t)))) := by simp
  obtain ⟨i', h⟩ := step_dot d [] [] i false (f ++ (e :: (sg ++ c :: (x ++ t))))
  have el : fuel + (46 :: (f ++ e :: (sg ++ c :: x))).length = ((fuel + sg.length + x.length + 1 + 1) + f.length) + 1 := by
    simp; omega
  rw [e0, el, loop_step h]
  have hg : goes (f ++ (e :: (sg ++ c :: (x ++ t)))) = true := by
    cases f with
    | nil => exact absurd rfl hfn
    | cons c f => exact hex_goes (.inl (hf c (by simp))) _
  rw [if_pos hg, loop_plain _ _ f _ hfn (.inl hf)]
  have hge : goes (e :: (sg ++ c :: (x ++ t))) = true := by
    apply goes_of_not_delim
    rcases he with rfl | rfl <;> simp [delim]
  rw [if_pos hge]
  obtain ⟨i2, h2⟩ := puts1 f d [46] [] false i' true
  rw [List.nil_append, h2]
  obtain ⟨i3, h3⟩ := step_exp d ([46] ++ f) [] false i2 e he sg hs c (hx c (by simp)) (x ++ t) (by
    cases f with
    | nil => exact absurd rfl hfn
    | cons c f => simp)
  rw [loop_step h3]
  by_cases hn : x = []
  · subst hn
    simp only [List.nil_append, ht, Bool.false_eq_true, if_false]
    exact ⟨_, rfl, by simp [Num.text]⟩
  · have hg : goes (x ++ t) = true := by
      cases x with
      | nil => exact absurd rfl hn
      | cons c' x => exact hex_goes (.inl (hx c' (by simp))) _
    have el2 : fuel + sg.length + x.length + 1 = (fuel + sg.length + 1) + x.length := by omega
    rw [if_pos hg, el2, loop_plain t _ x _ hn (.inl fun c hc => hx c (by simp [hc])), if_neg (by simp [ht])]
    obtain ⟨i4, h4⟩ := puts2 x d ([46] ++ f) ([] ++ e :: (sg ++ [c])) false i3 true
    rw [h4]
    exact ⟨_, rfl, by simp [Num.text]⟩

/-- Scanning digits, then what follows them. -/
theorem loop_dec (d t : Bytes) (fuel : Nat) (hd : ∀ c ∈ d, Digit c) (hn : d ≠ []) :
    numLoop (fuel + d.length) start (d ++ t) =
      if goes t = true then numLoop fuel ⟨0, d, [], [], false, d.all (fun c => c == 48 || c == 49), false⟩ t
      else some (.ok (⟨0, d, [], [], false, d.all (fun c => c == 48 || c == 49), false⟩, t)) := by
  rw [loop_plain t fuel d start hn (.inl hd)]
  have := puts0 d [] [] [] false true false
  rw [show start = ⟨0, [], [], [], false, true, false⟩ from rfl, this]
  simp

/-! ### The start -/

theorem keywords_head : ∀ k ∈ keywords, ∃ c r, k = c :: r ∧ (57 < c ∨ k = [46, 46, 46]) := by
  have : ∀ k ∈ keywords, (match k with | [] => false | c :: _ => decide (57 < c) || decide (k = [46, 46, 46])) = true := by
    decide +kernel
  intro k hk
  have := this k hk
  cases k with
  | nil => simp at this
  | cons c r => exact ⟨c, r, rfl, by simpa using this⟩

/-- No keyword begins with a digit, and the only one that begins with a dot is `...`. -/
theorem keyword_none (c : UInt8) (t : Bytes) (hc : Digit c ∨ (c = 46 ∧ t.head? ≠ some 46)) :
    isKeyword (c :: t) = .ok none := by
  obtain ⟨o, ho⟩ := isKeyword_ok (c :: t)
  cases o with
  | none => exact ho
  | some k =>
    exfalso
    obtain ⟨hk, u, hu, -⟩ := (isKeyword_iff _ _).1 ho
    obtain ⟨a, r, rfl, ha⟩ := keywords_head k hk
    injection hu with e1 e2
    subst e1
    rcases ha with ha | ha
    · rcases hc with hc | ⟨rfl, -⟩
      · exact digit_ne hc c (.inr ha) rfl
      · exact absurd ha (by decide)
    · injection ha with e3 e4
      subst e3 e4
      rcases hc with hc | ⟨-, hc⟩
      · exact digit_ne hc 46 (by decide) rfl
      · exact hc (by rw [e2]; rfl)

theorem numStart_dec (c : UInt8) (t : Bytes) (hc : Digit c ∨ (c = 46 ∧ t.head? ≠ some 46))
    (hx : c = 48 → t.head? ≠ some 120 ∧ t.head? ≠ some 88) :
    numStart (c :: t) = .ok (some (start, c :: t)) := by
  have hd : (isDec c || c == 46) = true := by
    rcases hc with h | ⟨rfl, -⟩
    · simp [(digit_iff c).2 h]
    · rfl
  simp only [numStart, keyword_none c t hc, Out.bind_ok, Option.isSome_none, Bool.false_eq_true, if_false,
    peek_zero]
  by_cases h0 : c = 48
  · subst h0
    obtain ⟨h1, h2⟩ := hx rfl
    cases t with
    | nil => simp [isDec, start]
    | cons d t =>
      simp at h1 h2
      simp [h1, h2, isDec, start]
  · simp only [h0, if_false, Out.bind_ok, peek_zero, Bool.or_false, hd, if_true]
    rfl

theorem numStart_hex (x : UInt8) (t : Bytes) (hx : x = 120 ∨ x = 88) :
    numStart (48 :: x :: t) = .ok (some (⟨0, [48, x], [], [], true, true, false⟩, t)) := by
  have hp : ∃ c, peek t 0 = .ok c := by
    cases t with
    | nil => exact ⟨0, rfl⟩
    | cons c t => exact ⟨c, rfl⟩
  obtain ⟨c, hc⟩ := hp
  simp only [numStart, keyword_none 48 _ (.inl (by constructor <;> decide)), Out.bind_ok, Option.isSome_none,
    Bool.false_eq_true, if_false, peek_zero, if_true, peek_one]
  rcases hx with rfl | rfl <;> simp [Num.add, hc]

end Verif.Lex
