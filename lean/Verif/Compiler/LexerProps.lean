import Verif.Compiler.LexSound
/-
C32 (blanks and comments), C55 (operators: longest match), C56 (keywords and identifiers are whole words),
C57 (numerals).

Specifications: `Blanks`, `Stops` (`LexBlanks.lean`); `symbolOps`, `incDec`, `Longest`, `WordAt`
(`LexTokens.lean`); `Numeral`, `EndsNumeral` (`LexNumber.lean`).
-/
namespace Verif.Lex
open Verif Verif.Str

/-! ### Specification of spellings -/

/-- The bytes of an ASCII spelling. -/
def spell (w : String) : Bytes := w.toList.map fun c => c.toNat.toUInt8

/-- The keywords of the language. -/
def reserved : List Bytes := ["if", "else", "for", "while", "do", "var", "const", "static", "switch", "case",
  "default", "break", "continue", "return", "function", "class", "delete", "ref", "...", "this", "new"].map spell

/-- Characters that may begin a name: letters and the underscore. -/
def NameStart (c : UInt8) : Prop := (97 ≤ c ∧ c ≤ 122) ∨ (65 ≤ c ∧ c ≤ 90) ∨ c = 95

/-- Characters of a name: letters, digits and the underscore. -/
def NameChar (c : UInt8) : Prop := NameStart c ∨ (48 ≤ c ∧ c ≤ 57)

/-- The spellings used in the theorems below are the documented ones. -/
theorem spellings : keywords = reserved ∧ instanceofStr = spell "instanceof" ∧ inStr = spell "in" ∧
    symbolOps = ["=", "+=", "-=", "*=", "/=", "%=", "^=", "&=", "|=", "<<=", ">>=", "?", ":", "&&", "||", "==",
      "!=", ">=", "<=", ">", "<", "+", "-", "^", "*", "&", "/", "%", "|", "<<", ">>"].map spell ∧
    incDec = ["++", "--"].map spell := by
  decide +kernel

theorem isIdStart_iff (c : UInt8) : isIdStart c = true ↔ NameStart c := by
  simp [isIdStart, NameStart, or_assoc]

theorem isIdChar_iff (c : UInt8) : isIdChar c = true ↔ NameChar c := by
  simp [isIdChar, NameChar, NameStart, or_assoc]
  grind

theorem isIdChar_false (c : UInt8) : isIdChar c = false ↔ ¬ NameChar c := by
  rw [← isIdChar_iff]; simp

/-! ### C32: blanks and comments -/

/-- The property in full: for every source text without NUL that splits into blank text `w` and a rest `r`
at which no blank or comment begins, skipping leads exactly to `r`, having counted each line feed of `w`
once; and if `r` begins with a stray end-of-comment mark, an error is reported. -/
def SkipsBlanks : Prop :=
  ∀ (w r : Bytes) (line fuel : Nat), NoNul (w ++ r) → Blanks w r → Stops r → w.length < fuel →
    ignoreBlanks fuel (w ++ r) line = some (if [42, 47] <+: r then .err else .ok (r, line + w.count 10))

/-- A carriage return that no line feed follows ends the skipping: behind it blanks are left. -/
theorem blanks_violated : ¬ SkipsBlanks := by
  intro h
  have hb : Blanks [13, 32] [120] := .blank (by simp) (.blank (by simp) (.nil _))
  have := h [13, 32] [120] 1 5 (by intro c hc; simp at hc; rcases hc with rfl | rfl | rfl <;> decide) hb
    ⟨by simp, by simp, by simp⟩ (by decide)
  revert this
  decide +kernel

/-- The property for texts in which carriage returns occur only before line feeds. -/
theorem blanks_partial (w r : Bytes) (line fuel : Nat) (hz : NoNul (w ++ r)) (hcr : CrLf (w ++ r))
    (hw : Blanks w r) (hr : Stops r) (hf : w.length < fuel) :
    ignoreBlanks fuel (w ++ r) line = some (if [42, 47] <+: r then .err else .ok (r, line + w.count 10)) :=
  ignore_blanks fuel w r line hw hr hz hcr hf

/-- Every text splits that way, so the previous theorem covers every text. -/
theorem blanks_covers (s : Bytes) : ∃ w r, s = w ++ r ∧ Blanks w r ∧ Stops r :=
  blanks_split s.length s (Nat.le_refl _)

theorem comment_any (s : Bytes) (n : Nat) (hz : NoNul s) : comment s n = .err ∨
    ∃ w r more, comment s n = .ok (r, n + w.count 10, more) ∧ s = w ++ r ∧ (more = true → w ≠ []) := by
  by_cases hl : [47, 47] <+: s
  · right
    have hn : (s.takeWhile (fun c => c != 0 && c != 10)).count 10 = 0 := by
      rw [List.count_eq_zero]
      intro h
      have := List.all_takeWhile (p := fun c : UInt8 => c != 0 && c != 10) (l := s)
      rw [List.all_eq_true] at this
      exact absurd (this 10 h) (by decide)
    refine ⟨s.takeWhile (fun c => c != 0 && c != 10), s.dropWhile (fun c => c != 0 && c != 10), false, ?_,
      List.takeWhile_append_dropWhile.symm, by simp⟩
    simp only [comment, isLine_eq, hl, decide_true, if_true, Out.bind_ok]
    rw [skipWhile_eq _ (by decide)]
    simp [hn]
  by_cases ho : [47, 42] <+: s
  · right
    obtain ⟨u, rfl⟩ := (two_prefix _ _ _).1 ho
    have hz' : NoNul u := fun c hc => hz c (by simp [hc])
    rcases split_close u with h | ⟨t, w, rfl, h⟩
    · refine ⟨47 :: 42 :: u, [], true, ?_, by simp, by simp⟩
      simp [comment, isLine_eq, isOpen_eq, isClose_eq, endBlock, scan_open u n hz' h]
    · have hz2 : NoNul t := fun c hc => hz' c (by simp [hc])
      refine ⟨47 :: 42 :: (t ++ [42, 47]), w, true, ?_, by simp, by simp⟩
      simp [comment, isLine_eq, isOpen_eq, isClose_eq, endBlock, scan_close _ t n hz2 h]
  by_cases hc : [42, 47] <+: s
  · left
    simp [comment, isLine_eq, isOpen_eq, isClose_eq, hl, ho, hc]
  · right
    exact ⟨[], s, false, by simp [comment, isLine_eq, isOpen_eq, isClose_eq, hl, ho, hc], rfl, by simp⟩

theorem newline_any (s : Bytes) (n : Nat) (more : Bool) :
    ∃ w r more', newline s n more = .ok (r, n + w.count 10, more') ∧ s = w ++ r ∧
      (more' = true → more = true ∨ w ≠ []) := by
  match s with
  | [] => exact ⟨[], [], more, by simp [newline], rfl, .inl⟩
  | c :: s =>
    by_cases h13 : c = 13
    · subst h13
      match s with
      | [] => exact ⟨[13], [], more, by simp [newline], rfl, .inl⟩
      | d :: s =>
        by_cases h10 : d = 10
        · subst h10; exact ⟨[13, 10], s, true, by simp [newline], rfl, by simp⟩
        · exact ⟨[13], d :: s, more, by simp [newline, h10], rfl, .inl⟩
    · by_cases h10 : c = 10
      · subst h10; exact ⟨[10], s, true, by simp [newline], rfl, by simp⟩
      · exact ⟨[], c :: s, more, by simp [newline, h10, h13], rfl, .inl⟩

theorem round_any (s : Bytes) (n : Nat) (hz : NoNul s) : round s n = .err ∨
    ∃ w r more, round s n = .ok (r, n + w.count 10, more) ∧ s = w ++ r ∧ (more = true → w ≠ []) := by
  have hsp : (s.takeWhile isSp).count 10 = 0 := by
    rw [List.count_eq_zero]
    intro h
    have := List.all_takeWhile (p := isSp) (l := s)
    rw [List.all_eq_true] at this
    exact absurd (this 10 h) (by decide)
  have hs : s = s.takeWhile isSp ++ s.dropWhile isSp := List.takeWhile_append_dropWhile.symm
  have hz' : NoNul (s.dropWhile isSp) := fun c hc => hz c ((List.dropWhile_sublist _).subset hc)
  rcases comment_any (s.dropWhile isSp) n hz' with h | ⟨w1, r1, m1, h1, e1, k1⟩
  · left
    simp only [round, skipSpaces, Out.bind_ok, h, Out.bind_err]
  · right
    obtain ⟨w2, r2, m2, h2, e2, k2⟩ := newline_any r1 (n + w1.count 10) m1
    refine ⟨s.takeWhile isSp ++ w1 ++ w2, r2, m2, ?_, ?_, ?_⟩
    · simp only [round, skipSpaces, Out.bind_ok, h1, h2, List.count_append, hsp]
      have : n + w1.count 10 + w2.count 10 = n + (0 + w1.count 10 + w2.count 10) := by omega
      rw [this]
    · have : s = s.takeWhile isSp ++ (w1 ++ (w2 ++ r2)) := by rw [← e2, ← e1]; exact hs
      simpa using this
    · intro hm
      rcases k2 hm with h | h
      · have := k1 h
        simp [this]
      · simp [h]

/-- For every text whatsoever (stray carriage returns included) skipping ends after at most `length + 1`
rounds, reads nothing outside the text and its terminating NUL, stops inside the text, and counts exactly the
line feeds it passed. -/
theorem blanks_safe (fuel : Nat) : ∀ (s : Bytes) (line : Nat), NoNul s → s.length < fuel →
    ignoreBlanks fuel s line = some .err ∨
    ∃ w r, ignoreBlanks fuel s line = some (.ok (r, line + w.count 10)) ∧ s = w ++ r := by
  induction fuel with
  | zero => intro s line _ h; exact absurd h (Nat.not_lt_zero _)
  | succ fuel ih =>
    intro s line hz hf
    unfold ignoreBlanks
    rcases round_any s line hz with h | ⟨w, r, more, h, rfl, k⟩
    · rw [h]; exact .inl rfl
    · rw [h]
      cases more with
      | false => exact .inr ⟨w, r, rfl, rfl⟩
      | true =>
        have hw : 0 < w.length := List.length_pos_iff.2 (k rfl)
        have hz' : NoNul r := fun c hc => hz c (by simp [hc])
        rcases ih r (line + w.count 10) hz' (by simp at hf; omega) with h | ⟨w', r', h, rfl⟩
        · exact .inl h
        · refine .inr ⟨w ++ w', r', ?_, by simp⟩
          show ignoreBlanks fuel (w' ++ r') (line + w.count 10) = _
          rw [h, List.count_append, Nat.add_assoc]

-- ` /*a⏎*/ //b⏎ x`: the hypotheses hold and two lines are counted.
example : ignoreBlanks 30 ([32, 47, 42, 97, 10, 42, 47, 32, 47, 47, 98, 10, 32] ++ [120]) 1 =
    some (.ok ([120], 3)) := by decide +kernel
example : Blanks [32, 47, 42, 97, 10, 42, 47, 32, 47, 47, 98, 10, 32] [120] := by
  refine .blank (by simp) (.block (t := [97, 10]) ?_ (.blank (by simp) (.line (t := [98]) (by decide)
    (.inr ⟨[32], rfl⟩) (.blank (by simp) (.blank (by simp) (.nil _))))))
  decide
example : Stops [120] := ⟨by simp, by simp, by simp⟩
-- a stray end mark is reported
example : ignoreBlanks 30 [32, 42, 47] 1 = some .err := by decide +kernel

/-! ### C55: operators -/

/-- At every position of every text, a symbol operator is recognised exactly when it is the longest spelling,
among the symbol operators and `++`, `--`, that the text begins with there. -/
theorem operator_longest (s w : Bytes) (hw : w ∈ symbolOps) :
    isOperator s = .ok (some w) ↔ Longest (symbolOps ++ incDec) s w := by
  rw [← find_longest s w hw, isOperator_eq]
  cases hf : sym.find? (hit s) with
  | some r => simp
  | none =>
    obtain ⟨q, hq, -, -, hq3⟩ := firstRow_words s
    simp only [hq]
    have := ops_not_words w hw
    constructor
    · intro h
      injection h with h
      subst h
      rcases hq3 with h | h | h
      · cases h
      · injection h with h; exact absurd h this.1
      · injection h with h; exact absurd h this.2
    · rintro ⟨r, h, -⟩; cases h

/-- A word operator is recognised exactly when it stands there followed by a space or the end of a line. -/
theorem operator_word (s w : Bytes) (hw : w = instanceofStr ∨ w = inStr) :
    isOperator s = .ok (some w) ↔ WordAt w s := by
  rw [isOperator_eq]
  obtain ⟨q, hq, h1, h2, -⟩ := firstRow_words s
  cases hf : sym.find? (hit s) with
  | some r =>
    obtain ⟨g1, g2, -⟩ := find_first _ _ _ hf
    rw [hit_iff] at g1
    have hm : r.1 ∈ symbolOps := by rw [← sym_fst]; exact List.mem_map_of_mem g2
    have hnw := ops_not_words r.1 hm
    constructor
    · intro h
      injection h with h
      injection h with h
      rcases hw with rfl | rfl
      · exact absurd h hnw.1
      · exact absurd h hnw.2
    · intro h
      exfalso
      have : ∀ v ∈ symbolOps, ¬ v <+: s := by
        obtain ⟨c, t, rfl, -⟩ := h
        have hall : ∀ v ∈ symbolOps, v.head? ≠ some 105 ∧ v ≠ [] := by decide +kernel
        rintro v hv ⟨u, hu⟩
        have := hall v hv
        cases v with
        | nil => exact this.2 rfl
        | cons a v =>
          apply this.1
          rcases hw with rfl | rfl <;> simp [instanceofStr, inStr] at hu <;> simp [hu.1]
      exact this r.1 hm g1.1
  | none =>
    simp only [hq]
    rcases hw with rfl | rfl
    · rw [← h1]; simp
    · rw [← h2]; simp

/-- The recogniser never reads outside the text, and knows no other operators. -/
theorem operator_total (s : Bytes) : ∃ o, isOperator s = .ok o ∧
    ∀ w, o = some w → w ∈ symbolOps ∨ w = instanceofStr ∨ w = inStr := by
  rw [isOperator_eq]
  cases hf : sym.find? (hit s) with
  | some r =>
    refine ⟨_, rfl, ?_⟩
    rintro w ⟨⟩
    left
    rw [← sym_fst]
    exact List.mem_map_of_mem (find_first _ _ _ hf).2.1
  | none =>
    obtain ⟨q, hq, -, -, h3⟩ := firstRow_words s
    refine ⟨q, hq, ?_⟩
    rintro w rfl
    rcases h3 with h | h | h
    · cases h
    · injection h with h; exact .inr (.inl h)
    · injection h with h; exact .inr (.inr h)

/-- The full property would also ask that any blank may follow a word operator. A tab may not. -/
def WordsTakeAnyBlank : Prop :=
  ∀ (c : UInt8) (t : Bytes), (c = 32 ∨ c = 9 ∨ c = 10 ∨ c = 13) → isOperator (inStr ++ c :: t) = .ok (some inStr)

theorem operator_tab_violated : ¬ WordsTakeAnyBlank := by
  intro h
  have := h 9 [] (by simp)
  revert this
  decide +kernel

-- `>>=x` is `>>=`, `>=x` is `>=`, `++` is no binary operator, `<-` is `<`
example : isOperator [62, 62, 61, 120] = .ok (some [62, 62, 61]) := by decide +kernel
example : isOperator [62, 61, 120] = .ok (some [62, 61]) := by decide +kernel
example : isOperator [43, 43] = .ok none := by decide +kernel
example : isOperator [60, 45] = .ok (some [60]) := by decide +kernel
example : isOperator (inStr ++ [32, 120]) = .ok (some inStr) := by decide +kernel

/-! ### C56: keywords and identifiers -/

/-- The word `k` stands at the beginning of `s`: no identifier character follows it. -/
def WholeWord (k s : Bytes) : Prop := ∃ t, s = k ++ t ∧ ∀ c ∈ t.head?, ¬ NameChar c

/-- The property in full: a keyword is recognised exactly where it stands as a whole word. -/
def KeywordsAreWords : Prop := ∀ s k, k ∈ reserved → k ≠ spell "..." →
  (isKeyword s = .ok (some k) ↔ WholeWord k s)

/-- `return-1` and `else//...`: the keyword stands as a whole word but is not recognised. -/
theorem keyword_violated : ¬ KeywordsAreWords ∧
    isKeyword ([114, 101, 116, 117, 114, 110] ++ [45, 49]) = .ok none ∧
    isKeyword ([101, 108, 115, 101] ++ [47, 47]) = .ok none := by
  have h1 : isKeyword ([114, 101, 116, 117, 114, 110] ++ [45, 49]) = .ok none := by decide +kernel
  refine ⟨?_, h1, by decide +kernel⟩
  intro h
  have := (h ([114, 101, 116, 117, 114, 110] ++ [45, 49]) [114, 101, 116, 117, 114, 110] (by decide +kernel) (by decide +kernel)).2
    ⟨[45, 49], rfl, by simp [NameChar, NameStart]⟩
  rw [h1] at this
  cases this

theorem keyEnd_word {t : Bytes} (h : keyEnd t = true) : ∀ c ∈ t.head?, isIdChar c = false := by
  cases t with
  | nil => simp
  | cons c t =>
    simp only [List.head?_cons, Option.mem_def, Option.some.injEq]
    rintro _ rfl
    simp only [keyEnd, Bool.or_eq_true, decide_eq_true_eq] at h
    rcases h with h | h
    · have : ∀ c ∈ ([0, 32, 9, 46, 40, 41, 123, 125, 91, 93, 10, 13, 58, 59] : List UInt8), isIdChar c = false := by
        decide
      exact this c (by simpa [isSpecial] using h)
    · obtain ⟨u, hu⟩ := (two_prefix _ _ _).1 h
      injection hu with e _
      subst e
      decide

/-- A recognised keyword is a whole word of the text, and a keyword that is followed by the end of the text,
a blank, a dot, a bracket, a colon, a semicolon or a block comment is recognised. -/
theorem keyword_partial (s k : Bytes) :
    (isKeyword s = .ok (some k) → k ∈ reserved ∧ WholeWord k s) ∧
    (∀ t, k ∈ reserved → s = k ++ t →
      (t = [] ∨ (∃ c u, t = c :: u ∧ c ∈ ([32, 9, 46, 40, 41, 123, 125, 91, 93, 10, 13, 58, 59] : List UInt8)) ∨
        [47, 42] <+: t) → isKeyword s = .ok (some k)) := by
  rw [← spellings.1]
  constructor
  · intro h
    obtain ⟨h1, t, rfl, h2⟩ := (isKeyword_iff s k).1 h
    exact ⟨h1, t, rfl, fun c hc => (isIdChar_false c).1 (keyEnd_word h2 c hc)⟩
  · rintro t hk rfl ht
    rw [isKeyword_iff]
    refine ⟨hk, t, rfl, ?_⟩
    rcases ht with rfl | ⟨c, u, rfl, hc⟩ | ht
    · rfl
    · have : ∀ c ∈ ([32, 9, 46, 40, 41, 123, 125, 91, 93, 10, 13, 58, 59] : List UInt8), isSpecial c = true := by
        decide
      simp [keyEnd, this c hc]
    · cases t with
      | nil => simp at ht
      | cons c t => simp [keyEnd, ht]

/-- Keyword recognition never reads outside the text. -/
theorem keyword_safe (s : Bytes) : ∃ o, isKeyword s = .ok o := isKeyword_ok s

theorem takeName_eq (s : Bytes) : takeName s = (s.takeWhile (fun c => c != 0 && isIdChar c),
    s.dropWhile (fun c => c != 0 && isIdChar c)) := by
  induction s with
  | nil => rfl
  | cons c s ih =>
    rw [takeName]
    by_cases h : (c != 0 && isIdChar c) = true
    · simp only [h, if_true, ih, List.takeWhile_cons, List.dropWhile_cons]
    · simp only [h, List.takeWhile_cons, List.dropWhile_cons]; rfl

theorem identifier_eq (s n t : Bytes) (hz : NoNul s) :

    identifier s = .ok (n, t) ↔ s = n ++ t ∧ (∃ c r, n = c :: r ∧ isIdStart c = true ∧ ∀ x ∈ r, isIdChar x = true) ∧
      ∀ c ∈ t.head?, isIdChar c = false := by
  cases s with
  | nil =>
    constructor
    · intro h; simp [identifier] at h
    · rintro ⟨h, ⟨c, r, rfl, -⟩, -⟩; simp at h
  | cons c s =>
    have hc0 : c ≠ 0 := hz c (by simp)
    have hz' : NoNul s := fun x hx => hz x (by simp [hx])
    simp only [identifier, peek_zero, Out.bind_ok, adv_one, takeName_eq]
    have hcs : (c != 0) = true := by simpa using hc0
    rw [hcs, Bool.true_and]
    constructor
    · intro h
      by_cases hi : isIdStart c = true
      · rw [if_pos hi] at h
        injection h with h
        injection h with e1 e2
        refine ⟨?_, ⟨c, _, e1.symm, hi, ?_⟩, ?_⟩
        · rw [← e1, ← e2, List.cons_append, List.takeWhile_append_dropWhile]
        · intro x hx
          have := List.all_takeWhile (p := fun c : UInt8 => c != 0 && isIdChar c) (l := s)
          rw [List.all_eq_true] at this
          have := this x hx
          simp at this
          exact this.2
        · intro x hx
          rw [← e2] at hx
          have := List.head?_dropWhile_not (fun c : UInt8 => c != 0 && isIdChar c) s
          simp only [Option.mem_def] at hx
          rw [hx] at this
          have hx0 : x ≠ 0 := by
            have : x ∈ s.dropWhile (fun c => c != 0 && isIdChar c) := List.mem_of_mem_head? hx
            exact hz' x ((List.dropWhile_sublist _).subset this)
          simpa [hx0] using this
      · rw [if_neg hi] at h; cases h
    · rintro ⟨h, ⟨c', r, rfl, hi, hr⟩, ht⟩
      injection h with e1 e2
      subst e1 e2
      rw [if_pos hi]
      have hr' : ∀ x ∈ r, (x != 0 && isIdChar x) = true := by
        intro x hx
        have := hz' x (by simp [hx])
        simp [this, hr x hx]
      have h1 : (r ++ t).takeWhile (fun c => c != 0 && isIdChar c) = r := by
        rw [List.takeWhile_append_of_pos hr']
        cases t with
        | nil => simp
        | cons d t => simp [ht d rfl]
      have h2 : (r ++ t).dropWhile (fun c => c != 0 && isIdChar c) = t := by
        rw [List.dropWhile_append_of_pos hr']
        cases t with
        | nil => simp
        | cons d t => simp [ht d rfl]
      show Out.ok (c :: (r ++ t).takeWhile _, (r ++ t).dropWhile _) = _
      rw [h1, h2]

/-- An identifier is read exactly as the longest run of letters, digits and underscores that begins with a
letter or underscore. -/
theorem identifier_exact (s n t : Bytes) (hz : NoNul s) :
    identifier s = .ok (n, t) ↔ s = n ++ t ∧ (∃ c r, n = c :: r ∧ NameStart c ∧ ∀ x ∈ r, NameChar x) ∧
      ∀ c ∈ t.head?, ¬ NameChar c := by
  simp only [← isIdChar_iff, ← isIdStart_iff, Bool.not_eq_true]
  exact identifier_eq s n t hz

-- `while(`, `while/*`, `whiles`
example : isKeyword ([119, 104, 105, 108, 101] ++ [40]) = .ok (some [119, 104, 105, 108, 101]) := by decide +kernel
example : isKeyword ([119, 104, 105, 108, 101] ++ [47, 42]) = .ok (some [119, 104, 105, 108, 101]) := by decide +kernel
example : isKeyword ([119, 104, 105, 108, 101] ++ [115]) = .ok none := by decide +kernel
-- `a_1+`
example : identifier [97, 95, 49, 43] = .ok ([97, 95, 49], [43]) := by decide +kernel

/-! ### C57: numerals -/

/-- Reading a number at any position of any text succeeds exactly when a numeral stands there, followed by
something that may end it, and takes exactly that numeral. -/
theorem numeral_exact (fuel : Nat) (s v t : Bytes) (hf : s.length < fuel) :
    numeral fuel s = some (.ok (some (v, t))) ↔ s = v ++ t ∧ Numeral v ∧ EndsNumeral v t := by
  constructor
  · exact sound fuel s v t
  · rintro ⟨rfl, hv, ht⟩
    exact accepts v t fuel hv ht (by simp at hf; omega)

/-- It always ends, and never reads outside the text. -/
theorem numeral_total (fuel : Nat) (s : Bytes) (hf : s.length < fuel) :
    numeral fuel s = some .err ∨ ∃ o, numeral fuel s = some (.ok o) := numeral_safe fuel s hf

/-- A text begins with at most one numeral that may end there. -/
theorem numeral_unique (v t v' t' : Bytes) (h : v ++ t = v' ++ t') (h1 : Numeral v) (h2 : EndsNumeral v t)
    (h3 : Numeral v') (h4 : EndsNumeral v' t') : v = v' ∧ t = t' := by
  have a := accepts v t (v.length + v'.length) h1 h2 (by omega)
  have b := accepts v' t' (v.length + v'.length) h3 h4 (by omega)
  rw [h, b] at a
  injection a with a
  injection a with a
  injection a with a
  injection a with e1 e2
  exact ⟨e1.symm, e2.symm⟩

-- `1.5e-3;`, `0x1F)`, `101b `, `12.`, and `.`, which is accepted although it has no digit
example : numeral 20 [49, 46, 53, 101, 45, 51, 59] = some (.ok (some ([49, 46, 53, 101, 45, 51], [59]))) := by
  decide +kernel
example : numeral 20 [48, 120, 49, 70, 41] = some (.ok (some ([48, 120, 49, 70], [41]))) := by decide +kernel
example : numeral 20 [49, 48, 49, 98, 32] = some (.ok (some ([49, 48, 49, 98], [32]))) := by decide +kernel
example : numeral 20 [46, 59] = some (.ok (some ([46], [59]))) := by decide +kernel
-- `1e5` is an error: an exponent needs a fraction
example : numeral 20 [49, 101, 53] = some .err := by decide +kernel
example : Numeral [49, 46, 53, 101, 45, 51] :=
  .exp (d := [49]) (f := [53]) (sg := [45]) (x := [51]) (by simp [Digit]) (by simp) (by simp [Digit]) (.inl rfl)
    (by simp) (by simp) (by simp [Digit])

end Verif.Lex
