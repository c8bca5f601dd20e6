import Verif.Compiler.LexBlanks
/-
Helper lemmas on the token recognisers (operators, keywords, delimiters).
-/
namespace Verif.Lex
open Verif Verif.Str

/-! ### Specification -/

/-- Spellings of the binary, assignment and ternary operators written with symbols:
`= += -= *= /= %= ^= &= |= <<= >>= ? : && || == != >= <= > < + - ^ * & / % | << >>`. -/
def symbolOps : List Bytes := [[61], [43, 61], [45, 61], [42, 61], [47, 61], [37, 61], [94, 61], [38, 61],
  [124, 61], [60, 60, 61], [62, 62, 61], [63], [58], [38, 38], [124, 124], [61, 61], [33, 61], [62, 61],
  [60, 61], [62], [60], [43], [45], [94], [42], [38], [47], [37], [124], [60, 60], [62, 62]]

/-- `++` and `--`. -/
def incDec : List Bytes := [[43, 43], [45, 45]]

/-- `w` is the longest spelling of the list that the text `s` begins with. -/
def Longest (l : List Bytes) (s w : Bytes) : Prop :=
  w ∈ l ∧ w <+: s ∧ ∀ v ∈ l, v <+: s → v.length ≤ w.length

/-- Operator written as the word `w`: it is followed by a space or the end of a line. -/
def WordAt (w s : Bytes) : Prop := ∃ c t, s = w ++ c :: t ∧ (c = 32 ∨ c = 13 ∨ c = 10)

/-! ### Operators -/

/-- The head of the text: at most three characters matter. -/
theorem prefix_one (a : UInt8) (c : UInt8) (s : Bytes) : [a] <+: c :: s ↔ c = a := by
  simp [eq_comm]

theorem startsWith_iff (w s : Bytes) : startsWith w s = true ↔ w <+: s := by
  simp [startsWith]

theorem wordOp_iff (w s : Bytes) : ∃ b, wordOp w s = .ok b ∧ (b = true ↔ WordAt w s) := by
  unfold wordOp
  by_cases h : startsWith w s = true
  · rw [if_pos h]
    rw [startsWith_iff] at h
    obtain ⟨t, rfl⟩ := h
    cases t with
    | nil =>
      have : peek (w ++ []) w.length = .ok 0 := by simp [peek]
      rw [this]
      refine ⟨_, rfl, ?_⟩
      constructor
      · intro h; exact absurd h (by decide)
      · rintro ⟨c, t, h, -⟩
        have := congrArg List.length h
        simp at this
    | cons c t =>
      have : peek (w ++ c :: t) w.length = .ok c := by simp [peek]
      rw [this]
      refine ⟨_, rfl, ?_⟩
      constructor
      · intro h
        refine ⟨c, t, rfl, ?_⟩
        simpa [or_assoc] using h
      · rintro ⟨c', t', h, hc⟩
        have := List.append_cancel_left h
        injection this with e _
        subst e
        simpa [or_assoc] using hc
  · rw [if_neg h]
    refine ⟨_, rfl, by simp, ?_⟩
    rintro ⟨c, t, rfl, -⟩
    exact absurd ((startsWith_iff _ _).2 ⟨c :: t, rfl⟩) h

/-- A recogniser: the characters of `w` from index `k` on. -/
def eqs : Nat → Bytes → List Test
  | _, [] => []
  | k, c :: w => .eq k c :: eqs (k + 1) w

/-- The recogniser of spelling `w` not followed by one of `bs`. -/
def patOf (w bs : Bytes) : List Test := eqs 0 w ++ bs.map (.ne w.length)

theorem peek_at (u s : Bytes) : peek (u ++ s) u.length = .ok (s.headD 0) := by
  cases s with
  | nil => simp [peek]
  | cons c s => simp [peek]

theorem run_eqs (ts : List Test) : ∀ (w u s : Bytes), NoNul w →
    runPat (eqs u.length w ++ ts) (u ++ s) =
      if w <+: s then runPat ts (u ++ s) else .ok false
  | [], u, s, _ => by simp [eqs]
  | c :: w, u, s, hw => by
    have hc : c ≠ 0 := hw c (by simp)
    rw [eqs, List.cons_append, runPat, peek_at]
    simp only [Out.bind_ok]
    cases s with
    | nil => simp [Ne.symm hc]
    | cons d s =>
      simp only [List.headD_cons]
      by_cases h : d = c
      · subst h
        have := run_eqs ts w (u ++ [d]) s (fun e he => hw e (by simp [he]))
        simp only [List.length_append, List.length_singleton, List.append_assoc, List.singleton_append] at this
        simp [this]
      · simp [h, Ne.symm h]

theorem run_nes (w s : Bytes) : ∀ bs : Bytes, NoNul bs →
    runPat (bs.map (.ne w.length)) (w ++ s) = .ok (bs.all fun b => !(w ++ [b]).isPrefixOf (w ++ s))
  | [], _ => rfl
  | b :: bs, hb => by
    have hb0 : b ≠ 0 := hb b (by simp)
    rw [List.map_cons, runPat, peek_at]
    simp only [Out.bind_ok]
    have ih := run_nes w s bs (fun e he => hb e (by simp [he]))
    have key : (w ++ [b]).isPrefixOf (w ++ s) = decide (s.headD 0 = b) := by
      rw [Bool.eq_iff_iff]
      simp only [List.isPrefixOf_iff_prefix, decide_eq_true_eq, List.prefix_append_right_inj]
      cases s with
      | nil => simp [Ne.symm hb0]
      | cons d s => simp [eq_comm]
    rw [List.all_cons, key]
    rw [ih]
    by_cases h : s.headD 0 = b
    · rw [if_pos h, decide_eq_true h]; rfl
    · rw [if_neg h, decide_eq_false h]; rfl

/-- Meaning of a recogniser. -/
def hit (s : Bytes) (r : Bytes × Bytes) : Bool :=
  r.1.isPrefixOf s && r.2.all fun b => !(r.1 ++ [b]).isPrefixOf s

theorem run_pat (w bs s : Bytes) (hw : NoNul w) (hb : NoNul bs) :
    runPat (patOf w bs) s = .ok (hit s (w, bs)) := by
  have := run_eqs (bs.map (.ne w.length)) w [] s hw
  simp only [List.length_nil, List.nil_append] at this
  unfold patOf
  rw [this]
  by_cases h : w <+: s
  · rw [if_pos h]
    obtain ⟨t, rfl⟩ := h
    rw [run_nes w t bs hb]
    have : w.isPrefixOf (w ++ t) = true := by simp
    simp [hit, this]
  · rw [if_neg h]
    have : w.isPrefixOf s = false := by simpa [← List.isPrefixOf_iff_prefix] using h
    simp [hit, this]

/-- The operator table: spelling, characters that must not follow. -/
def sym : List (Bytes × Bytes) := [
  ([61], [61]), ([43, 61], []), ([45, 61], []), ([42, 61], []), ([47, 61], []), ([37, 61], []), ([94, 61], []),
  ([38, 61], []), ([124, 61], []), ([60, 60, 61], []), ([62, 62, 61], []), ([63], []), ([58], []),
  ([38, 38], []), ([124, 124], []), ([61, 61], []), ([33, 61], []), ([62, 61], []), ([60, 61], []),
  ([62], [62]), ([60], [60]), ([43], [43]), ([45], [45]), ([94], [61]), ([42], [61]), ([38], [38, 61]),
  ([47], [61]), ([37], [61]), ([124], [124, 61]), ([60, 60], [61]), ([62, 62], [61])]

theorem symbolRows_eq : symbolRows = sym.map fun r => (r.1, patOf r.1 r.2) := by decide +kernel

theorem sym_noNul : ∀ r ∈ sym, NoNul r.1 ∧ NoNul r.2 := by
  have : ∀ r ∈ sym, (∀ c ∈ r.1, c ≠ 0) ∧ (∀ c ∈ r.2, c ≠ 0) := by decide +kernel
  exact this

theorem sym_fst : sym.map (·.1) = symbolOps := by decide +kernel

theorem first_sym (rest : List Row) (s : Bytes) : ∀ l : List (Bytes × Bytes), (∀ r ∈ l, NoNul r.1 ∧ NoNul r.2) →
    firstRow (l.map (fun r => ⟨r.1, runPat (patOf r.1 r.2)⟩) ++ rest) s =
      match l.find? (hit s) with
      | some r => .ok (some r.1)
      | none => firstRow rest s
  | [], _ => by simp
  | r :: l, h => by
    have h0 := h r (by simp)
    rw [List.map_cons, List.cons_append, firstRow]
    simp only [run_pat _ _ _ h0.1 h0.2, Out.bind_ok, List.find?_cons]
    cases hh : hit s (r.1, r.2) with
    | true => simp
    | false =>
      simp only [Bool.false_eq_true, if_false]
      exact first_sym rest s l (fun r hr => h r (by simp [hr]))

/-- The operator recogniser, in terms of the table. -/
theorem isOperator_eq (s : Bytes) : isOperator s =
    match sym.find? (hit s) with
    | some r => .ok (some r.1)
    | none => firstRow [⟨instanceofStr, wordOp instanceofStr⟩, ⟨inStr, wordOp inStr⟩] s := by
  have := first_sym [⟨instanceofStr, wordOp instanceofStr⟩, ⟨inStr, wordOp inStr⟩] s sym sym_noNul
  rw [← this]
  unfold isOperator operatorRows
  rw [symbolRows_eq, List.map_map]
  rfl

/-- What the table guarantees: a longer spelling is ruled out by the test of the shorter one or stands
earlier without a condition. -/
theorem sym_longer : ∀ r ∈ sym, ∀ v ∈ symbolOps ++ incDec, r.1 <+: v → v.length ≤ r.1.length ∨
    (∃ b ∈ r.2, r.1 ++ [b] <+: v) ∨ ∃ q ∈ sym.takeWhile (fun q => decide (q ≠ r)), q = (v, []) := by
  decide +kernel

theorem sym_next : ∀ r ∈ sym, ∀ b ∈ r.2, r.1 ++ [b] ∈ symbolOps ++ incDec := by decide +kernel

theorem sym_shorter : ∀ r ∈ sym, ∀ q ∈ sym.takeWhile (fun q => decide (q ≠ r)), q.1 <+: r.1 →
    ∃ b ∈ q.2, q.1 ++ [b] <+: r.1 := by decide +kernel

theorem sym_inj : ∀ r ∈ sym, ∀ q ∈ sym, r.1 = q.1 → r = q := by decide +kernel

theorem find_first {α : Type} [DecidableEq α] (p : α → Bool) : ∀ (l : List α) (r : α), l.find? p = some r →
    p r = true ∧ r ∈ l ∧ ∀ q ∈ l.takeWhile (fun q => decide (q ≠ r)), p q = false
  | [], _, h => by simp at h
  | a :: l, r, h => by
    rw [List.find?_cons] at h
    cases hp : p a with
    | true =>
      rw [hp] at h
      simp at h
      subst h
      simp [hp]
    | false =>
      rw [hp] at h
      simp at h
      obtain ⟨h1, h2, h3⟩ := find_first p l r (by simpa using h)
      refine ⟨h1, by simp [h2], ?_⟩
      intro q hq
      rw [List.takeWhile_cons] at hq
      split at hq
      · rcases List.mem_cons.1 hq with rfl | hq
        · exact hp
        · exact h3 q hq
      · simp at hq

theorem find_of_first {α : Type} [DecidableEq α] (p : α → Bool) : ∀ (l : List α) (r : α), r ∈ l → p r = true →
    (∀ q ∈ l.takeWhile (fun q => decide (q ≠ r)), p q = false) → l.find? p = some r
  | [], _, h, _, _ => by simp at h
  | a :: l, r, h, hp, hq => by
    rw [List.find?_cons]
    by_cases e : a = r
    · subst e; simp [hp]
    · have h' : r ∈ l := by
        rcases List.mem_cons.1 h with h | h
        · exact absurd h.symm e
        · exact h
      rw [List.takeWhile_cons] at hq
      simp only [ne_eq, e, not_false_eq_true, decide_true, if_true] at hq
      rw [hq a (by simp)]
      simp only
      exact find_of_first p l r h' hp (fun q hq' => hq q (List.mem_cons_of_mem _ hq'))

theorem hit_iff (s : Bytes) (r : Bytes × Bytes) :
    hit s r = true ↔ r.1 <+: s ∧ ∀ b ∈ r.2, ¬ r.1 ++ [b] <+: s := by
  simp [hit, List.isPrefixOf_iff_prefix, ← Bool.not_eq_true]

/-- The symbol operator found is the longest one. -/
theorem find_longest (s w : Bytes) (hw : w ∈ symbolOps) :
    (∃ r, sym.find? (hit s) = some r ∧ r.1 = w) ↔ Longest (symbolOps ++ incDec) s w := by
  constructor
  · rintro ⟨r, hr, rfl⟩
    obtain ⟨h1, h2, h3⟩ := find_first _ _ _ hr
    rw [hit_iff] at h1
    refine ⟨by simp [hw], h1.1, ?_⟩
    intro v hv hvs
    rcases Nat.le_total v.length r.1.length with h | h
    · exact h
    have hp : r.1 <+: v := List.prefix_of_prefix_length_le h1.1 hvs h
    rcases sym_longer r h2 v hv hp with h | ⟨b, hb, hbv⟩ | ⟨q, hq, rfl⟩
    · exact h
    · exact absurd (hbv.trans hvs) (h1.2 b hb)
    · have := h3 _ hq
      rw [← Bool.not_eq_true, hit_iff] at this
      exact absurd ⟨hvs, by simp⟩ this
  · rintro ⟨-, hs, hl⟩
    rw [← sym_fst] at hw
    obtain ⟨r, hr, rfl⟩ := List.mem_map.1 hw
    refine ⟨r, find_of_first _ _ _ hr ?_ ?_, rfl⟩
    · rw [hit_iff]
      refine ⟨hs, fun b hb h => ?_⟩
      have := hl _ (sym_next r hr b hb) h
      simp at this
      omega
    · intro q hq
      rw [← Bool.not_eq_true, hit_iff]
      rintro ⟨h1, h2⟩
      have hqs : q ∈ sym := (List.takeWhile_sublist _).subset hq
      have hlen := hl q.1 (by
        rw [List.mem_append]; left
        rw [← sym_fst]; exact List.mem_map_of_mem hqs) h1
      have hp : q.1 <+: r.1 := List.prefix_of_prefix_length_le h1 hs hlen
      obtain ⟨b, hb, hbr⟩ := sym_shorter r hr q hq hp
      exact h2 b hb (hbr.trans hs)

/-! ### Delimiters -/

/-- Text that ends the symbol before it: the end of the source, an operator, `++` or `--`, a separator, a
blank, a dot, a brace or a quote. -/
def delim : Bytes → Bool
  | [] => true
  | c :: r => [61, 43, 45, 42, 47, 37, 94, 38, 124, 60, 62, 63, 58, 44, 59, 40, 41, 91, 93, 123, 125, 0, 32, 9,
      46, 10, 13, 34].contains c || (c == 33 && r.head? == some 61)

theorem exists_longest (s : Bytes) : ∀ l : List Bytes, (∃ w ∈ l, w <+: s) → ∃ w, Longest l s w
  | [], h => by simp at h
  | a :: l, h => by
    by_cases hl : ∃ w ∈ l, w <+: s
    · obtain ⟨w, h1, h2, h3⟩ := exists_longest s l hl
      by_cases ha : a <+: s ∧ w.length < a.length
      · refine ⟨a, by simp, ha.1, ?_⟩
        intro v hv hvs
        rcases List.mem_cons.1 hv with rfl | hv
        · exact Nat.le_refl _
        · have := h3 v hv hvs
          omega
      · refine ⟨w, by simp [h1], h2, ?_⟩
        intro v hv hvs
        rcases List.mem_cons.1 hv with rfl | hv
        · apply Nat.le_of_not_lt
          intro hlt
          exact ha ⟨hvs, hlt⟩
        · exact h3 v hv hvs
    · obtain ⟨w, hw, hws⟩ := h
      rcases List.mem_cons.1 hw with rfl | hw
      · refine ⟨w, by simp, hws, ?_⟩
        intro v hv hvs
        rcases List.mem_cons.1 hv with rfl | hv
        · exact Nat.le_refl _
        · exact absurd ⟨v, hv, hvs⟩ hl
      · exact absurd ⟨w, hw, hws⟩ hl

theorem firstRow_words (s : Bytes) :
    ∃ o, firstRow [⟨instanceofStr, wordOp instanceofStr⟩, ⟨inStr, wordOp inStr⟩] s = .ok o ∧
      (o = some instanceofStr ↔ WordAt instanceofStr s) ∧ (o = some inStr ↔ WordAt inStr s) ∧
      (o = none ∨ o = some instanceofStr ∨ o = some inStr) := by
  obtain ⟨b1, e1, h1⟩ := wordOp_iff instanceofStr s
  obtain ⟨b2, e2, h2⟩ := wordOp_iff inStr s
  have hne : instanceofStr ≠ inStr := by decide
  have hno : WordAt instanceofStr s → ¬ WordAt inStr s := by
    rintro ⟨c, t, rfl, -⟩ ⟨c', t', h, h'⟩
    simp [instanceofStr, inStr] at h
    rcases h' with rfl | rfl | rfl <;> simp at h
  simp only [firstRow, e1, e2, Out.bind_ok]
  cases b1 with
  | true =>
    refine ⟨_, rfl, ?_, ?_, by simp⟩
    · simp [← h1]
    · constructor
      · intro h; injection h with h; exact absurd h hne
      · intro h; exact absurd h (hno (h1.1 rfl))
  | false =>
    simp only [Bool.false_eq_true, false_iff] at h1
    cases b2 with
    | true => refine ⟨_, rfl, by simp [h1, Ne.symm hne], by simp [← h2], by simp⟩
    | false =>
      simp only [Bool.false_eq_true, false_iff] at h2
      exact ⟨_, rfl, by simp [h1], by simp [h2], by simp⟩

theorem ops_not_words : ∀ w ∈ symbolOps, w ≠ instanceofStr ∧ w ≠ inStr := by decide +kernel

theorem delim_ops : ∀ w ∈ symbolOps ++ incDec, delim w = true := by decide +kernel

theorem delim_prefix {w s : Bytes} (hw : w ≠ []) (h : w <+: s) (hd : delim w = true) : delim s = true := by
  obtain ⟨t, rfl⟩ := h
  match w with
  | [] => exact absurd rfl hw
  | [c] =>
    simp only [delim, List.head?_nil, Bool.or_eq_true] at hd
    simp only [List.singleton_append, delim, Bool.or_eq_true]
    rcases hd with h | h
    · exact .inl h
    · simp at h
  | c :: d :: w => simpa [delim] using hd

theorem isPost_some (s : Bytes) : ∃ o, isPost s = .ok o ∧
    (o.isSome = true ↔ [45, 45] <+: s ∨ [43, 43] <+: s ∨ [45, 43] <+: s ∨ [43, 45] <+: s) := by
  have e1 := pat_two 45 45 (by decide) (by decide) s
  have e2 := pat_two 43 43 (by decide) (by decide) s
  have e3 := pat_two 45 43 (by decide) (by decide) s
  have e4 := pat_two 43 45 (by decide) (by decide) s
  simp only [isPost, postRows, firstRow, decIncInvalid, e1, e2, e3, e4, Out.bind_ok]
  by_cases h1 : [45, 45] <+: s
  · exact ⟨_, by simp [h1]; rfl, by simp [h1]⟩
  by_cases h2 : [43, 43] <+: s
  · exact ⟨_, by simp [h1, h2]; rfl, by simp [h2]⟩
  by_cases h3 : [45, 43] <+: s
  · exact ⟨_, by simp [h1, h2, h3]; rfl, by simp [h3]⟩
  by_cases h4 : [43, 45] <+: s
  · exact ⟨_, by simp [h1, h2, h3, h4]; rfl, by simp [h4]⟩
  exact ⟨none, by simp [h1, h2, h3, h4], by simp [h1, h2, h3, h4]⟩

/-- The delimiter test. -/
theorem endSymbol_eq (s : Bytes) : endSymbol s = .ok (delim s) := by
  obtain ⟨o, ho, hw⟩ := isPost_some s
  unfold endSymbol
  rw [isOperator_eq]
  cases hf : sym.find? (hit s) with
  | some r =>
    obtain ⟨h1, h2, -⟩ := find_first _ _ _ hf
    rw [hit_iff] at h1
    have hm : r.1 ∈ symbolOps := by rw [← sym_fst]; exact List.mem_map_of_mem h2
    have hnw := ops_not_words r.1 hm
    have hd := delim_prefix (by rintro e; rw [e] at hm; exact absurd hm (by decide +kernel)) h1.1
      (delim_ops r.1 (by simp [hm]))
    simp [hnw, hd]
  | none =>
    obtain ⟨q, hq, -, -, hq3⟩ := firstRow_words s
    simp only [hq, Out.bind_ok]
    have hcond : (q.isSome && q != some instanceofStr && q != some inStr) = false := by
      rcases hq3 with rfl | rfl | rfl <;> simp
    rw [hcond, ho]
    simp only [Bool.false_eq_true, if_false, Out.bind_ok]
    cases hs : o.isSome with
    | true =>
      rw [hs] at hw
      have : delim s = true := by
        rcases hw.1 rfl with h | h | h | h <;> exact delim_prefix (by simp) h (by decide)
      simp [this]
    | false =>
      rw [hs] at hw
      simp only [Bool.false_eq_true, false_iff, not_or] at hw
      simp only [Bool.false_eq_true, if_false]
      have hno : ¬ ∃ w ∈ symbolOps ++ incDec, w <+: s := by
        intro h
        obtain ⟨w, hw'⟩ := exists_longest s _ h
        rcases List.mem_append.1 hw'.1 with hm | hm
        · obtain ⟨r, hr, -⟩ := (find_longest s w hm).2 hw'
          rw [hf] at hr
          cases hr
        · simp [incDec] at hm
          rcases hm with rfl | rfl
          · exact hw.2.1 hw'.2.1
          · exact hw.1 hw'.2.1
      cases s with
      | nil => rfl
      | cons c r =>
        simp only [peek_zero, Out.bind_ok]
        congr 1
        have h1 : ∀ a, [a] ∈ symbolOps ++ incDec → c ≠ a := by
          rintro a ha rfl
          exact hno ⟨[c], ha, by simp⟩
        have h61 := h1 61 (by decide); have h43 := h1 43 (by decide); have h45 := h1 45 (by decide)
        have h42 := h1 42 (by decide); have h47 := h1 47 (by decide); have h37 := h1 37 (by decide)
        have h94 := h1 94 (by decide); have h38 := h1 38 (by decide); have h124 := h1 124 (by decide)
        have h60 := h1 60 (by decide); have h62 := h1 62 (by decide); have h63 := h1 63 (by decide)
        have h58 := h1 58 (by decide)
        have h33 : (c == 33 && r.head? == some 61) = false := by
          rw [← Bool.not_eq_true]
          intro h
          simp at h
          obtain ⟨rfl, h⟩ := h
          cases r with
          | nil => simp at h
          | cons d r =>
            simp at h
            subst h
            exact hno ⟨[33, 61], by decide, by simp⟩
        rw [delim, h33]
        rw [Bool.eq_iff_iff]
        simp [isSeparator, isSpecial, h61, h43, h45, h42, h47, h37, h94, h38, h124, h60, h62, h63, h58]
        grind

/-! ### Keywords -/

/-- What the compiler accepts behind a keyword. -/
def keyEnd (t : Bytes) : Bool :=
  match t with
  | [] => true
  | c :: _ => isSpecial c || decide ([47, 42] <+: t)

theorem wordEnd_eq (t : Bytes) : wordEnd t = .ok (keyEnd t) := by
  cases t with
  | nil => rfl
  | cons c t =>
    simp only [wordEnd, peek_zero, Out.bind_ok, isOpen_eq, keyEnd]
    cases isSpecial c <;> simp

theorem firstKeyword_eq (s : Bytes) : ∀ ks : List Bytes,
    firstKeyword ks s = .ok (ks.find? fun k => k.isPrefixOf s && keyEnd (s.drop k.length))
  | [] => rfl
  | k :: ks => by
    rw [firstKeyword, List.find?_cons]
    by_cases h : startsWith k s = true
    · have hl : k.length ≤ s.length := by
        rw [startsWith_iff] at h
        exact h.length_le
      have hp : k.isPrefixOf s = true := h
      rw [if_pos h]
      simp only [adv, hl, if_true, Out.bind_ok, wordEnd_eq, hp, Bool.true_and]
      cases keyEnd (s.drop k.length) with
      | true => simp
      | false => simp [firstKeyword_eq s ks]
    · have hp : k.isPrefixOf s = false := by rw [← Bool.not_eq_true]; exact h
      rw [if_neg h, hp, firstKeyword_eq s ks]
      simp

theorem keyword_prefix : ∀ k ∈ keywords, ∀ q ∈ keywords, k <+: q → k = q := by decide +kernel

theorem isKeyword_iff (s k : Bytes) :
    isKeyword s = .ok (some k) ↔ k ∈ keywords ∧ ∃ t, s = k ++ t ∧ keyEnd t = true := by
  rw [isKeyword, firstKeyword_eq]
  constructor
  · intro h
    injection h with h
    have h1 := List.find?_some h
    have h2 := List.mem_of_find?_eq_some h
    simp only [Bool.and_eq_true, List.isPrefixOf_iff_prefix] at h1
    obtain ⟨⟨t, rfl⟩, h3⟩ := h1
    exact ⟨h2, t, rfl, by simpa using h3⟩
  · rintro ⟨hk, t, rfl, ht⟩
    congr 1
    cases hf : keywords.find? fun k' => k'.isPrefixOf (k ++ t) && keyEnd ((k ++ t).drop k'.length) with
    | none =>
      rw [List.find?_eq_none] at hf
      have := hf k hk
      simp [ht] at this
    | some q =>
      have h1 := List.find?_some hf
      have h2 := List.mem_of_find?_eq_some hf
      simp only [Bool.and_eq_true, List.isPrefixOf_iff_prefix] at h1
      congr 1
      rcases Nat.le_total q.length k.length with hl | hl
      · exact keyword_prefix q h2 k hk (List.prefix_of_prefix_length_le h1.1 ⟨t, rfl⟩ hl)
      · exact (keyword_prefix k hk q h2 (List.prefix_of_prefix_length_le ⟨t, rfl⟩ h1.1 hl)).symm

theorem isKeyword_ok (s : Bytes) : ∃ o, isKeyword s = .ok o := ⟨_, firstKeyword_eq s _⟩

end Verif.Lex
