import Verif.Module.JsonProps
/-
C133: comments in JSON texts.

Specification: `Gap` says what a gap between two parts of a text may consist of.
-/
namespace Verif.Json
open Verif
open Verif.Str (Bytes unescapeChars)

/-! ### Specification -/

/-- Blanks, line ends (LF or CR LF), `/* … */` (ended by the first `*/`) and `// …` up to the end of the line. -/
inductive Gap : Bytes → Prop where
  | nil : Gap []
  | blank {c : UInt8} {w : Bytes} : c = 32 ∨ c = 9 ∨ c = 10 → Gap w → Gap (c :: w)
  | crlf {w : Bytes} : Gap w → Gap (13 :: 10 :: w)
  | block {b w : Bytes} : ¬ [42, 47] <:+: b → Gap w → Gap (47 :: 42 :: (b ++ 42 :: 47 :: w))
  | line {b w : Bytes} : 10 ∉ b → 13 ∉ b → Gap w → Gap (47 :: 47 :: (b ++ 10 :: w))

/-! ### Lemmas -/

theorem suffix_tail {α : Type} {l m : List α} (h : l <:+ m) : l.tail <:+ m := (List.tail_suffix l).trans h

theorem advToChar_block (e : Bytes) : ∀ b : Bytes, ∃ b', b' <:+ b ∧ advToChar 42 (b ++ 42 :: e) = b' ++ 42 :: e ∧
    (b' = b → b = [] ∨ b.head? = some 10 ∨ b.head? = some 42)
  | [] => ⟨[], List.suffix_rfl, by simp [advToChar], fun _ => .inl rfl⟩
  | x :: b => by
    by_cases h1 : x = 10
    · exact ⟨x :: b, List.suffix_rfl, by simp [advToChar, h1], fun _ => .inr (.inl (by simp [h1]))⟩
    · by_cases h2 : x = 13
      · refine ⟨b, List.suffix_cons _ _, by subst h2; simp [advToChar], fun h => ?_⟩
        have := congrArg List.length h
        simp at this
      · by_cases h3 : x = 42
        · exact ⟨x :: b, List.suffix_rfl, by subst h3; simp [advToChar], fun _ => .inr (.inr (by simp [h3]))⟩
        · obtain ⟨b', hs, he, -⟩ := advToChar_block e b
          refine ⟨b', hs.trans (List.suffix_cons _ _), by rw [← he]; simp [advToChar, h1, h2, h3], fun h => ?_⟩
          have := congrArg List.length h
          have := hs.length_le
          simp at *
          omega

theorem isEnd_here (e : Bytes) : isEnd (42 :: 47 :: e) = true := by simp [isEnd]

theorem drop_head (c : UInt8) (hc : c ≠ 42) (e b : Bytes) : ∃ b', b' <:+ b ∧
    (if (b ++ 42 :: e).head? = some c then (b ++ 42 :: e).tail else b ++ 42 :: e) = b' ++ 42 :: e ∧
    (b' = b → b.head? ≠ some c) := by
  cases b with
  | nil =>
    refine ⟨[], List.suffix_rfl, ?_, fun _ => by simp⟩
    have : ¬ (42 : UInt8) = c := fun h => hc h.symm
    simp [this]
  | cons x b =>
    by_cases h : x = c
    · refine ⟨b, List.suffix_cons _ _, by simp [h], fun h' => ?_⟩
      have := congrArg List.length h'
      simp at this
    · exact ⟨x :: b, List.suffix_rfl, by simp [h], fun _ => by simp [h]⟩

/-- The end of a block comment is found. -/
theorem advEndLoop_block (r : Bytes) : ∀ (n : Nat) (b : Bytes), ¬ [42, 47] <:+: b → b.length < n →
    advEndLoop (n + 1) (b ++ 42 :: 47 :: r) = R.ok (42 :: 47 :: r)
  | 0, b, _, h => by omega
  | n + 1, b, hb, h => by
    have sub : ∀ {l : Bytes}, l <:+ b → ¬ [42, 47] <:+: l := fun hl hi => hb (hi.trans hl.isInfix)
    rw [advEndLoop]
    by_cases he : isEnd (b ++ 42 :: 47 :: r) = true
    · have : b = [] := by
        cases b with
        | nil => rfl
        | cons x b =>
          cases b with
          | nil => simp [isEnd] at he
          | cons y b =>
            simp [isEnd] at he
            obtain ⟨rfl, rfl⟩ := he
            exact absurd ⟨[], b, by simp⟩ hb
      subst this
      rw [if_pos (by simp [isEnd])]
      rfl
    · rw [if_neg (by simp [he])]
      obtain ⟨b1, s1, e1, p1⟩ := advToChar_block (47 :: r) b
      obtain ⟨b2, s2, e2, p2⟩ := drop_head 10 (by decide) (47 :: r) b1
      obtain ⟨b3, s3, e3, p3⟩ := drop_head 13 (by decide) (47 :: r) b2
      simp only [e1, e2, e3]
      have h3 : b3 <:+ b := s3.trans (s2.trans s1)
      cases b3 with
      | nil =>
        simp only [List.nil_append]
        rw [if_pos (by simp)]
        rw [advEndLoop, if_pos (by simp [isEnd])]
      | cons c b4 =>
        simp only [List.cons_append]
        have hl := h3.length_le
        simp only [List.length_cons] at hl
        by_cases hh : (b4 ++ 42 :: 47 :: r).head? = some 47
        · rw [if_pos hh]
          have hne : c :: b4 ≠ b := by
            intro hq
            subst hq
            have q2 : b2 = c :: b4 := s2.trans s1 |>.eq_of_length_le (by simpa using s3.length_le)
            have q1 : b1 = c :: b4 := s1.eq_of_length_le (by rw [← q2]; exact s2.length_le)
            subst q1
            rcases p1 rfl with h' | h' | h'
            · cases h'
            · exact p2 q2 h'
            · simp only [List.head?_cons, Option.some.injEq] at h'
              subst h'
              cases b4 with
              | nil => simp at hh
              | cons d b5 =>
                simp only [List.cons_append, List.head?_cons, Option.some.injEq] at hh
                subst hh
                exact hb ⟨[], b5, by simp⟩
          have hlt : (c :: b4).length < b.length := by
            rcases Nat.lt_or_ge (c :: b4).length b.length with h' | h'
            · exact h'
            · exact absurd (h3.eq_of_length_le h') hne
          have := advEndLoop_block r n (c :: b4) (sub h3) (by omega)
          simpa using this
        · rw [if_neg hh]
          exact advEndLoop_block r n b4 (sub ((List.suffix_cons _ _).trans h3)) (by omega)

theorem skipComment_block (b r : Bytes) (hb : ¬ [42, 47] <:+: b) :
    skipComment (47 :: 42 :: (b ++ 42 :: 47 :: r)) = R.ok r := by
  unfold skipComment
  have := advEndLoop_block r (b.length + 2 + r.length + 1) b hb (by omega)
  have hl : (47 :: 42 :: (b ++ 42 :: 47 :: r)).length = b.length + 2 + r.length + 1 + 1 := by simp; omega
  rw [hl]
  simp only [List.drop_succ_cons, List.drop_zero]
  rw [this]
  simp [R.bind, R.ok, isEnd]

theorem advToChar_line (r : Bytes) : ∀ b : Bytes, 10 ∉ b → 13 ∉ b → advToChar 10 (b ++ 10 :: r) = 10 :: r
  | [], _, _ => by simp [advToChar]
  | x :: b, h1, h2 => by
    simp only [List.mem_cons, not_or] at h1 h2
    simp [advToChar, Ne.symm h1.1, Ne.symm h2.1, advToChar_line r b h1.2 h2.2]

theorem dropWhile_slash (s : Bytes) : (47 :: s).dropWhile (fun c : UInt8 => c == 32 || c == 9) = 47 :: s := by
  rw [List.dropWhile_cons, if_neg (by decide)]

/-- From every gap the reader gets to what follows it. -/
theorem blanks_gap {r : Bytes} (hr : Hard r) {w : Bytes} (hw : Gap w) : ∀ n, w.length < n → blanks n (w ++ r) = R.ok r := by
  induction hw with
  | nil =>
    intro n h
    obtain ⟨m, rfl⟩ : ∃ m, n = m + 1 := ⟨n - 1, by simp at h; omega⟩
    exact blanks_hard hr m
  | @blank c w hc _ ih =>
    intro n h
    simp only [List.length_cons] at h
    rcases hc with hc | hc | hc
    · rw [List.cons_append, blanks_space (.inl hc)]; exact ih n (by omega)
    · rw [List.cons_append, blanks_space (.inr hc)]; exact ih n (by omega)
    · obtain ⟨m, rfl⟩ : ∃ m, n = m + 1 := ⟨n - 1, by omega⟩
      rw [List.cons_append, hc, blanks_line]; exact ih m (by omega)
  | @crlf w _ ih =>
    intro n h
    simp only [List.length_cons] at h
    obtain ⟨m, rfl⟩ : ∃ m, n = m + 1 := ⟨n - 1, by omega⟩
    rw [← ih m (by omega)]
    conv => lhs; unfold blanks
    have : (13 :: 10 :: w ++ r).dropWhile (fun c : UInt8 => c == 32 || c == 9) = 13 :: 10 :: (w ++ r) := by
      rw [List.cons_append, List.dropWhile_cons, if_neg (by decide)]; rfl
    rw [this]
    simp [isSingle, isStart, R.bind, R.ok]
  | @block b w hb hw ih =>
    intro n h
    simp only [List.length_cons, List.length_append] at h
    obtain ⟨m, rfl⟩ : ∃ m, n = m + 1 := ⟨n - 1, by omega⟩
    conv => lhs; unfold blanks
    have e : 47 :: 42 :: (b ++ 42 :: 47 :: w) ++ r = 47 :: 42 :: (b ++ 42 :: 47 :: (w ++ r)) := by simp
    rw [e, dropWhile_slash]
    have h1 : isSingle (47 :: 42 :: (b ++ 42 :: 47 :: (w ++ r))) = false := by simp [isSingle]
    have h2 : isStart (47 :: 42 :: (b ++ 42 :: 47 :: (w ++ r))) = true := by simp [isStart]
    simp only [h1, h2, skipComment_block b (w ++ r) hb, if_true, R.bind, R.ok, Bool.false_eq_true, if_false]
    change _ = R.ok r
    cases hw with
    | nil =>
      have hne : r.head? ≠ some 13 ∧ r.head? ≠ some 10 := by
        rcases hr with rfl | ⟨c, r', rfl, _, _, h3, h4, _⟩
        · simp
        · simp [h3, h4]
      simp only [List.nil_append, hne.1, hne.2, if_false]
      exact ih m (by simp; omega)
    | @blank c w hc hw =>
      simp only [List.length_cons] at h
      rcases hc with rfl | rfl | rfl
      · simpa using ih m (by simp; omega)
      · simpa using ih m (by simp; omega)
      · have := ih (m + 1) (by simp; omega)
        rw [List.cons_append, blanks_line] at this
        simpa using this
    | @crlf w hw =>
      simp only [List.length_cons] at h
      have := ih (m + 1) (by simp; omega)
      rw [List.cons_append, List.cons_append] at this
      rw [← this]
      conv => rhs; unfold blanks
      have e : (13 :: 10 :: (w ++ r)).dropWhile (fun c : UInt8 => c == 32 || c == 9) = 13 :: 10 :: (w ++ r) := by
        rw [List.dropWhile_cons, if_neg (by decide)]
      rw [e]
      simp [isSingle, isStart, R.bind, R.ok]
    | block _ _ => simpa using ih m (by simp at h ⊢; omega)
    | line _ _ _ => simpa using ih m (by simp at h ⊢; omega)
  | @line b w h1 h2 _ ih =>
    intro n h
    simp only [List.length_cons, List.length_append] at h
    obtain ⟨m, rfl⟩ : ∃ m, n = m + 1 := ⟨n - 1, by omega⟩
    conv => lhs; unfold blanks
    have e : 47 :: 47 :: (b ++ 10 :: w) ++ r = 47 :: 47 :: (b ++ 10 :: (w ++ r)) := by simp
    rw [e, dropWhile_slash]
    have hs : isSingle (47 :: 47 :: (b ++ 10 :: (w ++ r))) = true := by simp [isSingle]
    have ha : advToChar 10 (47 :: 47 :: (b ++ 10 :: (w ++ r))) = 10 :: (w ++ r) := by
      have := advToChar_line (w ++ r) (47 :: 47 :: b) (by simp [h1]) (by simp [h2])
      simpa using this
    simp only [hs, ha, if_true, R.bind, R.ok]
    change _ = R.ok r
    simpa using ih m (by omega)

/-- A round more changes nothing once the reader has ended. -/
def Le {α : Type} (x y : R α) : Prop := x = none ∨ x = y

theorem Le.refl {α : Type} (x : R α) : Le x x := .inr rfl

theorem Le.bind {α β : Type} {x y : R α} {f g : α → R β} (h : Le x y) (hf : ∀ a, Le (f a) (g a)) : Le (R.bind x f) (R.bind y g) := by
  rcases h with rfl | rfl
  · exact .inl rfl
  · cases x with
    | none => exact .inl rfl
    | some o => cases o with
      | ok a => exact hf a
      | err => exact .inr rfl
      | ub => exact .inr rfl

theorem Le.ite {α : Type} {p : Prop} [Decidable p] {a b c d : R α} (h1 : Le a b) (h2 : Le c d) :
    Le (if p then a else c) (if p then b else d) := by
  split
  · exact h1
  · exact h2

theorem read_le {F : Type} (N : Num F) : ∀ n, (∀ s, Le (read N n s) (read N (n + 1) s)) ∧
    (∀ s acc, Le (readElems N n s acc) (readElems N (n + 1) s acc)) ∧
    (∀ s acc, Le (readMembers N n s acc) (readMembers N (n + 1) s acc))
  | 0 => ⟨fun _ => .inl (by simp [read]), fun _ _ => .inl (by simp [readElems]), fun _ _ => .inl (by simp [readMembers])⟩
  | n + 1 => by
    obtain ⟨h1, h2, h3⟩ := read_le N n
    refine ⟨fun s => ?_, fun s acc => ?_, fun s acc => ?_⟩
    · rw [read.eq_def N (n + 1), read.eq_def N (n + 1 + 1)]
      exact .bind (.refl _) fun s => .ite (.bind (.refl _) fun s => .ite (.refl _) (h2 _ _))
        (.ite (.bind (.refl _) fun s => .ite (.refl _) (h3 _ _)) (.refl _))
    · rw [readElems.eq_def N (n + 1), readElems.eq_def N (n + 1 + 1)]
      exact .bind (h1 _) fun p => .bind (.refl _) fun s => .ite (.bind (.refl _) fun s => .ite (.refl _) (h2 _ _)) (.refl _)
    · rw [readMembers.eq_def N (n + 1), readMembers.eq_def N (n + 1 + 1)]
      exact .bind (.refl _) fun k => .ite (.bind (.refl _) fun s => .bind (h1 _) fun p => .bind (.refl _) fun s =>
        .ite (.bind (.refl _) fun s => .ite (.refl _) (h3 _ _)) (.refl _)) (.refl _)

theorem read_more {F : Type} (N : Num F) (s : Bytes) (n : Nat) (h : read N n s ≠ none) : ∀ k, read N (n + k) s = read N n s
  | 0 => rfl
  | k + 1 => by
    have ih := read_more N s n h k
    rcases (read_le N (n + k)).1 s with e | e
    · rw [ih] at e; exact absurd e h
    · rw [← Nat.add_assoc, ← e, ih]

/-! ### Theorems -/

/-- The reader passes any gap, of any length and mixture, up to what follows it. -/
theorem gap_skipped (w r : Bytes) (hw : Gap w) (hr : Hard r) : skip (w ++ r) = R.ok r :=
  blanks_gap hr hw _ (by rw [List.length_append]; omega)

/-- The property in full for texts without backslash: comments and blanks before and behind a value do not matter. -/
def CommentsIgnored {F : Type} (N : Num F) : Prop :=
  ∀ w w' t : Bytes, Gap w → Gap w' → t ≠ [] → (∀ c ∈ w ++ t ++ w', c ≠ 92) → deserialize N (w ++ t ++ w') = deserialize N t

/-- Comments and blanks before the value, whatever is written behind them: any text that begins with something else reads as if they were not
there (value, error or undefined behaviour). What is missing for the full claim: comments behind the value, which count as part of a number. -/
theorem comments_before_partial {F : Type} (N : Num F) (w r : Bytes) (hw : Gap w) (hr : Hard r) (hb : ∀ c ∈ w ++ r, c ≠ 92) :
    deserialize N (w ++ r) = deserialize N r := by
  have hbr : ∀ c ∈ r, c ≠ 92 := fun c hc => hb c (by simp [hc])
  unfold deserialize
  rw [unescape_id _ hb, unescape_id _ hbr]
  have e : ∀ n, read N (n + 1) (w ++ r) = read N (n + 1) r := by
    intro n
    rw [read.eq_def N (n + 1), read.eq_def N (n + 1)]
    simp only [gap_skipped w r hw hr, skip_hard hr]
  have hd : read N (fuel r) r ≠ none := by
    obtain ⟨o, ho, _⟩ := (read_done N (fuel r)).1 r (by unfold fuel; omega)
    rw [ho]; intro h; cases h
  have hf : fuel (w ++ r) = fuel r + 2 * w.length := by
    unfold fuel; rw [List.length_append]; omega
  have h1 : fuel (w ++ r) = (2 * (w ++ r).length + 1) + 1 := rfl
  rw [h1, e, ← h1, hf, read_more N r (fuel r) hd]

/-- A comment directly behind a number makes the number a text that is no number, and the value is `undefined`: `[1/**/]`. -/
theorem comment_number_violated {F : Type} (N : Num F) (f : F) (h1 : N.parse [49] = some f) (h2 : N.parse [49, 47, 42, 42, 47] = none) :
    deserialize N [91, 49, 47, 42, 42, 47, 93] = R.ok (.arr [.undef]) ∧ deserialize N [91, 49, 93] = R.ok (.arr [.float f]) := by
  constructor
  · have : deserialize N [91, 49, 47, 42, 42, 47, 93] =
        R.ok (.arr [match N.parse [49, 47, 42, 42, 47] with | some f => .float f | none => .undef]) := rfl
    rw [this, h2]
  · have : deserialize N [91, 49, 93] = R.ok (.arr [match N.parse [49] with | some f => .float f | none => .undef]) := rfl
    rw [this, h1]

theorem comments_violated_of {F : Type} (N : Num F) (f : F) (h1 : N.parse [49] = some f) (h2 : N.parse [49, 47, 42, 42, 47] = none) :
    ¬ CommentsIgnored N := by
  intro h
  have := h [] [47, 42, 42, 47, 10] [49] .nil (.block (b := []) (by simp) (.blank (by simp) .nil)) (by simp)
    (by decide)
  have e1 : deserialize N ([] ++ [49] ++ [47, 42, 42, 47, 10]) =
      R.ok (match N.parse [49, 47, 42, 42, 47] with | some f => .float f | none => .undef) := rfl
  rw [e1, h2] at this
  have e2 : deserialize N ([49] : Bytes) = R.ok (match N.parse [49] with | some f => .float f | none => .undef) := rfl
  rw [e2, h1] at this
  cases this

/-- With the conversions of the engine. -/
theorem comments_violated : ¬ CommentsIgnored num :=
  comments_violated_of num 0x3FF0000000000000 (by decide +kernel) (by decide +kernel)

/-! ### Cases that meet the hypotheses -/

-- the conversions of the engine
example : num.parse [49] = some 0x3FF0000000000000 ∧ num.parse [49, 47, 42, 42, 47] = none := by decide +kernel
-- `/* a / * b */ // c⏎ [1]`
example : Gap [47, 42, 32, 97, 32, 47, 32, 42, 32, 98, 32, 42, 47, 32, 47, 47, 32, 99, 10] :=
  .block (b := [32, 97, 32, 47, 32, 42, 32, 98, 32]) (by decide) (.blank (by simp) (.line (b := [32, 99]) (by decide) (by decide) .nil))
example : Hard [91, 49, 93] := .inr ⟨91, _, rfl, by decide⟩

/-! ### C49: the text for an object that contains itself -/

/-- It is `ScriptObject@` and the name of its type. -/
theorem self_text (name : Bytes) :
    selfText name = "ScriptObject@".toList.map (fun c => c.toNat.toUInt8) ++ name := by
  have : "ScriptObject@".toList.map (fun c => c.toNat.toUInt8) = [83, 99, 114, 105, 112, 116, 79, 98, 106, 101, 99, 116, 64] := by
    decide +kernel
  rw [this]; rfl

end Verif.Json
