import Verif.Compiler.Lexer
/-
Helper lemmas for C32: the blanks/comment skipper against a grammar of blank text.
-/
namespace Verif.Lex
open Verif Verif.Str

/-! ### Specification -/

/-- Text `w`, which the source text `r` follows, consists of blank characters, line comments (`//` up to the
end of the line or of the text) and block comments (`/*` up to the first `*/`, or up to the end of the text
when there is none). -/
inductive Blanks : Bytes → Bytes → Prop
  | nil (r : Bytes) : Blanks [] r
  | blank {c : UInt8} {w r : Bytes} : (c = 32 ∨ c = 9 ∨ c = 10 ∨ c = 13) → Blanks w r → Blanks (c :: w) r
  | line {t w r : Bytes} : (∀ c ∈ t, c ≠ 10) → (w ++ r = [] ∨ ∃ v, w = 10 :: v) → Blanks w r →
      Blanks (47 :: 47 :: (t ++ w)) r
  | block {t w r : Bytes} : ¬ [42, 47] <:+: t ++ [42] → Blanks w r → Blanks (47 :: 42 :: (t ++ 42 :: 47 :: w)) r
  | openEnd {t : Bytes} : ¬ [42, 47] <:+: t → Blanks (47 :: 42 :: t) []

/-- No blank character and no comment begins at `r`. -/
def Stops (r : Bytes) : Prop :=
  (∀ c ∈ r.head?, c ≠ 32 ∧ c ≠ 9 ∧ c ≠ 10 ∧ c ≠ 13) ∧ ¬ [47, 47] <+: r ∧ ¬ [47, 42] <+: r

/-- The text of a C string contains no NUL. -/
def NoNul (s : Bytes) : Prop := ∀ c ∈ s, c ≠ 0

/-- Carriage returns occur only directly before a line feed. -/
def CrLf (s : Bytes) : Prop := ∀ i : Nat, s[i]? = some 13 → s[i + 1]? = some 10

/-! ### Reading -/

@[simp] theorem peek_nil : peek [] 0 = .ok 0 := rfl
@[simp] theorem peek_zero (c : UInt8) (s : Bytes) : peek (c :: s) 0 = .ok c := rfl
@[simp] theorem peek_one_nil (c : UInt8) : peek [c] 1 = .ok 0 := rfl
@[simp] theorem peek_one (c d : UInt8) (s : Bytes) : peek (c :: d :: s) 1 = .ok d := rfl
@[simp] theorem peek_two_nil (c d : UInt8) : peek [c, d] 2 = .ok 0 := rfl
@[simp] theorem peek_two (c d e : UInt8) (s : Bytes) : peek (c :: d :: e :: s) 2 = .ok e := rfl
@[simp] theorem adv_one (c : UInt8) (s : Bytes) : adv (c :: s) 1 = .ok s := by simp [adv]
@[simp] theorem adv_two (c d : UInt8) (s : Bytes) : adv (c :: d :: s) 2 = .ok s := by simp [adv]
@[simp] theorem adv_zero (s : Bytes) : adv s 0 = .ok s := by simp [adv]

theorem two_prefix (a b : UInt8) (s : Bytes) : [a, b] <+: s ↔ ∃ t, s = a :: b :: t := by
  constructor
  · rintro ⟨t, rfl⟩; exact ⟨t, rfl⟩
  · rintro ⟨t, rfl⟩; exact ⟨t, rfl⟩

/-- The two-character tests. -/
theorem pat_two (a b : UInt8) (ha : a ≠ 0) (hb : b ≠ 0) (s : Bytes) :
    runPat [.eq 0 a, .eq 1 b] s = .ok (decide ([a, b] <+: s)) := by
  match s with
  | [] => simp [runPat, Ne.symm ha]
  | [c] =>
    by_cases h : c = a
    · subst h; simp [runPat, Ne.symm hb]
    · simp [runPat, h]
  | c :: d :: r =>
    by_cases h : c = a
    · subst h
      by_cases h2 : d = b
      · subst h2; simp [runPat]
      · simp [runPat, h2, Ne.symm h2]
    · simp [runPat, h, Ne.symm h]

theorem isLine_eq (s : Bytes) : isLine s = .ok (decide ([47, 47] <+: s)) := pat_two _ _ (by decide) (by decide) s
theorem isOpen_eq (s : Bytes) : isOpen s = .ok (decide ([47, 42] <+: s)) := pat_two _ _ (by decide) (by decide) s
theorem isClose_eq (s : Bytes) : isClose s = .ok (decide ([42, 47] <+: s)) := pat_two _ _ (by decide) (by decide) s

theorem skipWhile_eq (f : UInt8 → Bool) (h0 : f 0 = false) (s : Bytes) :
    skipWhile f s = .ok (s.dropWhile f) := by
  induction s with
  | nil => simp [skipWhile, h0]
  | cons c r ih =>
    unfold skipWhile
    by_cases h : f c = true
    · simp [h, ih]
    · simp [h]

theorem infix_tail {t : Bytes} (c : UInt8) (h : ¬ [42, 47] <:+: c :: t) : ¬ [42, 47] <:+: t :=
  fun h' => h (h'.trans (List.suffix_cons c t).isInfix)

theorem not_close_of_infix {t : Bytes} (h : ¬ [42, 47] <:+: t) : ¬ [42, 47] <+: t := fun h' => h h'.isInfix

/-- Scanning to the first end mark. -/
theorem scan_close (w : Bytes) : ∀ (t : Bytes) (n : Nat), NoNul t → ¬ [42, 47] <:+: t ++ [42] →
    scanBlock (t ++ 42 :: 47 :: w) n = .ok (42 :: 47 :: w, n + t.count 10)
  | [], n, _, _ => by simp [scanBlock, runPat]
  | c :: t, n, hz, h => by
    have hz0 : c ≠ 0 := hz c (by simp)
    have hz' : NoNul t := fun d hd => hz d (by simp [hd])
    have h1 : ¬ [42, 47] <+: c :: (t ++ 42 :: 47 :: w) := by
      intro hp
      rw [two_prefix] at hp
      obtain ⟨u, hu⟩ := hp
      injection hu with e1 e2
      subst e1
      cases t with
      | nil => injection e2 with e3 _; exact absurd e3 (by decide)
      | cons d t =>
        injection e2 with e3 _
        subst e3
        exact h ⟨[], t ++ [42], by simp⟩
    rw [List.cons_append, scanBlock, if_neg hz0, pat_two _ _ (by decide) (by decide)]
    simp only [Out.bind_ok, h1, decide_false, Bool.false_eq_true, if_false]
    rw [scan_close w t _ hz' (infix_tail c h)]
    by_cases h10 : c = 10
    · subst h10; simp; omega
    · simp [h10]

/-- Scanning when there is no end mark. -/
theorem scan_open : ∀ (t : Bytes) (n : Nat), NoNul t → ¬ [42, 47] <:+: t →
    scanBlock t n = .ok ([], n + t.count 10)
  | [], n, _, _ => by simp [scanBlock]
  | c :: t, n, hz, h => by
    have hz0 : c ≠ 0 := hz c (by simp)
    have hz' : NoNul t := fun d hd => hz d (by simp [hd])
    rw [scanBlock, if_neg hz0, pat_two _ _ (by decide) (by decide)]
    simp only [Out.bind_ok, not_close_of_infix h, decide_false, Bool.false_eq_true, if_false]
    rw [scan_open t _ hz' (infix_tail c h)]
    by_cases h10 : c = 10
    · subst h10; simp; omega
    · simp [h10]

/-- Every text either has no end mark or a first one. -/
theorem split_close : ∀ s : Bytes, (¬ [42, 47] <:+: s) ∨
    ∃ t w, s = t ++ 42 :: 47 :: w ∧ ¬ [42, 47] <:+: t ++ [42]
  | [] => .inl (by simp)
  | c :: s => by
    by_cases hp : [42, 47] <+: c :: s
    · rw [two_prefix] at hp
      obtain ⟨w, hw⟩ := hp
      refine .inr ⟨[], w, hw, ?_⟩
      intro h
      have := h.length_le
      simp at this
    · rcases split_close s with h | ⟨t, w, rfl, h⟩
      · left
        rw [List.infix_cons_iff]
        rintro (h' | h')
        · exact hp h'
        · exact h h'
      · refine .inr ⟨c :: t, w, rfl, ?_⟩
        rw [List.cons_append, List.infix_cons_iff]
        rintro (h' | h')
        · apply hp
          rw [two_prefix] at h'
          obtain ⟨u, hu⟩ := h'
          injection hu with e1 e2
          subst e1
          cases t with
          | nil => simp at e2
          | cons d t =>
            injection e2 with e3 _
            subst e3
            exact ⟨t ++ 42 :: 47 :: w, rfl⟩
        · exact h h'

/-! ### Every text splits into blanks and the rest -/

theorem blanks_split : ∀ (k : Nat) (s : Bytes), s.length ≤ k → ∃ w r, s = w ++ r ∧ Blanks w r ∧ Stops r
  | 0, s, hk => by
    have : s = [] := List.eq_nil_of_length_eq_zero (by omega)
    subst this
    exact ⟨[], [], rfl, .nil _, by simp, by simp, by simp⟩
  | k + 1, [], hk => ⟨[], [], rfl, .nil _, by simp, by simp, by simp⟩
  | k + 1, c :: s, hk => by
    simp only [List.length_cons] at hk
    by_cases hb : c = 32 ∨ c = 9 ∨ c = 10 ∨ c = 13
    · obtain ⟨w, r, rfl, hw, hr⟩ := blanks_split k s (by omega)
      exact ⟨c :: w, r, rfl, .blank hb hw, hr⟩
    by_cases hl : [47, 47] <+: c :: s
    · rw [two_prefix] at hl
      obtain ⟨u, hu⟩ := hl
      injection hu with e1 e2
      subst e1 e2
      let t := u.takeWhile (· != 10)
      have ht : ∀ c ∈ t, c ≠ 10 := by
        intro c hc
        have := List.all_takeWhile (p := (· != (10 : UInt8))) (l := u)
        rw [List.all_eq_true] at this
        simpa using this c hc
      have e : u = t ++ u.dropWhile (· != 10) := (List.takeWhile_append_dropWhile).symm
      have hlen : (u.dropWhile (· != 10)).length ≤ u.length := (List.dropWhile_sublist _).length_le
      have hlen' : u.length + 1 ≤ k + 1 := by simp at hk; omega
      obtain ⟨w, r, hwr, hw, hr⟩ := blanks_split k (u.dropWhile (· != 10)) (by omega)
      refine ⟨47 :: 47 :: (t ++ w), r, ?_, .line ht ?_ hw, hr⟩
      · rw [List.cons_append, List.cons_append, List.append_assoc, ← hwr, ← e]
      · rw [← hwr]
        cases hd : u.dropWhile (· != 10) with
        | nil => exact .inl rfl
        | cons d v =>
          right
          have h10 : d = 10 := by
            have := List.head?_dropWhile_not (· != (10 : UInt8)) u
            rw [hd] at this
            simpa using this
          subst h10
          rw [hd] at hwr
          cases w with
          | nil =>
            exfalso
            rw [List.nil_append] at hwr
            have := hr.1 10 (by rw [← hwr]; rfl)
            exact this.2.2.1 rfl
          | cons e w => injection hwr with e1 _; exact ⟨w, by rw [e1]⟩
    by_cases ho : [47, 42] <+: c :: s
    · rw [two_prefix] at ho
      obtain ⟨u, hu⟩ := ho
      injection hu with e1 e2
      subst e1 e2
      rcases split_close u with h | ⟨t, v, rfl, h⟩
      · exact ⟨47 :: 42 :: u, [], by simp, .openEnd h, by simp, by simp, by simp⟩
      · obtain ⟨w, r, rfl, hw, hr⟩ := blanks_split k v (by simp at hk; omega)
        exact ⟨47 :: 42 :: (t ++ 42 :: 47 :: w), r, by simp, .block h hw, hr⟩
    · refine ⟨[], c :: s, rfl, .nil _, ?_, hl, ho⟩
      intro d hd
      simp at hd
      subst hd
      simp only [not_or] at hb
      exact hb

/-! ### One round -/

theorem Stops.peek {r : Bytes} (h : Stops r) : ∃ c, peek r 0 = .ok c ∧ c ≠ 32 ∧ c ≠ 9 ∧ c ≠ 10 ∧ c ≠ 13 := by
  cases r with
  | nil => exact ⟨0, rfl, by decide, by decide, by decide, by decide⟩
  | cons c r => exact ⟨c, rfl, h.1 c rfl⟩

def isSp (c : UInt8) : Bool := c != 0 && (c == 32 || c == 9)

/-- Skipping the leading spaces and tabs. -/
theorem spaces {w r : Bytes} (h : Blanks w r) (hr : Stops r) :
    ∃ w', (w ++ r).dropWhile isSp = w' ++ r ∧ Blanks w' r ∧ w'.length ≤ w.length ∧
      w'.count 10 = w.count 10 ∧ w' <:+ w ∧ ∀ c ∈ (w' ++ r).head?, c ≠ 32 ∧ c ≠ 9 := by
  induction h with
  | nil r =>
    refine ⟨[], ?_, .nil _, by simp, by simp, by simp, fun c hc => ⟨(hr.1 c hc).1, (hr.1 c hc).2.1⟩⟩
    cases r with
    | nil => rfl
    | cons c r =>
      have := hr.1 c rfl
      simp [List.dropWhile, isSp, this]
  | @blank c w r hc hw ih =>
    obtain ⟨w', h1, h2, h3, h4, h5, h6⟩ := ih hr
    rcases hc with rfl | rfl | rfl | rfl
    · exact ⟨w', by simp [List.dropWhile, isSp] at h1 ⊢; exact h1, h2, by simp; omega, by simp [h4],
        h5.trans (List.suffix_cons _ _), h6⟩
    · exact ⟨w', by simp [List.dropWhile, isSp] at h1 ⊢; exact h1, h2, by simp; omega, by simp [h4],
        h5.trans (List.suffix_cons _ _), h6⟩
    · exact ⟨10 :: w, by simp [List.dropWhile, isSp], .blank (by simp) hw, by simp, rfl, List.suffix_refl _, by simp⟩
    · exact ⟨13 :: w, by simp [List.dropWhile, isSp], .blank (by simp) hw, by simp, rfl, List.suffix_refl _, by simp⟩
  | @line t w r a b c _ =>
    exact ⟨_, by simp [List.dropWhile, isSp], .line a b c, by simp, rfl, List.suffix_refl _, by simp⟩
  | @block t w r a b _ =>
    exact ⟨_, by simp [List.dropWhile, isSp], .block a b, by simp, rfl, List.suffix_refl _, by simp⟩
  | openEnd a =>
    exact ⟨_, by simp [List.dropWhile, isSp], .openEnd a, by simp, rfl, List.suffix_refl _, by simp⟩

theorem CrLf.tail {c : UInt8} {s : Bytes} (h : CrLf (c :: s)) : CrLf s := by
  intro i hi
  have := h (i + 1) (by simpa using hi)
  simpa using this

theorem CrLf.suffix {s t : Bytes} (h : CrLf s) : t <:+ s → CrLf t := by
  rintro ⟨u, rfl⟩
  induction u with
  | nil => exact h
  | cons c u ih => exact ih h.tail

theorem NoNul.suffix {s t : Bytes} (h : NoNul s) (ht : t <:+ s) : NoNul t := fun c hc => h c (ht.subset hc)

theorem Blanks.tail10 {w r : Bytes} (h : Blanks (10 :: w) r) : Blanks w r := by
  cases h with
  | blank _ h => exact h

theorem Blanks.tail13 {w r : Bytes} (h : Blanks (13 :: w) r) : Blanks w r := by
  cases h with
  | blank _ h => exact h

/-- The end of a line. -/
theorem newline_blanks {w r : Bytes} (h : Blanks w r) (hr : Stops r) (hcr : CrLf (w ++ r)) (n : Nat)
    (more : Bool) :
    ∃ w' more', newline (w ++ r) n more = .ok (w' ++ r, n + (w.count 10 - w'.count 10), more') ∧
      Blanks w' r ∧ w' <:+ w ∧ w'.count 10 ≤ w.count 10 ∧
      ((w' = w ∧ more' = more ∧ ∀ c ∈ w.head?, c ≠ 10 ∧ c ≠ 13) ∨ (w'.length < w.length ∧ more' = true)) := by
  match w, h with
  | [], _ =>
    obtain ⟨c, hc, -, -, h10, h13⟩ := hr.peek
    refine ⟨[], more, ?_, .nil _, List.suffix_refl _, Nat.le_refl _, .inl ⟨rfl, rfl, by simp⟩⟩
    simp [newline, hc, h10, h13]
  | c :: w, h =>
    by_cases h13 : c = 13
    · subst h13
      have h1 : (w ++ r)[0]? = some 10 := by
        have := hcr 0 rfl
        simpa using this
      cases w with
      | nil =>
        exfalso
        have := hr.1 10 (by simpa [List.head?_eq_getElem?] using h1)
        exact this.2.2.1 rfl
      | cons d w =>
        simp at h1
        subst h1
        refine ⟨w, true, ?_, h.tail13.tail10, ⟨[13, 10], rfl⟩, by simp, .inr ⟨by simp; omega, rfl⟩⟩
        simp [newline]
    · by_cases h10 : c = 10
      · subst h10
        refine ⟨w, true, ?_, h.tail10, ⟨[10], rfl⟩, by simp, .inr ⟨by simp, rfl⟩⟩
        simp [newline]
      · refine ⟨c :: w, more, ?_, h, List.suffix_refl _, Nat.le_refl _, .inl ⟨rfl, rfl, by simp [h10, h13]⟩⟩
        simp [newline, h10, h13]

/-- The comment part of a round. -/
theorem comment_blanks {w r : Bytes} (h : Blanks w r) (hr : Stops r) (hz : NoNul (w ++ r)) (n : Nat)
    (hh : ∀ c ∈ (w ++ r).head?, c ≠ 32 ∧ c ≠ 9) :
    (w = [] ∧ [42, 47] <+: r ∧ comment (w ++ r) n = .err) ∨
    ∃ w' more, comment (w ++ r) n = .ok (w' ++ r, n + (w.count 10 - w'.count 10), more) ∧ Blanks w' r ∧
      w' <:+ w ∧ w'.count 10 ≤ w.count 10 ∧
      ((more = true ∧ w'.length < w.length) ∨
       (more = false ∧ (w' = [] ∧ ¬ [42, 47] <+: r ∨ ∃ c v, w' = c :: v ∧ (c = 10 ∨ c = 13)))) := by
  cases h with
  | nil =>
    by_cases hc : [42, 47] <+: r
    · left
      simp [comment, isLine_eq, isOpen_eq, isClose_eq, hr.2.1, hr.2.2, hc]
    · right
      exact ⟨[], false, by simp [comment, isLine_eq, isOpen_eq, isClose_eq, hr.2.1, hr.2.2, hc], .nil _,
        List.suffix_refl _, Nat.le_refl _, .inr ⟨rfl, .inl ⟨rfl, hc⟩⟩⟩
  | @blank c w _ hc hw =>
    right
    have hc' : c = 10 ∨ c = 13 := by
      have := hh c (by simp)
      rcases hc with rfl | rfl | rfl | rfl <;> simp at this ⊢
    refine ⟨c :: w, false, ?_, .blank hc hw, List.suffix_refl _, Nat.le_refl _,
      .inr ⟨rfl, .inr ⟨c, w, rfl, hc'⟩⟩⟩
    rcases hc' with rfl | rfl <;> simp [comment, isLine_eq, isOpen_eq, isClose_eq]
  | @line t w _ ht hwr hw =>
    right
    have hz' : NoNul t := fun d hd => hz d (by simp [hd])
    have e : (47 :: 47 :: (t ++ w) ++ r).dropWhile (fun c => c != 0 && c != 10) = w ++ r := by
      have e1 : (t ++ (w ++ r)).dropWhile (fun c => c != 0 && c != 10) = w ++ r := by
        rw [List.dropWhile_append_of_pos (by intro c hc; simp [hz' c hc, ht c hc])]
        rcases hwr with h | ⟨v, rfl⟩
        · rw [h]; rfl
        · simp [List.dropWhile]
      simpa [List.dropWhile] using e1
    have hcount : t.count 10 = 0 := List.count_eq_zero.2 (fun h => ht 10 h rfl)
    refine ⟨w, false, ?_, hw, ⟨47 :: 47 :: t, by simp⟩, by simp, .inr ⟨rfl, ?_⟩⟩
    · have hl : [47, 47] <+: (47 :: 47 :: (t ++ w) ++ r) := by simp
      simp only [comment, isLine_eq, hl, decide_true, if_true, Out.bind_ok]
      rw [skipWhile_eq _ (by decide), e]
      simp [hcount]
    · rcases hwr with h | ⟨v, rfl⟩
      · refine .inl ⟨(List.append_eq_nil_iff.1 h).1, ?_⟩
        rw [(List.append_eq_nil_iff.1 h).2]
        simp
      · exact .inr ⟨10, v, rfl, .inl rfl⟩
  | @block t w _ ht hw =>
    right
    have hz' : NoNul t := fun d hd => hz d (by simp [hd])
    refine ⟨w, true, ?_, hw, ⟨47 :: 42 :: (t ++ [42, 47]), by simp⟩, by simp [List.count_append], .inl ⟨rfl, by simp; omega⟩⟩
    have e : (47 :: 42 :: (t ++ 42 :: 47 :: w) ++ r) = 47 :: 42 :: (t ++ 42 :: 47 :: (w ++ r)) := by simp
    rw [e]
    simp [comment, isLine_eq, isOpen_eq, isClose_eq, endBlock, scan_close _ t n hz' ht, List.count_cons]
    
  | openEnd ht =>
    right
    rename_i t
    have hz' : NoNul t := fun d hd => hz d (by simp [hd])
    refine ⟨[], true, ?_, .nil _, by simp, by simp, .inl ⟨rfl, by simp⟩⟩
    simp [comment, isLine_eq, isOpen_eq, isClose_eq, endBlock, scan_open t n hz' ht]

theorem skipSpaces (s : Bytes) :
    skipWhile (fun c => c != 0 && (c == 32 || c == 9)) s = .ok (s.dropWhile isSp) :=
  skipWhile_eq _ (by decide) s

/-- The whole loop. -/
theorem ignore_blanks : ∀ (fuel : Nat) (w r : Bytes) (n : Nat), Blanks w r → Stops r → NoNul (w ++ r) →
    CrLf (w ++ r) → w.length < fuel →
    ignoreBlanks fuel (w ++ r) n = some (if [42, 47] <+: r then .err else .ok (r, n + w.count 10))
  | 0, _, _, _, _, _, _, _, h => absurd h (Nat.not_lt_zero _)
  | fuel + 1, w, r, n, hb, hr, hz, hcr, hf => by
    obtain ⟨w1, e1, hb1, hl1, hc1, hs1, hh1⟩ := spaces hb hr
    have hsuf1 : w1 ++ r <:+ w ++ r := by
      obtain ⟨u, rfl⟩ := hs1
      exact ⟨u, by simp⟩
    rcases comment_blanks hb1 hr (hz.suffix hsuf1) n hh1 with ⟨-, hcl, e2⟩ | ⟨w2, more, e2, hb2, hs2, hc2, hm⟩
    · unfold ignoreBlanks
      simp [round, skipSpaces, e1, e2, hcl]
    · have hsuf2 : w2 ++ r <:+ w1 ++ r := by
        obtain ⟨u, rfl⟩ := hs2
        exact ⟨u, by simp⟩
      have hl2 := hs2.length_le
      obtain ⟨w3, more3, e3, hb3, hs3, hc3, hm3⟩ :=
        newline_blanks hb2 hr ((hcr.suffix hsuf1).suffix hsuf2) (n + (w1.count 10 - w2.count 10)) more
      have hl3 := hs3.length_le
      have hsuf3 : w3 ++ r <:+ w ++ r := by
        have : w3 ++ r <:+ w2 ++ r := by
          obtain ⟨u, rfl⟩ := hs3
          exact ⟨u, by simp⟩
        exact (this.trans hsuf2).trans hsuf1
      have hn : n + (w1.count 10 - w2.count 10) + (w2.count 10 - w3.count 10) = n + (w.count 10 - w3.count 10) := by
        omega
      have er : round (w ++ r) n = .ok (w3 ++ r, n + (w.count 10 - w3.count 10), more3) := by
        simp only [round, skipSpaces, e1, e2, e3, Out.bind_ok, hn]
      unfold ignoreBlanks
      rw [er]
      have go : w3.length < fuel →
          ignoreBlanks fuel (w3 ++ r) (n + (w.count 10 - w3.count 10)) =
            some (if [42, 47] <+: r then .err else .ok (r, n + w.count 10)) := by
        intro hlt
        rw [ignore_blanks fuel w3 r _ hb3 hr (hz.suffix hsuf3) (hcr.suffix hsuf3) hlt]
        have : n + (w.count 10 - w3.count 10) + w3.count 10 = n + w.count 10 := by omega
        rw [this]
      rcases hm3 with ⟨rfl, rfl, hnh⟩ | ⟨hlt, rfl⟩
      · rcases hm with ⟨rfl, hlt⟩ | ⟨rfl, hnil | ⟨c, v, rfl, hcv⟩⟩
        · exact go (by omega)
        · obtain ⟨rfl, hcl⟩ := hnil
          simp [hcl]
        · exfalso
          have := hnh c rfl
          rcases hcv with h | h
          · exact this.1 h
          · exact this.2 h
      · exact go (by omega)

end Verif.Lex
