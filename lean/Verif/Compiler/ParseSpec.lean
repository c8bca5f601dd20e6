import Verif.Compiler.Parse
import Verif.Compiler.LexerProps
/-
A Hoare logic for the parser of `Parse.lean`, and its rules for the lexical functions.

`Spec M m Q`: from every state `m` ends within the fuel, never resets the error flag, and its value satisfies `Q`.
The mode `M` says in addition whether it may return `NULL` without an error (`quiet`) and whether it may run into
undefined behaviour (`wild`). One proof over an arbitrary mode serves all three properties of `ParseProps.lean`.
-/
namespace Verif.Parse
open Verif Verif.Str Verif.Lex P

/-- What the mode allows. -/
structure Mode where
  quiet : Prop
  wild : Prop

variable {E : Sem} {α β : Type} {M : Mode}

/-- What an outcome must satisfy. -/
def Fine (M : Mode) (Q : α → Prop) (r : Res α) (st : St E) : Prop :=
  match r with
  | .val a => Q a
  | .null => st.error = true ∨ M.quiet
  | .thrown => True
  | .ub => M.wild

def Spec (M : Mode) (m : P E α) (Q : α → Prop) : Prop :=
  ∀ st, ∃ r st', m st = some (r, st') ∧ (st.error = true → st'.error = true) ∧ Fine M Q r st'

/-! ### Rules -/

theorem Spec.weaken {m : P E α} {Q Q' : α → Prop} (h : Spec M m Q) (hq : ∀ a, Q a → Q' a) : Spec M m Q' := by
  intro st
  obtain ⟨r, st', h1, h2, h3⟩ := h st
  refine ⟨r, st', h1, h2, ?_⟩
  cases r with
  | val a => exact hq a h3
  | null => exact h3
  | thrown => exact h3
  | ub => exact h3

theorem Spec.bind {m : P E α} {f : α → P E β} {Q : α → Prop} {Q' : β → Prop} (h : Spec M m Q)
    (hf : ∀ a, Q a → Spec M (f a) Q') : Spec M (m >>= f) Q' := by
  intro st
  obtain ⟨r, st', h1, h2, h3⟩ := h st
  show ∃ r' st'', P.andThen m f st = some (r', st'') ∧ _
  unfold P.andThen
  rw [h1]
  cases r with
  | val a =>
    obtain ⟨r', st'', e, h4, h5⟩ := hf a h3 st'
    exact ⟨r', st'', e, fun h => h4 (h2 h), h5⟩
  | null => exact ⟨_, _, rfl, h2, h3⟩
  | thrown => exact ⟨_, _, rfl, h2, h3⟩
  | ub => exact ⟨_, _, rfl, h2, h3⟩

theorem pure_bind (a : α) (f : α → P E β) : ((pure a : P E α) >>= f) = f a := rfl

theorem Spec.pure {Q : α → Prop} {a : α} (h : Q a) : Spec M (pure a : P E α) Q :=
  fun st => ⟨.val a, st, rfl, id, h⟩

theorem Spec.fail {Q : α → Prop} : Spec M (P.fail : P E α) Q := fun st => ⟨_, _, rfl, fun _ => rfl, .inl rfl⟩

theorem Spec.nul {Q : α → Prop} (h : M.quiet) : Spec M (P.nul : P E α) Q := fun st => ⟨_, _, rfl, id, .inr h⟩

theorem Spec.throw {Q : α → Prop} : Spec M (P.throw : P E α) Q := fun st => ⟨_, _, rfl, id, trivial⟩

theorem Spec.ub {Q : α → Prop} (h : M.wild) : Spec M (P.ub : P E α) Q := fun st => ⟨_, _, rfl, id, h⟩

theorem Spec.mark : Spec M (P.mark : P E Unit) (fun _ => True) := fun st => ⟨_, _, rfl, fun _ => rfl, trivial⟩

theorem Spec.flag : Spec M (P.flag : P E Bool) (fun _ => True) := fun st => ⟨_, _, rfl, id, trivial⟩

/-- `if(error) return NULL`. -/
theorem Spec.chk {m : P E α} {Q : α → Prop} (h : Spec M m Q) :
    Spec M (do if (← P.flag) = true then P.nul else m) Q := by
  intro st
  cases he : st.error with
  | true =>
    refine ⟨.null, st, ?_, fun _ => he, .inl he⟩
    show (if st.error = true then (P.nul : P E α) else m) st = _
    rw [he]; rfl
  | false =>
    obtain ⟨r, st', h1, h2, h3⟩ := h st
    refine ⟨r, st', ?_, (fun h => by cases h), h3⟩
    show (if st.error = true then (P.nul : P E α) else m) st = _
    rw [he]; exact h1

theorem Spec.query {q : Ask} {s : Bytes} : Spec M (P.query q s : P E Bool) (fun _ => True) := by
  intro st
  unfold P.query
  split
  · exact ⟨_, _, rfl, id, trivial⟩
  · exact ⟨_, _, rfl, id, trivial⟩

theorem Spec.need {q : Ask} {s : Bytes} : Spec M (P.need q s : P E Unit) (fun _ => True) := by
  refine Spec.bind Spec.query fun b _ => ?_
  split
  · exact Spec.pure trivial
  · exact Spec.fail

/-- A caught `NULL` needs no error. -/
theorem Spec.catchNull {m : P E α} {Q : α → Prop} (h : Spec ⟨True, M.wild⟩ m Q) :
    Spec M (P.catchNull m) (fun o => ∀ a, o = some a → Q a) := by
  intro st
  obtain ⟨r, st', h1, h2, h3⟩ := h st
  unfold P.catchNull
  rw [h1]
  cases r with
  | val a => exact ⟨_, _, rfl, h2, by rintro b ⟨⟩; exact h3⟩
  | null => exact ⟨_, _, rfl, h2, by rintro b ⟨⟩⟩
  | thrown => exact ⟨_, _, rfl, h2, trivial⟩
  | ub => exact ⟨_, _, rfl, h2, h3⟩

theorem Spec.loosen {m : P E α} {Q : α → Prop} (h : Spec M m Q) : Spec ⟨True, M.wild⟩ m Q := by
  intro st
  obtain ⟨r, st', h1, h2, h3⟩ := h st
  refine ⟨r, st', h1, h2, ?_⟩
  cases r with
  | val a => exact h3
  | null => exact .inr trivial
  | thrown => exact trivial
  | ub => exact h3

/-- Loops: an invariant and a measure. -/
theorem Spec.loop {f : β → P E (β ⊕ α)} {Q : α → Prop} (I : β → Prop) (μ : β → Nat)
    (hf : ∀ b, I b → Spec M (f b) (Sum.elim (fun b' => I b' ∧ μ b' < μ b) Q)) :
    ∀ (N : Nat) (b : β), I b → μ b < N → Spec M (P.loop N f b) Q
  | 0, _, _, h => absurd h (Nat.not_lt_zero _)
  | N + 1, b, hb, h => by
    refine Spec.bind (hf b hb) fun x hx => ?_
    cases x with
    | inl b' => exact Spec.loop I μ hf N b' hx.1 (by have := hx.2; omega)
    | inr a => exact Spec.pure hx

/-! ### Texts -/

/-- Either a good text, or the end of one: a semicolon, nothing. -/
def Fin (G : Bytes → Prop) (s : Bytes) : Prop := G s ∨ s = [59] ∨ s = []

/-- What the proofs use about the texts considered. -/
structure Ok (M : Mode) (G : Bytes → Prop) : Prop where
  noNul : ∀ {s}, G s → NoNul s
  nonempty : G [] → M.wild
  cons : ∀ {c s}, G (c :: s) → c ≠ 59 → G s
  semi : ∀ {s}, G (59 :: s) → G s ∨ s = [59]
  semi2 : ∀ {c s}, G (59 :: c :: s) → c ≠ 59 → G (c :: s)
  comment : ∀ {w r}, G (w ++ r) → [47, 47] <+: w ++ r → 10 ∉ w → (r = [] ∨ ∃ t, r = 10 :: t) → G r
  block : ∀ {u}, G (47 :: 42 :: u) → M.wild ∨ [42, 47] <:+: u ∧ ∀ t w, u = t ++ 42 :: 47 :: w → G w
  all : M.wild → ∀ {s t}, G s → t <:+ s → G t
  quote : ∀ {s}, G (34 :: s) → M.wild
  cls : ∀ {s}, G s → kClass <+: s → M.wild ∧ M.quiet
  static : ∀ {s}, G s → kStatic <+: s → M.quiet
  const : ∀ {s}, G s → kConst <+: s → M.wild
  len : ∀ {s}, G s → M.wild ∨ s.length < 1024
  crlf : ∀ {s}, G s → M.quiet ∨ CrLf s

variable {G : Bytes → Prop}

theorem Ok.drop (ok : Ok M G) : ∀ {w t : Bytes}, G (w ++ t) → 59 ∉ w → G t
  | [], _, h, _ => h
  | c :: w, t, h, hw => by
    simp at hw
    exact ok.drop (ok.cons h (fun e => hw.1 e.symm)) hw.2

/-- The text behind a character that is no semicolon. -/
theorem Ok.tail (ok : Ok M G) {s : Bytes} (h : G s) {c : UInt8} (hc : hd s = c) (h0 : c ≠ 0) (h59 : c ≠ 59) :
    G s.tail ∧ s.tail.length < s.length := by
  cases s with
  | nil => exact absurd hc.symm h0
  | cons d s =>
    simp only [hd, List.headD_cons] at hc
    subst hc
    exact ⟨ok.cons h h59, by simp⟩

theorem Ok.toFin (_ : Ok M G) {s : Bytes} (h : G s) : Fin G s := .inl h

theorem Fin.good {s : Bytes} (h : Fin G s) {c : UInt8} (hc : hd s = c) (h0 : c ≠ 0) (h59 : c ≠ 59) : G s := by
  rcases h with h | rfl | rfl
  · exact h
  · exact absurd hc.symm h59
  · exact absurd hc.symm h0

theorem Fin.noNul (ok : Ok M G) {s : Bytes} (h : Fin G s) : NoNul s := by
  rcases h with h | rfl | rfl
  · exact ok.noNul h
  · intro c hc; simp at hc; subst hc; decide
  · intro c hc; cases hc

/-- The loop condition `*p!=0` fails only at the end. -/
theorem hd_zero {s : Bytes} (h : NoNul s) (h0 : hd s = 0) : s = [] := by
  cases s with
  | nil => rfl
  | cons c s => exact absurd h0 (h c (by simp))

/-! ### Blanks -/

theorem round_good (ok : Ok M G) {s r : Bytes} {n n' : Nat} {more : Bool} (hG : G s)
    (h : round s n = .ok (r, n', more)) : G r := by
  have hz := ok.noNul hG
  have hs : s = s.takeWhile isSp ++ s.dropWhile isSp := List.takeWhile_append_dropWhile.symm
  have h59 : 59 ∉ s.takeWhile isSp := by
    intro h
    have := List.all_takeWhile (p := isSp) (l := s)
    rw [List.all_eq_true] at this
    exact absurd (this 59 h) (by decide)
  have hG1 : G (s.dropWhile isSp) := ok.drop (hs ▸ hG) h59
  have hz' := ok.noNul hG1
  simp only [round, skipSpaces, Out.bind_ok] at h
  generalize s.dropWhile isSp = u at h hG1 hz'
  obtain ⟨⟨r1, n1, m1⟩, h1, h⟩ := bind_inv h
  simp only at h
  have hG2 : G r1 := by
    by_cases hl : [47, 47] <+: u
    · simp only [comment, isLine_eq, hl, decide_true, if_true, Out.bind_ok] at h1
      rw [skipWhile_eq _ (by decide)] at h1
      simp only [Out.bind_ok] at h1
      injection h1 with h1
      injection h1 with h1 _
      subst h1
      have hu : u.takeWhile (fun c => c != 0 && c != 10) ++ u.dropWhile (fun c => c != 0 && c != 10) = u :=
        List.takeWhile_append_dropWhile
      refine ok.comment (w := u.takeWhile (fun c => c != 0 && c != 10)) (by rw [hu]; exact hG1) (by rw [hu]; exact hl) ?_ ?_
      · intro h
        have := List.all_takeWhile (p := fun c : UInt8 => c != 0 && c != 10) (l := u)
        rw [List.all_eq_true] at this
        exact absurd (this 10 h) (by decide)
      · cases hd : u.dropWhile (fun c => c != 0 && c != 10) with
        | nil => exact .inl rfl
        | cons c t =>
          right
          have h1 := List.head?_dropWhile_not (fun c : UInt8 => c != 0 && c != 10) u
          rw [hd] at h1
          simp only [List.head?_cons] at h1
          have hc0 : c ≠ 0 := hz' c ((List.dropWhile_sublist _).subset (by rw [hd]; simp))
          have : c = 10 := by
            simp [hc0] at h1
            exact h1
          exact ⟨t, by rw [this]⟩
    · by_cases ho : [47, 42] <+: u
      · obtain ⟨v, rfl⟩ := (two_prefix _ _ _).1 ho
        rcases ok.block hG1 with hw | ⟨hc, hw⟩
        · rcases comment_any _ n hz' with hc | ⟨w, r', m, hc, e, -⟩
          · rw [hc] at h1; cases h1
          · rw [hc] at h1
            injection h1 with h1
            injection h1 with h1 _
            subst h1
            exact ok.all hw hG1 ⟨w, e.symm⟩
        · rcases split_close v with h' | ⟨t, w, rfl, h'⟩
          · exact absurd hc h'
          · have hz2 : NoNul t := fun c hc => hz' c (by simp [hc])
            simp [comment, isLine_eq, isOpen_eq, isClose_eq, endBlock, scan_close _ t n hz2 h'] at h1
            rw [← h1.1]
            exact hw _ _ rfl
      · by_cases hc : [42, 47] <+: u
        · simp [comment, isLine_eq, isOpen_eq, isClose_eq, hl, ho, hc] at h1
        · simp [comment, isLine_eq, isOpen_eq, isClose_eq, hl, ho, hc] at h1
          rw [← h1.1]; exact hG1
  clear h1 hG1 hz' hs h59 hz hG
  match r1, hG2, h with
  | [], hG2, h =>
    simp [newline] at h
    rw [h.1]; exact hG2
  | c :: r1, hG2, h =>
    by_cases h13 : c = 13
    · subst h13
      have hG3 := ok.cons hG2 (by decide)
      match r1, hG3, h with
      | [], hG3, h =>
        simp [newline] at h
        rw [h.1]; exact hG3
      | d :: r1, hG3, h =>
        by_cases h10 : d = 10
        · subst h10
          simp [newline] at h
          rw [← h.1]; exact ok.cons hG3 (by decide)
        · simp [newline, h10] at h
          rw [← h.1]; exact hG3
    · by_cases h10 : c = 10
      · subst h10
        simp [newline] at h
        rw [← h.1]; exact ok.cons hG2 (by decide)
      · simp [newline, h10, h13] at h
        rw [← h.1]; exact hG2

theorem ignore_good (ok : Ok M G) : ∀ (fuel : Nat) {s r : Bytes} {n n' : Nat}, G s →
    ignoreBlanks fuel s n = some (.ok (r, n')) → G r
  | 0, _, _, _, _, _, h => by simp [ignoreBlanks] at h
  | fuel + 1, s, r, n, n', hG, h => by
    rw [ignoreBlanks] at h
    split at h
    · rename_i s1 n1 h1
      exact ignore_good ok fuel (round_good ok hG h1) h
    · rename_i s1 n1 h1
      injection h with h
      injection h with h
      injection h with h _
      subst h
      exact round_good ok hG h1
    · cases h
    · cases h

theorem blanks_any {s : Bytes} {N : Nat} (hz : NoNul s) (hN : s.length < N) :
    Spec M (blanks N s : P E Bytes) (fun r => r <:+ s ∧ ∃ k, ignoreBlanks N s 0 = some (.ok (r, k))) := by
  unfold blanks
  rcases blanks_safe N s 0 hz hN with h | ⟨w, r, h, e⟩
  · rw [h]; exact Spec.fail
  · rw [h]; exact Spec.pure ⟨⟨w, e.symm⟩, _, rfl⟩

theorem blanks_full (ok : Ok M G) {s : Bytes} {N : Nat} (hG : G s) (hN : s.length < N) :
    Spec M (blanks N s : P E Bytes) (fun r => G r ∧ r <:+ s ∧ ∃ k, ignoreBlanks N s 0 = some (.ok (r, k))) :=
  (blanks_any (ok.noNul hG) hN).weaken fun r h => by
    obtain ⟨h1, k, h2⟩ := h
    exact ⟨ignore_good ok N hG h2, h1, k, h2⟩

theorem blanks_spec (ok : Ok M G) {s : Bytes} {N : Nat} (hG : G s) (hN : s.length < N) :
    Spec M (blanks N s : P E Bytes) (fun r => G r ∧ r.length ≤ s.length) :=
  (blanks_full ok hG hN).weaken fun _ h => ⟨h.1, h.2.1.length_le⟩

theorem blanks_fin (ok : Ok M G) {s : Bytes} {N : Nat} (hG : Fin G s) (hN : s.length < N) :
    Spec M (blanks N s : P E Bytes) (fun r => Fin G r ∧ r.length ≤ s.length) := by
  obtain ⟨N, rfl⟩ : ∃ k, N = k + 1 := ⟨N - 1, by omega⟩
  rcases hG with h | rfl | rfl
  · exact (blanks_spec ok h hN).weaken fun _ h => ⟨.inl h.1, h.2⟩
  · have : ignoreBlanks (N + 1) [59] 0 = some (.ok ([59], 0)) := rfl
    unfold blanks
    rw [this]
    exact Spec.pure ⟨.inr (.inl rfl), Nat.le_refl _⟩
  · have : ignoreBlanks (N + 1) [] 0 = some (.ok ([], 0)) := rfl
    unfold blanks
    rw [this]
    exact Spec.pure ⟨.inr (.inr rfl), Nat.le_refl _⟩

/-- No blank and no comment begins with the character. -/
def solid (c : UInt8) : Bool := ![32, 9, 10, 13, 47, 42].contains c

theorem ignore_solid (N : Nat) (s : Bytes) (n : Nat) (h : solid (hd s) = true) :
    ignoreBlanks (N + 1) s n = some (.ok (s, n)) := by
  have hr : round s n = .ok (s, n, false) := by
    cases s with
    | nil => rfl
    | cons c s =>
      simp [solid, hd] at h
      obtain ⟨h1, h2, h3, h4, h5, h6⟩ := h
      have hsp : isSp c = false := by simp [isSp, h1, h2]
      have hl : ¬ [47, 47] <+: c :: s := by simp [Ne.symm h5]
      have ho : ¬ [47, 42] <+: c :: s := by simp [Ne.symm h5]
      have hc : ¬ [42, 47] <+: c :: s := by simp [Ne.symm h6]
      simp [round, skipSpaces, List.dropWhile_cons, hsp, comment, isLine_eq, isOpen_eq, isClose_eq, hl, ho, hc, newline, h3, h4]
  rw [ignoreBlanks, hr]

theorem blanks_solid {N : Nat} (hN : 0 < N) {s : Bytes} (h : solid (hd s) = true) : (blanks N s : P E Bytes) = pure s := by
  obtain ⟨N, rfl⟩ : ∃ k, N = k + 1 := ⟨N - 1, by omega⟩
  unfold blanks
  rw [ignore_solid N s 0 h]
  rfl

/-- Without stray carriage returns, blanks are skipped at once. -/
theorem blanks_twice {N : Nat} {s r : Bytes} {k : Nat} (hz : NoNul s) (hcr : CrLf s) (hN : s.length < N)
    (h : ignoreBlanks N s 0 = some (.ok (r, k))) : (blanks N r : P E Bytes) = pure r := by
  obtain ⟨w, r', rfl, hb, hr⟩ := blanks_split s.length s (Nat.le_refl _)
  have hw : w.length < N := by simp at hN; omega
  rw [ignore_blanks N w r' 0 hb hr hz hcr hw] at h
  split at h
  · cases h
  · rename_i hc
    injection h with h
    injection h with h
    injection h with h _
    subst h
    have hsuf : r' <:+ w ++ r' := List.suffix_append _ _
    have := ignore_blanks N [] r' 0 (.nil _) hr (hz.suffix hsuf) (hcr.suffix hsuf) (by simp; omega)
    rw [List.nil_append, if_neg hc] at this
    unfold blanks
    rw [this]
    rfl

/-! ### Recognisers -/

/-- The keyword at the beginning of a text. -/
def kw (s : Bytes) : Option Bytes := match isKeyword s with
  | .ok o => o
  | _ => none
/-- The operator at the beginning of a text. -/
def opr (s : Bytes) : Option Bytes := match isOperator s with
  | .ok o => o
  | _ => none
/-- The post-operation at the beginning of a text. -/
def pst (s : Bytes) : Option Bytes := match isPost s with
  | .ok o => o
  | _ => none
/-- The pre-operation at the beginning of a text. -/
def pro (s : Bytes) : Option Bytes := match isPre s with
  | .ok o => o
  | _ => none

theorem isKeyword_kw (s : Bytes) : isKeyword s = .ok (kw s) := by
  obtain ⟨o, h⟩ := isKeyword_ok s
  rw [kw, h]

theorem isOperator_opr (s : Bytes) : isOperator s = .ok (opr s) := by
  obtain ⟨o, h, -⟩ := operator_total s
  rw [opr, h]

theorem isPost_pst (s : Bytes) : isPost s = .ok (pst s) := by
  obtain ⟨o, h, -⟩ := isPost_some s
  rw [pst, h]

/-- A test on the first two characters is total. -/
theorem eq_ne_total (a b : UInt8) (ha : a ≠ 0) (s : Bytes) :
    ∃ o, runPat [.eq 0 a, .ne 1 b] s = .ok o ∧ (o = true → [a] <+: s) := by
  match s with
  | [] => exact ⟨false, by simp [runPat, Ne.symm ha], by simp⟩
  | [c] =>
    by_cases h : c = a
    · subst h
      by_cases hb : (0 : UInt8) = b
      · exact ⟨false, by simp [runPat, hb], by simp⟩
      · exact ⟨true, by simp [runPat, hb], by simp⟩
    · exact ⟨false, by simp [runPat, h], by simp⟩
  | c :: d :: s =>
    by_cases h : c = a
    · subst h
      by_cases hb : d = b
      · exact ⟨false, by simp [runPat, hb], by simp⟩
      · exact ⟨true, by simp [runPat, hb], by simp⟩
    · exact ⟨false, by simp [runPat, h], by simp⟩

theorem isPre_total (s : Bytes) : ∃ o, isPre s = .ok o ∧ ∀ w, o = some w → w ≠ opInvalid →
    (w <+: s ∧ w ≠ [] ∧ 59 ∉ w ∧ (hd w = 116 → WordAt typeofStr s) ∧ isIdStart (hd w) = (hd w == 116)) := by
  have e1 := pat_two 45 45 (by decide) (by decide) s
  have e2 := pat_two 43 43 (by decide) (by decide) s
  have e3 := pat_two 45 43 (by decide) (by decide) s
  have e4 := pat_two 43 45 (by decide) (by decide) s
  obtain ⟨b1, f1, g1⟩ := eq_ne_total 33 61 (by decide) s
  obtain ⟨b2, f2, g2⟩ := eq_ne_total 43 43 (by decide) s
  obtain ⟨b3, f3, g3⟩ := eq_ne_total 45 45 (by decide) s
  obtain ⟨b4, f4, g4⟩ := wordOp_iff typeofStr s
  have g5 : ∃ b, runPat [.eq 0 126] s = .ok b ∧ (b = true → [126] <+: s) := by
    cases s with
    | nil => exact ⟨false, by simp [runPat], by simp⟩
    | cons c s =>
      by_cases h : c = 126
      · exact ⟨true, by simp [runPat, h], by simp [h]⟩
      · exact ⟨false, by simp [runPat, h], by simp⟩
  obtain ⟨b5, f5, g5⟩ := g5
  simp only [isPre, preRows, firstRow, decIncInvalid, e1, e2, e3, e4, f1, f2, f3, f4, f5, Out.bind_ok]
  by_cases h1 : [45, 45] <+: s
  · simp only [h1, decide_true, if_true]
    exact ⟨_, rfl, by rintro w ⟨⟩ -; exact ⟨h1, by decide, by decide, fun h => absurd h (by decide), by decide⟩⟩
  simp only [h1, decide_false, Bool.false_eq_true, if_false]
  by_cases h2 : [43, 43] <+: s
  · simp only [h2, decide_true, if_true]
    exact ⟨_, rfl, by rintro w ⟨⟩ -; exact ⟨h2, by decide, by decide, fun h => absurd h (by decide), by decide⟩⟩
  simp only [h2, decide_false, Bool.false_eq_true, if_false]
  by_cases h3 : [45, 43] <+: s
  · simp only [h3, decide_true, if_true, Out.bind_ok]
    exact ⟨_, rfl, by rintro w ⟨⟩ h; exact absurd rfl h⟩
  simp only [h3, decide_false, Bool.false_eq_true, if_false, Out.bind_ok]
  by_cases h4 : [43, 45] <+: s
  · simp only [h4, decide_true, if_true]
    exact ⟨_, rfl, by rintro w ⟨⟩ h; exact absurd rfl h⟩
  simp only [h4, decide_false, Bool.false_eq_true, if_false]
  cases b1 with
  | true => exact ⟨_, rfl, by rintro w ⟨⟩ -; exact ⟨g1 rfl, by decide, by decide, fun h => absurd h (by decide), by decide⟩⟩
  | false =>
  cases b4 with
  | true =>
    refine ⟨_, rfl, ?_⟩
    rintro w ⟨⟩ -
    have hw := g4.1 rfl
    refine ⟨?_, by decide, by decide, fun _ => hw, by decide⟩
    obtain ⟨c, t, e, -⟩ := hw
    exact ⟨c :: t, e.symm⟩
  | false =>
  cases b2 with
  | true => exact ⟨_, rfl, by rintro w ⟨⟩ -; exact ⟨g2 rfl, by decide, by decide, fun h => absurd h (by decide), by decide⟩⟩
  | false =>
  cases b3 with
  | true => exact ⟨_, rfl, by rintro w ⟨⟩ -; exact ⟨g3 rfl, by decide, by decide, fun h => absurd h (by decide), by decide⟩⟩
  | false =>
  cases b5 with
  | true => exact ⟨_, rfl, by rintro w ⟨⟩ -; exact ⟨g5 rfl, by decide, by decide, fun h => absurd h (by decide), by decide⟩⟩
  | false => exact ⟨_, rfl, by rintro w ⟨⟩⟩

theorem isPre_pro (s : Bytes) : isPre s = .ok (pro s) := by
  obtain ⟨o, h, -⟩ := isPre_total s
  rw [pro, h]

theorem pro_some {s w : Bytes} (h : pro s = some w) (hw : w ≠ opInvalid) :
    w <+: s ∧ w ≠ [] ∧ 59 ∉ w ∧ (hd w = 116 → WordAt typeofStr s) ∧ isIdStart (hd w) = (hd w == 116) := by
  obtain ⟨o, h1, h2⟩ := isPre_total s
  rw [isPre_pro] at h1
  injection h1 with h1
  exact h2 w (h1 ▸ h) hw

theorem opr_some {s w : Bytes} (h : opr s = some w) : w <+: s ∧ w ≠ [] ∧ 59 ∉ w := by
  have h1 := isOperator_opr s
  rw [h] at h1
  have hall : ∀ w ∈ symbolOps, w ≠ [] ∧ 59 ∉ w := by decide +kernel
  rw [isOperator_eq] at h1
  cases hf : sym.find? (hit s) with
  | some r =>
    rw [hf] at h1
    injection h1 with h1
    injection h1 with h1
    obtain ⟨g1, g2, -⟩ := find_first _ _ _ hf
    rw [hit_iff] at g1
    subst h1
    have : r.1 ∈ symbolOps := by rw [← sym_fst]; exact List.mem_map_of_mem g2
    exact ⟨g1.1, hall _ this⟩
  | none =>
    rw [hf] at h1
    obtain ⟨o, ho, i1, i2, i3⟩ := firstRow_words s
    simp only at h1
    rw [ho] at h1
    injection h1 with h1
    subst h1
    rcases i3 with i3 | i3 | i3
    · cases i3
    · have := i1.1 i3
      injection i3 with i3
      subst i3
      obtain ⟨c, t, e, -⟩ := this
      exact ⟨⟨c :: t, e.symm⟩, by decide, by decide⟩
    · have := i2.1 i3
      injection i3 with i3
      subst i3
      obtain ⟨c, t, e, -⟩ := this
      exact ⟨⟨c :: t, e.symm⟩, by decide, by decide⟩

theorem pst_some {s w : Bytes} (h : pst s = some w) (hw : w = opInc ∨ w = opDec) : w <+: s := by
  have h1 := isPost_pst s
  rw [h] at h1
  have e1 := pat_two 45 45 (by decide) (by decide) s
  have e2 := pat_two 43 43 (by decide) (by decide) s
  have e3 := pat_two 45 43 (by decide) (by decide) s
  have e4 := pat_two 43 45 (by decide) (by decide) s
  simp only [isPost, postRows, firstRow, decIncInvalid, e1, e2, e3, e4, Out.bind_ok] at h1
  by_cases g1 : [45, 45] <+: s
  · simp only [g1, decide_true, if_true] at h1
    injection h1 with h1; injection h1 with h1; subst h1; exact g1
  simp only [g1, decide_false, Bool.false_eq_true, if_false] at h1
  by_cases g2 : [43, 43] <+: s
  · simp only [g2, decide_true, if_true] at h1
    injection h1 with h1; injection h1 with h1; subst h1; exact g2
  simp only [g2, decide_false, Bool.false_eq_true, if_false] at h1
  by_cases g3 : [45, 43] <+: s
  · simp only [g3, decide_true, if_true, Out.bind_ok] at h1
    injection h1 with h1; injection h1 with h1; subst h1
    rcases hw with h | h <;> exact absurd h (by decide)
  simp only [g3, decide_false, Bool.false_eq_true, if_false, Out.bind_ok] at h1
  by_cases g4 : [43, 45] <+: s
  · simp only [g4, decide_true, if_true] at h1
    injection h1 with h1; injection h1 with h1; subst h1
    rcases hw with h | h <;> exact absurd h (by decide)
  · simp [g4] at h1

theorem kw_some {s k : Bytes} (h : kw s = some k) : k ∈ keywords ∧ ∃ t, s = k ++ t ∧ keyEnd t = true := by
  have h1 := isKeyword_kw s
  rw [h] at h1
  exact (isKeyword_iff s k).1 h1

theorem kw_prefix {s k : Bytes} (h : kw s = some k) : k <+: s := by
  obtain ⟨-, t, e, -⟩ := kw_some h
  exact ⟨t, e.symm⟩

theorem lift_kw (s : Bytes) : (lift (isKeyword s) : P E _) = pure (kw s) := by rw [isKeyword_kw]; rfl
theorem lift_opr (s : Bytes) : (lift (isOperator s) : P E _) = pure (opr s) := by rw [isOperator_opr]; rfl
theorem lift_pst (s : Bytes) : (lift (isPost s) : P E _) = pure (pst s) := by rw [isPost_pst]; rfl
theorem lift_pro (s : Bytes) : (lift (isPre s) : P E _) = pure (pro s) := by rw [isPre_pro]; rfl
theorem lift_end (s : Bytes) : (lift (endSymbol s) : P E _) = pure (delim s) := by rw [endSymbol_eq]; rfl

/-- Moving behind a spelling the text begins with. -/
theorem skip_spec (ok : Ok M G) {s w : Bytes} (hG : G s) (hw : w <+: s) (h59 : 59 ∉ w) {k : Nat} (hk : k = w.length) :
    Spec M (skip s k : P E Bytes) (fun r => G r ∧ r.length + k = s.length) := by
  subst hk
  obtain ⟨t, rfl⟩ := hw
  unfold skip adv
  rw [if_pos (by simp)]
  refine Spec.pure ?_
  rw [List.drop_left]
  exact ⟨ok.drop hG h59, by simp; omega⟩

theorem drop_spec (ok : Ok M G) {s w : Bytes} (hG : G s) (hw : w <+: s) (h59 : 59 ∉ w) {k : Nat} (hk : k = w.length) :
    G (s.drop k) ∧ (s.drop k).length + k = s.length := by
  subst hk
  obtain ⟨t, rfl⟩ := hw
  rw [List.drop_left]
  exact ⟨ok.drop hG h59, by simp; omega⟩

/-- `s+1` at a character that is no semicolon. -/
theorem skip_one (ok : Ok M G) {s : Bytes} {c : UInt8} (hG : G s) (hc : hd s = c) (h0 : c ≠ 0) (h59 : c ≠ 59) :
    Spec M (skip s 1 : P E Bytes) (fun r => G r ∧ r.length < s.length) := by
  cases s with
  | nil => exact absurd hc.symm h0
  | cons d s =>
    simp only [hd, List.headD_cons] at hc
    subst hc
    unfold skip adv
    rw [if_pos (by simp)]
    exact Spec.pure ⟨ok.cons hG h59, by simp⟩

/-! ### Names -/

theorem idStart_ne {c a : UInt8} (h : isIdStart c = true) (ha : isIdStart a = false) : c ≠ a := by
  rintro rfl
  rw [h] at ha
  cases ha

theorem idChar_ne {c a : UInt8} (h : isIdChar c = true) (ha : isIdChar a = false) : c ≠ a := by
  rintro rfl
  rw [h] at ha
  cases ha

theorem idStart_char {c : UInt8} (h : isIdStart c = true) : isIdChar c = true := by
  simp only [isIdStart, isIdChar, Bool.or_eq_true] at *
  rcases h with (h | h) | h <;> simp [h]

/-- An identifier: its name and the text behind it. -/
theorem identifier_inv {s : Bytes} (hz : NoNul s) : identifier s = .err ∨
    ∃ n t, identifier s = .ok (n, t) ∧ s = n ++ t ∧ n ≠ [] ∧ isIdStart (hd n) = true ∧ ∀ x ∈ n, isIdChar x = true := by
  cases s with
  | nil => left; rfl
  | cons c s =>
    by_cases h : (c != 0 && isIdStart c) = true
    · right
      have e : identifier (c :: s) = .ok (c :: (takeName s).1, (takeName s).2) := by
        simp only [identifier, peek_zero, Out.bind_ok, h, if_true, adv_one]
      have hid := (identifier_eq (c :: s) _ _ hz).1 e
      obtain ⟨h1, ⟨c', r, h2, h3, h4⟩, -⟩ := hid
      refine ⟨_, _, e, h1, by simp, ?_, ?_⟩
      · simp at h; exact h.2
      · injection h2 with h2 h5
        subst h2 h5
        intro x hx
        rcases List.mem_cons.1 hx with rfl | hx
        · exact idStart_char h3
        · exact h4 x hx
    · left
      simp only [identifier, peek_zero, Out.bind_ok, h, Bool.false_eq_true, if_false]

theorem noSemi_of_id {n : Bytes} (h : ∀ x ∈ n, isIdChar x = true) : 59 ∉ n :=
  fun h' => absurd (h 59 h') (by decide)

theorem identifier_spec (ok : Ok M G) {s : Bytes} (hG : G s) : Spec M (lift (identifier s) : P E (Bytes × Bytes))
    (fun x => G x.2 ∧ x.1.length + x.2.length = s.length ∧ 0 < x.1.length ∧ isIdStart (hd x.1) = true ∧
      ∀ c ∈ x.1, isIdChar c = true) := by
  rcases identifier_inv (ok.noNul hG) with h | ⟨n, t, h, rfl, h1, h2, h3⟩
  · rw [h]; exact Spec.fail
  · rw [h]
    exact Spec.pure ⟨ok.drop hG (noSemi_of_id h3), by simp, List.length_pos_iff.2 h1, h2, h3⟩

theorem takeSymbol_ok : ∀ s : Bytes, ∃ n t, takeSymbol s = .ok (n, t) ∧ s = n ++ t ∧ 59 ∉ n
  | [] => ⟨[], [], rfl, rfl, by simp⟩
  | c :: s => by
    rw [takeSymbol, endSymbol_eq]
    simp only [Out.bind_ok]
    by_cases h : delim (c :: s) = true
    · rw [if_pos h]; exact ⟨[], _, rfl, rfl, by simp⟩
    · rw [if_neg h]
      obtain ⟨n, t, h1, h2, h3⟩ := takeSymbol_ok s
      rw [h1]
      refine ⟨c :: n, t, rfl, by rw [h2]; rfl, ?_⟩
      simp only [List.mem_cons, not_or]
      refine ⟨?_, h3⟩
      rintro rfl
      simp [delim] at h

theorem nameOk_ok (w : Bytes) : ∃ b, nameOk w = .ok b ∧ (b = true → hd w ≠ 0 ∧ isIdStart (hd w) = true) := by
  unfold nameOk
  rw [isKeyword_kw, isOperator_opr]
  simp only [Out.bind_ok]
  split
  · exact ⟨false, rfl, by simp⟩
  split
  · exact ⟨false, rfl, by simp⟩
  split
  · exact ⟨false, rfl, by simp⟩
  · exact ⟨_, rfl, by simp⟩

theorem nameOk_spec (w : Bytes) : Spec M (lift (nameOk w) : P E Bool)
    (fun b => b = true → hd w ≠ 0 ∧ isIdStart (hd w) = true) := by
  obtain ⟨b, h1, h2⟩ := nameOk_ok w
  rw [h1]
  exact Spec.pure h2

/-- The name behind a punctuator; `D` is any property of texts that passes to what follows a name. -/
theorem accessorName_any {D : Bytes → Prop} {s : Bytes} (hD : ∀ n t, s = n ++ t → 59 ∉ n → D t) :
    Spec M (accessorName s : P E (Bytes × Bytes)) (fun x => D x.2 ∧ x.2.length < s.length) := by
  obtain ⟨n, t, h1, h2, h3⟩ := takeSymbol_ok s
  unfold accessorName
  rw [h1]
  show Spec M ((pure (n, t) : P E _) >>= _) _
  rw [pure_bind]
  refine Spec.bind (nameOk_spec n) fun b hb => ?_
  split
  · rename_i hbt
    refine Spec.pure ⟨hD n t h2 h3, ?_⟩
    have := (hb hbt).1
    have hn : n ≠ [] := by rintro rfl; exact this rfl
    have := List.length_pos_iff.2 hn
    rw [h2]; simp; omega
  · exact Spec.fail

theorem accessorName_spec (ok : Ok M G) {s : Bytes} (hG : G s) :
    Spec M (accessorName s : P E (Bytes × Bytes)) (fun x => G x.2 ∧ x.2.length < s.length) :=
  accessorName_any fun _ _ e h => ok.drop (e ▸ hG) h

theorem endSymbolPre_ok (c : UInt8) (s : Bytes) : ∃ b, endSymbolPre c s = .ok b ∧
    (b = false → ∃ d t, s = d :: t ∧ d ≠ 59) := by
  unfold endSymbolPre
  rw [isOperator_opr, isPost_pst]
  simp only [Out.bind_ok]
  split
  · exact ⟨true, rfl, by simp⟩
  split
  · exact ⟨true, rfl, by simp⟩
  · cases s with
    | nil => exact ⟨true, by simp [isSpecial], by simp⟩
    | cons d t =>
      refine ⟨_, by rw [peek_zero]; rfl, fun h => ⟨d, t, rfl, ?_⟩⟩
      rintro rfl
      simp [isSeparator] at h

theorem scanSymbol_ok : ∀ s : Bytes, s ≠ [] → ∃ c n t, scanSymbol s = .ok (c :: n, t) ∧ s = c :: (n ++ t) ∧ 59 ∉ n
  | [], h => absurd rfl h
  | c :: s, _ => by
    obtain ⟨b, h1, h2⟩ := endSymbolPre_ok c s
    rw [scanSymbol, h1]
    simp only [Out.bind_ok]
    cases b with
    | true => exact ⟨c, [], s, rfl, rfl, by simp⟩
    | false =>
      obtain ⟨d, t, rfl, hd⟩ := h2 rfl
      obtain ⟨c', n, t', h3, h4, h5⟩ := scanSymbol_ok (d :: t) (by simp)
      rw [h3]
      injection h4 with h4 h6
      subst h4
      refine ⟨c, d :: n, t', rfl, by rw [h6]; rfl, ?_⟩
      simp only [List.mem_cons, not_or]
      exact ⟨fun h => hd h.symm, h5⟩

/-! ### Literals -/

theorem copyDiff_spec {n : Nat} (h : M.wild ∨ n < 4096) : Spec M (copyDiff n : P E Unit) (fun _ => True) := by
  unfold copyDiff
  split
  · exact Spec.throw
  split
  · rename_i h1
    rcases h with h | h
    · exact Spec.ub h
    · omega
  · exact Spec.pure trivial

theorem charLiteral_spec (ok : Ok M G) {s : Bytes} (hG : G s) :
    Spec M (charLiteral s : P E Bytes) (fun r => G r ∧ r.length < s.length) := by
  unfold charLiteral
  refine Spec.bind (Q := fun r => G r ∧ r.length ≤ s.length ∧ hd r ≠ 0) ?_ fun p hp => ?_
  · split
    · rename_i h
      refine Spec.bind (skip_one ok hG h (by decide) (by decide)) fun q hq => ?_
      split
      · rename_i hh
        refine Spec.pure ⟨hq.1, by omega, ?_⟩
        rcases hh with h | h | h <;> rw [h] <;> decide
      · exact Spec.fail
    · split
      · exact Spec.fail
      · rename_i h; exact Spec.pure ⟨hG, Nat.le_refl _, fun h' => h (.inr h')⟩
  · obtain ⟨hp1, hp2, hp3⟩ := hp
    cases p with
    | nil => exact absurd rfl hp3
    | cons c p =>
      have e : (skip (c :: p) 1 : P E Bytes) = pure p := by unfold skip adv; rw [if_pos (by simp)]; rfl
      rw [e, pure_bind]
      split
      · rename_i h
        have hGp : G p := by
          by_cases hc : c = 59
          · subst hc
            cases p with
            | nil => exact absurd h (by decide)
            | cons d p =>
              simp only [hd, List.headD_cons] at h
              subst h
              exact ok.semi2 hp1 (by decide)
          · exact ok.cons hp1 hc
        refine (skip_one ok hGp h (by decide) (by decide)).weaken fun r hr => ⟨hr.1, ?_⟩
        simp at hp2; omega
      · exact Spec.fail

theorem numeral_noSemi {v : Bytes} (h : Numeral v) : 59 ∉ v := by
  have hdg : ∀ {d : Bytes}, (∀ c ∈ d, Digit c) → 59 ∉ d := fun h h' => digit_ne (h 59 h') 59 (by decide) rfl
  cases h with
  | dec _ h => exact hdg h
  | bin h =>
    obtain ⟨d, rfl, -, h⟩ := h
    intro h'
    rcases List.mem_append.1 h' with h' | h'
    · rcases h 59 h' with h | h <;> exact absurd h (by decide)
    · simp at h'
  | @hex x d hx _ h =>
    intro h'
    simp at h'
    rcases h' with h' | h'
    · subst h'; rcases hx with h | h <;> exact absurd h (by decide)
    · rcases h 59 h' with h | h
      · exact digit_ne h 59 (by decide) rfl
      · exact absurd h (by decide)
  | @frac d f h1 h2 =>
    intro h'
    simp at h'
    rcases h' with h' | h'
    · exact hdg h1 h'
    · exact hdg h2 h'
  | @exp d f sg x e h1 _ h2 he hs _ hx =>
    intro h'
    simp at h'
    rcases h' with h' | h' | h' | h' | h'
    · exact hdg h1 h'
    · exact hdg h2 h'
    · subst h'; rcases he with h | h <;> exact absurd h (by decide)
    · rcases hs with h | h | h <;> subst h <;> simp at h'
    · exact hdg hx h'

theorem numHead_inv {s : Bytes} : ∃ o, numHead s = .ok o ∧ ∀ m t, o = some (m, t) →
    Lex.St m ∧ s = m.text ++ t ∧ (m.p0 = [] → m.part = 0 → ∃ c r, t = c :: r ∧ (Digit c ∨ c = 46)) := by
  cases s with
  | nil => exact ⟨none, rfl, by simp⟩
  | cons c s =>
    have plain : ∃ o, (if (isDec c || c == 46) = true then
        Out.ok (some ((⟨0, [], [], [], false, true, false⟩ : Num), c :: s)) else .ok none) = .ok o ∧
        ∀ m t, o = some (m, t) → Lex.St m ∧ c :: s = m.text ++ t ∧
          (m.p0 = [] → m.part = 0 → ∃ c r, t = c :: r ∧ (Digit c ∨ c = 46)) := by
      split
      · rename_i h
        refine ⟨_, rfl, ?_⟩
        rintro m t ⟨⟩
        refine ⟨St.a (d := []) (by simp), by simp [Num.text], fun _ _ => ⟨c, s, rfl, ?_⟩⟩
        simp only [Bool.or_eq_true, digit_iff, beq_iff_eq] at h
        exact h
      · exact ⟨_, rfl, by simp⟩
    by_cases hc : c = 48
    · subst hc
      cases s with
      | nil =>
        simp only [numHead, peek_zero, peek_one_nil, Out.bind_ok, if_true]
        simpa using plain
      | cons d s =>
        by_cases hd : d = 88 ∨ d = 120
        · have e : numHead (48 :: d :: s) = .ok (some (⟨0, [48, d], [], [], true, true, false⟩, s)) := by
            obtain ⟨c2, hc2⟩ := peek_ok s
            have hp1 : peek (48 :: d :: s) 1 = .ok d := rfl
            have ha : adv (48 :: d :: s) 2 = .ok s := rfl
            have hdd : (decide (d = 88) || decide (d = 120)) = true := by simpa using hd
            simp only [numHead, peek_zero, hp1, Out.bind_ok, if_true, hdd, ha, hc2]
            simp [Num.add]
          refine ⟨_, e, ?_⟩
          rintro m t ⟨⟩
          refine ⟨St.h (d := []) (by rcases hd with h | h; exact .inr h; exact .inl h) (by simp), by simp [Num.text], fun h => by simp at h⟩
        · have hp1 : peek (48 :: d :: s) 1 = .ok d := rfl
          have hdd : (decide (d = 88) || decide (d = 120)) = false := by simpa using hd
          simp only [numHead, peek_zero, hp1, Out.bind_ok, if_true, hdd, Bool.false_eq_true, if_false, Bool.or_false]
          simpa using plain
    · simp only [numHead, peek_zero, Out.bind_ok, hc, if_false, Bool.or_false]
      exact plain

theorem literalNumber_spec (ok : Ok M G) {s : Bytes} {N : Nat} (hG : G s) (hN : s.length < N) :
    Spec M (literalNumber N s : P E (Option Bytes)) (fun o => ∀ r, o = some r → G r ∧ r.length < s.length) := by
  unfold literalNumber
  refine Spec.bind (blanks_spec ok hG hN) fun t ht => ?_
  rw [lift_kw, pure_bind]
  split
  · exact Spec.pure (by simp)
  split
  · rename_i h39
    refine Spec.bind (skip_one ok ht.1 h39 (by decide) (by decide)) fun a ha => ?_
    refine Spec.bind (charLiteral_spec ok ha.1) fun r hr => ?_
    refine Spec.pure ?_
    rintro r' ⟨⟩
    exact ⟨hr.1, by omega⟩
  · obtain ⟨o, ho, hinv⟩ := numHead_inv (s := t)
    rw [ho]
    show Spec M ((pure o : P E _) >>= _) _
    rw [pure_bind]
    cases o with
    | none => exact Spec.pure (by simp)
    | some x =>
      obtain ⟨m, u⟩ := x
      obtain ⟨hst, e, h0⟩ := hinv m u rfl
      have hlu : u.length ≤ t.length := by rw [e]; simp
      simp only
      rcases loop_safe N m u (by omega) with h | ⟨m', v, h, hl⟩
      · rw [h]
        exact Spec.bind (Q := fun _ => False) Spec.fail fun _ h => h.elim
      · rw [h]
        show Spec M ((pure (m', v) : P E _) >>= _) _
        rw [pure_bind]
        obtain ⟨w, e2, e3, e4, -⟩ := loop_sound N m m' u v hst h h0
        have hsem : 59 ∉ m.text ++ w := by rw [← e3]; exact numeral_noSemi e4
        have hGv : G v := ok.drop (w := m.text ++ w) (by rw [List.append_assoc, ← e2, ← e]; exact ht.1) hsem
        have hpos : 0 < m'.text.length := by
          refine List.length_pos_iff.2 ?_
          generalize m'.text = v at e4
          cases e4 with
          | dec h _ => exact h
          | bin h => obtain ⟨d, e, -⟩ := h; rw [e]; simp
          | hex _ _ _ => simp
          | frac _ _ => simp
          | exp _ _ _ _ _ _ _ => simp
        have hlen : t.length = m'.text.length + v.length := by
          rw [e3, e, e2]; simp; omega
        simp only [lift_end, pure_bind]
        split
        · refine Spec.pure ?_
          rintro r ⟨⟩
          exact ⟨hGv, by omega⟩
        · exact Spec.pure (by simp)

/-! ### End of an expression -/

/-- The answer of `isAnon`. -/
def anonB (N : Nat) (s : Bytes) : Bool :=
  kw s == some kFunction && match ignoreBlanks N (s.drop 8) 0 with
    | some (.ok (r, _)) => hd r == 40
    | _ => false

/-- The answer of `endOrKeyword`. -/
def endsB (N : Nat) (s : Bytes) : Bool := !anonB N s && (endChar s || isStatementWord (kw s))

theorem isAnon_spec {s : Bytes} {N : Nat} (hz : NoNul s) (hN : s.length < N) :
    Spec M (isAnon N s : P E Bool) (fun b => b = anonB N s) := by
  unfold isAnon
  rw [lift_kw, pure_bind]
  split
  · rename_i hk
    obtain ⟨t, e⟩ := kw_prefix hk
    have hl : 8 ≤ s.length := by rw [← e]; simp [kFunction]
    have hs : (skip s 8 : P E Bytes) = pure (s.drop 8) := by unfold skip adv; rw [if_pos hl]; rfl
    have hz8 : NoNul (s.drop 8) := fun c hc => hz c (List.mem_of_mem_drop hc)
    rw [hs, pure_bind]
    intro st
    unfold P.catchNull
    show ∃ r st', P.andThen _ _ st = _ ∧ _
    unfold P.andThen blanks
    rcases blanks_safe N (s.drop 8) 0 hz8 (by rw [List.length_drop]; omega) with h | ⟨w, r, h, -⟩
    · rw [h]
      refine ⟨_, _, rfl, fun _ => rfl, ?_⟩
      show false = anonB N s
      simp [anonB, h]
    · rw [h]
      refine ⟨_, _, rfl, id, ?_⟩
      show (hd r == 40) = anonB N s
      simp [anonB, h, hk]
  · rename_i hk
    refine Spec.pure ?_
    simp [anonB, hk]

theorem endOrKeyword_spec {s : Bytes} {N : Nat} (hz : NoNul s) (hN : s.length < N) :
    Spec M (endOrKeyword N s : P E Bool) (fun b => b = endsB N s) := by
  unfold endOrKeyword
  rw [lift_kw, pure_bind]
  refine Spec.bind (isAnon_spec hz hN) fun b hb => ?_
  subst hb
  exact Spec.pure rfl

end Verif.Parse
