import Verif.Compiler.ParseSpec
/-
What the functions of `Parse.lean` satisfy, from the tokens up to the statements. Every lemma is stated for an
arbitrary mode, an arbitrary set `G` of texts with the properties `Ok`, and recursive functions that satisfy
their specification on all shorter texts (`RecOk`).
-/
namespace Verif.Parse
open Verif Verif.Str Verif.Lex P

variable {E : Sem} {α β : Type} {M : Mode} {G : Bytes → Prop} {R : Rec E} {N n : Nat}

/-! ### The recursive functions -/

/-- The text of a type after `new`: names and dots, without blanks. -/
def Dotted (x : Bytes) : Prop := (∀ c ∈ x, isIdChar c = true ∨ c = 46) ∧ isIdStart (hd x) = true

/-- What a sub-expression returns: a position not before the start, and behind it unless an expression ends
there. -/
def SubQ (G : Bytes → Prop) (N : Nat) (s : Bytes) (e : Option Bytes) (r : Bytes) : Prop :=
  G r ∧ r.length ≤ s.length ∧ (∀ l, e = some l → l.contains 63 = false → l.contains (hd r) = true) ∧
    (r.length < s.length ∨ endsB N s = true ∧ hd s ≠ 41 ∧ hd s ≠ 44 ∧ hd s ≠ 93)

/-- What the statements return. -/
def StmtQ (G : Bytes → Prop) (ret : Bool) (s r : Bytes) : Prop :=
  Fin G r ∧ r.length ≤ s.length ∧ (ret = false → hd r = 0 ∨ hd r = 125)

structure RecOk (M : Mode) (G : Bytes → Prop) (N n : Nat) (R : Rec E) : Prop where
  sub : ∀ s e props, G s → s.length < n → Spec M (R.sub s e props) (SubQ G N s e)
  rcv : ∀ b s, G s → s.length < n → Spec M (R.recursive b s) (StmtQ G b s)
  dot : ∀ x, Dotted x → x.length < n → Spec M (R.sub x none { onlyToken := true }) (fun _ => True)

theorem Ok.loosen (ok : Ok M G) : Ok ⟨True, M.wild⟩ G where
  noNul := ok.noNul
  nonempty := ok.nonempty
  cons := ok.cons
  semi := ok.semi
  semi2 := ok.semi2
  comment := ok.comment
  block := ok.block
  all := ok.all
  quote := ok.quote
  cls := fun h1 h2 => ⟨(ok.cls h1 h2).1, trivial⟩
  static := fun _ _ => trivial
  const := ok.const
  len := ok.len
  crlf := fun _ => .inl trivial

/-! ### Small facts -/

theorem pre2 {s : Bytes} {a b : UInt8} (h1 : hd s = a) (h2 : hd2 s = b) (ha : a ≠ 0) (hb : b ≠ 0) : [a, b] <+: s := by
  match s with
  | [] => exact absurd h1.symm ha
  | [c] => exact absurd h2.symm hb
  | c :: d :: s =>
    simp [hd] at h1
    simp [hd2, hd] at h2
    subst h1 h2
    exact ⟨s, rfl⟩

theorem quoteEnd_suffix : ∀ (c : UInt8) (s : Bytes), quoteEnd c s <:+ s
  | _, [] => List.suffix_refl _
  | c, d :: s => by
    unfold quoteEnd
    split
    · exact List.suffix_refl _
    · exact (quoteEnd_suffix d s).trans (List.suffix_cons _ _)

/-- A continuation shared by several branches is checked once. -/
theorem Spec.join {k : α → P E β} {m : P E β} {Q' : β → Prop} (Q : α → Prop)
    (h1 : (∀ a, Q a → Spec M (k a) Q') → Spec M m Q') (h2 : ∀ a, Q a → Spec M (k a) Q') : Spec M m Q' := h1 h2

theorem hd_cons (c : UInt8) (s : Bytes) : hd (c :: s) = c := rfl

theorem cons_of_hd {s : Bytes} {c : UInt8} (h : hd s = c) (h0 : c ≠ 0) : s = c :: s.tail := by
  cases s with
  | nil => exact absurd h.symm h0
  | cons d s => rw [hd_cons] at h; subst h; rfl

theorem kw_hd {s k : Bytes} (h : kw s = some k) : hd s = hd k := by
  obtain ⟨hm, t, rfl, -⟩ := kw_some h
  have : ∀ k ∈ keywords, k ≠ [] := by decide
  cases k with
  | nil => exact absurd rfl (this _ hm)
  | cons c k => rfl

/-! ### Tokens -/

theorem symbol_spec (ok : Ok M G) {s : Bytes} {pre : Option Bytes} (hG : G s) (hN : s.length < N) :
    Spec M (symbol N pre s : P E Tok) (fun t => G t.rest ∧ t.rest.length < s.length) := by
  unfold symbol
  refine Spec.bind (literalNumber_spec ok hG hN) fun o ho => ?_
  cases o with
  | some r =>
    have hr := ho r rfl
    refine Spec.bind Spec.query fun b _ => ?_
    split
    · exact Spec.pure hr
    refine Spec.bind Spec.query fun b _ => ?_
    split
    · split
      · exact Spec.fail
      · exact Spec.pure hr
    · exact Spec.fail
  | none =>
    refine Spec.chk ?_
    split
    · rename_i h34
      have hs := cons_of_hd h34 (by decide)
      have hw : M.wild := ok.quote (hs ▸ hG)
      have hsuf : (quoteEnd 34 s.tail) <:+ s := (quoteEnd_suffix _ _).trans (List.tail_suffix _)
      have hql := (quoteEnd_suffix 34 s.tail).length_le
      have hsl : s.tail.length < s.length := by have := congrArg List.length hs; simp at this; simp; omega
      simp only []
      split
      · have hend : G (quoteEnd 34 s.tail).tail ∧ (quoteEnd 34 s.tail).tail.length < s.length := by
          refine ⟨ok.all hw hG ((List.tail_suffix _).trans hsuf), ?_⟩
          have := (List.tail_suffix (quoteEnd 34 s.tail)).length_le
          omega
        split
        · exact Spec.bind (copyDiff_spec (.inl hw)) fun _ _ => Spec.pure hend
        · exact Spec.pure hend
      · exact Spec.fail
    · by_cases hne : s = []
      · subst hne
        exact Spec.bind (Q := fun _ => False) (Spec.ub (ok.nonempty hG)) fun _ h => h.elim
      · obtain ⟨c, w, t, h1, h2, h3⟩ := scanSymbol_ok s hne
        have good : c ≠ 59 → G t ∧ t.length < s.length := by
          intro hc
          refine ⟨ok.drop (ok.cons (h2 ▸ hG) hc) h3, ?_⟩
          rw [h2]; simp; omega
        have hzt : NoNul t := (ok.noNul hG).suffix ⟨c :: w, by rw [h2]; rfl⟩
        have htl : t.length < s.length := by rw [h2]; simp; omega
        rw [h1]
        show Spec M ((pure (c :: w, t) : P E _) >>= _) _
        rw [pure_bind]
        simp only []
        split
        · rename_i h
          refine Spec.pure (good ?_)
          rcases h with h | h <;> injection h with h _ <;> subst h <;> decide
        split
        · rename_i h
          refine Spec.pure (good ?_)
          rintro rfl
          rcases h with h | h <;> simp [lower] at h
        split
        · rename_i h
          refine Spec.pure (good ?_)
          injection h with h _; subst h; decide
        split
        · rename_i h
          refine Spec.bind (blanks_any hzt (by omega)) fun u _ => ?_
          split
          · refine Spec.pure (good ?_)
            injection h with h _; subst h; decide
          · exact Spec.fail
        · refine Spec.bind (nameOk_spec _) fun b hb => ?_
          split
          · rename_i hbt
            refine Spec.bind Spec.need fun _ _ => Spec.pure (good ?_)
            exact idStart_ne (hb hbt).2 (by decide)
          · exact Spec.fail

theorem staticRef_spec (ok : Ok M G) {t : Tok} (hG : G t.rest) (hN : t.rest.length < N) :
    Spec M (staticRef N t : P E Tok) (fun t' => G t'.rest ∧ t'.rest.length ≤ t.rest.length) := by
  unfold staticRef
  split
  · rename_i h
    obtain ⟨hd1, hd2⟩ := drop_spec ok hG (pre2 h.2.1 h.2.2 (by decide) (by decide)) (by decide) (k := 2) rfl
    refine Spec.bind (blanks_spec ok hd1 (by omega)) fun p hp => ?_
    refine Spec.bind (accessorName_spec ok hp.1) fun x hx => ?_
    refine Spec.bind Spec.need fun _ _ => Spec.pure ⟨hx.1, ?_⟩
    simp only; omega
  · exact Spec.pure ⟨hG, Nat.le_refl _⟩

/-! ### Expressions -/

theorem expression_spec (ok : Ok M G) {sub : Bytes → Option Bytes → Props → P E Bytes} {props : Props} {s : Bytes}
    (hsub : ∀ q e pr, G q → q.length ≤ s.length → Spec M (sub q e pr) (SubQ G N q e)) (hG : G s) (hN : s.length < N) :
    Spec M (expression sub N s props) (SubQ G N s none) := by
  unfold expression
  refine Spec.bind (hsub s none props hG (Nat.le_refl _)) fun q hq => ?_
  obtain ⟨hq1, hq2, -, hq4⟩ := hq
  extract_lets -underBinder jp
  refine Spec.join (k := jp) (SubQ G N s none) (fun hjp => ?_) fun r hr => Spec.bind Spec.need fun _ _ => Spec.pure hr
  clear_value jp
  split
  · rename_i h
    refine Spec.bind Spec.query fun only _ => Spec.bind ?_ hjp
    refine Spec.loop (fun x : Bool × Bool × Bytes => G x.2.2 ∧ x.2.2.length ≤ s.length ∧ (hd x.2.2 = 44 ∨ hd x.2.2 = 61))
      (fun x => x.2.2.length) ?_ N (false, only, q) ⟨hq1, hq2, .inl h.2⟩ (by simp only; omega)
    rintro ⟨right, only, q⟩ ⟨hb1, hb2, hb3⟩
    simp only at hb1 hb2 hb3
    have ht : G q.tail ∧ q.tail.length < q.length := by
      rcases hb3 with h | h
      · exact ok.tail hb1 h (by decide) (by decide)
      · exact ok.tail hb1 h (by decide) (by decide)
    unfold seqRound
    refine Spec.bind (hsub q.tail none _ ht.1 (by omega)) fun v hv => ?_
    obtain ⟨hv1, hv2, -, -⟩ := hv
    have hres : SubQ G N s none v := ⟨hv1, by omega, by simp, .inl (by omega)⟩
    extract_lets -underBinder jp
    refine Spec.join (k := jp) (fun _ => True) (fun hjp => ?_) fun op _ => ?_
    · clear_value jp
      split
      · rw [lift_opr]; exact Spec.bind (Spec.pure trivial) hjp
      · exact Spec.bind (Spec.pure trivial) hjp
    simp -zeta only [jp]
    split
    · exact Spec.pure hres
    refine Spec.bind Spec.query fun o _ => ?_
    extract_lets -underBinder o2 jp2
    refine Spec.join (k := jp2) (fun _ => True) (fun hjp => ?_) fun rt _ => ?_
    · clear_value jp2
      split
      · exact Spec.bind Spec.need fun _ _ => Spec.bind (Spec.pure trivial) hjp
      · exact Spec.bind (Spec.pure trivial) hjp
    simp -zeta only [jp2]
    split
    · rename_i h
      exact Spec.pure ⟨⟨hv1, by simp only; omega, h⟩, by simp only; omega⟩
    · exact Spec.pure hres
  · exact Spec.bind (Spec.pure ⟨hq1, hq2, by simp, hq4⟩) hjp

/-! ### Blocks and functions -/

theorem block_spec (ok : Ok M G) (hR : RecOk M G N n R) {s : Bytes} (hG : G s) (h123 : hd s = 123) (hn : s.length ≤ n)
    (hN : 256 * (n + 2) ≤ N) : Spec M (block R N s) (fun r => G r ∧ r.length < s.length) := by
  unfold block
  rw [blanks_solid (by omega) (by rw [h123]; decide), pure_bind, if_pos h123]
  have ht := ok.tail hG h123 (by decide) (by decide)
  refine Spec.bind Spec.need fun _ _ => ?_
  refine Spec.bind (hR.rcv false _ ht.1 (by omega)) fun q hq => ?_
  obtain ⟨hq1, hq2, -⟩ := hq
  split
  · rename_i h
    have hq3 := ok.tail (hq1.good h (by decide) (by decide)) h (by decide) (by decide)
    exact Spec.pure ⟨hq3.1, by omega⟩
  · exact Spec.fail

theorem memberExt_spec (ok : Ok M G) (hq : M.quiet) {s : Bytes} (hG : G s) (hN : s.length < N) :
    Spec M (memberExt N s : P E (Bytes × Bytes)) (fun x => G x.2 ∧ x.2.length < s.length) := by
  unfold memberExt
  refine Spec.bind (blanks_spec ok hG hN) fun p hp => ?_
  refine Spec.bind (identifier_spec ok hp.1) fun x hx => ?_
  obtain ⟨_, r⟩ := x
  obtain ⟨hx1, hx2, hx3, -⟩ := hx
  simp only at hx1 hx2 hx3 ⊢
  refine Spec.bind (blanks_spec ok hx1 (by omega)) fun t ht => ?_
  split
  · rename_i h
    obtain ⟨hd1, hd2⟩ := drop_spec ok ht.1 (pre2 h.1 h.2 (by decide) (by decide)) (by decide) (k := 2) rfl
    refine Spec.bind (Spec.catchNull (Spec.loosen (identifier_spec ok hd1))) fun o ho => ?_
    refine Spec.bind Spec.need fun _ _ => ?_
    cases o with
    | none => exact Spec.nul hq
    | some e =>
      obtain ⟨h1, h2, h3, -⟩ := ho e rfl
      exact Spec.pure ⟨h1, by omega⟩
  · exact Spec.nul hq

theorem passing_spec (ok : Ok M G) {p : Bytes} (hG : G p) (hN : p.length < N) :
    Spec M (passing N p : P E (Passing × Bytes)) (fun x => G x.2 ∧ x.2.length ≤ p.length) := by
  unfold passing
  split
  · rename_i h
    obtain ⟨hd1, hd2⟩ := drop_spec ok hG ((startsWith_iff _ _).1 h) (by decide) (k := 3) rfl
    exact Spec.bind (blanks_spec ok hd1 (by omega)) fun q hq => Spec.pure ⟨hq.1, by simp only; omega⟩
  · rw [lift_kw, pure_bind]
    cases hk : kw p with
    | none => exact Spec.pure ⟨hG, Nat.le_refl _⟩
    | some k =>
      simp only []
      split
      · rename_i hr
        subst hr
        obtain ⟨hd1, hd2⟩ := drop_spec ok hG (kw_prefix hk) (by decide) (k := 3) rfl
        exact Spec.bind (blanks_spec ok hd1 (by omega)) fun q hq => Spec.pure ⟨hq.1, by simp only; omega⟩
      · exact Spec.fail

/-- The comma before all but the first. -/
theorem comma_spec (ok : Ok M G) {p : Bytes} (hG : G p) (hN : p.length < N) :
    Spec M (if hd p = 44 then blanks N p.tail else P.fail : P E Bytes) (fun q => G q ∧ q.length < p.length) := by
  split
  · rename_i h
    obtain ⟨h1, h2⟩ := ok.tail hG h (by decide) (by decide)
    exact (blanks_spec ok h1 (by omega)).weaken fun q hq => ⟨hq.1, by omega⟩
  · exact Spec.fail

theorem params_spec (ok : Ok M G) (hR : RecOk M G N n R) {p : Bytes} (hG : G p) (hn : p.length < n)
    (hN : 256 * (n + 2) ≤ N) :
    Spec M (loop N (param R N) (false, p)) (fun r => G r ∧ r.length ≤ p.length ∧ (hd r = 0 ∨ hd r = 41)) := by
  refine Spec.loop (fun x : Bool × Bytes => G x.2 ∧ x.2.length ≤ p.length) (fun x => x.2.length) ?_ N (false, p)
    ⟨hG, Nat.le_refl _⟩ (by simp only; omega)
  rintro ⟨sm, b⟩ ⟨hb1, hb2⟩
  simp only at hb1 hb2
  unfold param
  dsimp -zeta only
  split
  · rename_i h
    exact Spec.pure ⟨hb1, hb2, h⟩
  refine Spec.bind (blanks_spec ok hb1 (by omega)) fun q hq => ?_
  extract_lets -underBinder jp
  refine Spec.join (k := jp) (fun q2 => G q2 ∧ q2.length ≤ q.length) (fun hjp => ?_) fun q2 hq2 => ?_
  · clear_value jp
    split
    · exact Spec.bind ((comma_spec ok hq.1 (by omega)).weaken fun _ h => ⟨h.1, Nat.le_of_lt h.2⟩) hjp
    · exact Spec.bind (Spec.pure ⟨hq.1, Nat.le_refl _⟩) hjp
  simp -zeta only [jp]
  split
  · exact Spec.fail
  refine Spec.bind (passing_spec ok hq2.1 (by omega)) fun x hx => ?_
  obtain ⟨k, q3⟩ := x
  simp only at hx ⊢
  refine Spec.bind (identifier_spec ok hx.1) fun y hy => ?_
  obtain ⟨nm, r⟩ := y
  obtain ⟨hy1, hy2, hy3, -⟩ := hy
  simp only at hy1 hy2 hy3 ⊢
  refine Spec.bind (copyDiff_spec ?_) fun _ _ => ?_
  · rcases ok.len hx.1 with h | h
    · exact .inl h
    · exact .inr (by omega)
  refine Spec.bind (blanks_spec ok hy1 (by omega)) fun t ht => ?_
  split
  · exact Spec.fail
  split
  · rename_i h61
    split
    · exact Spec.fail
    obtain ⟨h1, h2⟩ := ok.tail ht.1 h61 (by decide) (by decide)
    refine Spec.bind (blanks_spec ok h1 (by omega)) fun u hu => ?_
    refine Spec.bind (expression_spec ok (fun q e pr hq hql => hR.sub q e pr hq (by omega)) hu.1 (by omega)) fun v hv => ?_
    obtain ⟨hv1, hv2, -⟩ := hv
    exact Spec.bind Spec.need fun _ _ => Spec.pure ⟨⟨hv1, by simp only; omega⟩, by simp only; omega⟩
  · exact Spec.pure ⟨⟨ht.1, by simp only; omega⟩, by simp only; omega⟩

theorem functionName_spec (ok : Ok M G) {cls anon : Bool} {p : Bytes} (hG : G p) (hN : p.length < N)
    (hq : M.quiet ∨ anon = true ∨ hd p ≠ 40) :
    Spec M (functionName N cls anon p : P E Bytes) (fun r => G r ∧ r.length ≤ p.length) := by
  unfold functionName
  split
  · rename_i h
    split
    · exact Spec.pure ⟨hG, Nat.le_refl _⟩
    · rename_i ha
      refine Spec.nul ?_
      rcases hq with h' | h' | h'
      · exact h'
      · exact absurd h' ha
      · exact absurd h h'
  · extract_lets -underBinder jp
    refine Spec.join (k := jp) (fun o => ∀ e : Bytes × Bytes, o = some e → G e.2 ∧ e.2.length < p.length) (fun hjp => ?_)
      fun o ho => ?_
    · clear_value jp
      split
      · exact Spec.bind (Spec.pure (by simp)) hjp
      · refine Spec.bind (Spec.catchNull (memberExt_spec ok.loosen trivial hG hN)) fun o ho => ?_
        exact Spec.chk (Spec.bind (Spec.pure ho) hjp)
    · simp -zeta only [jp]
      have hend : ∀ r, G r ∧ r.length ≤ p.length → Spec M (blanks N r : P E Bytes) (fun r => G r ∧ r.length ≤ p.length) :=
        fun r hr => (blanks_spec ok hr.1 (by omega)).weaken fun q hq => ⟨hq.1, by omega⟩
      cases o with
      | some e =>
        obtain ⟨h1, h2⟩ := ho e rfl
        exact Spec.bind (Spec.pure ⟨h1, by omega⟩) hend
      | none =>
        exact Spec.bind (identifier_spec ok hG) fun x hx =>
          Spec.bind (Spec.pure ⟨hx.1, by have := hx.2.1; omega⟩) hend

theorem keywordFunction_spec (ok : Ok M G) (hR : RecOk M G N n R) {cls anon : Bool} {s : Bytes} (hG : G s)
    (hn : s.length ≤ n) (hN : 256 * (n + 2) ≤ N)
    (hq : M.quiet ∨ (kw s = some kFunction ∧ (anon = true ∨ anonB N s = false))) :
    Spec M (keywordFunction R N cls anon s) (fun r => G r ∧ r.length < s.length) := by
  unfold keywordFunction
  rw [lift_kw, pure_bind]
  extract_lets -underBinder static jp
  refine Spec.join (k := jp) (fun p => G p ∧ p.length ≤ s.length ∧ (M.quiet ∨ p = s)) (fun hjp => ?_) fun p hp => ?_
  · clear_value jp
    split
    · rename_i h
      have hk : kw s = some kStatic := by simpa [static] using h
      refine Spec.bind (skip_spec ok hG (kw_prefix hk) (by decide) (k := 6) rfl) fun a ha => Spec.bind ?_ hjp
      exact (blanks_spec ok ha.1 (by omega)).weaken fun q hq => ⟨hq.1, by omega, .inl (ok.static hG (kw_prefix hk))⟩
    · exact Spec.bind (Spec.pure ⟨hG, Nat.le_refl _, .inr rfl⟩) hjp
  obtain ⟨hp1, hp2, hp3⟩ := hp
  show Spec M (lift (isKeyword p) >>= _) _
  rw [lift_kw, pure_bind]
  extract_lets -underBinder isFn jp2
  refine Spec.join (k := jp2) (fun q => G q ∧ q.length ≤ s.length ∧
    (kw p = some kFunction → ∃ k, ignoreBlanks N (p.drop 8) 0 = some (.ok (q, k)))) (fun hjp => ?_) fun q hqq => ?_
  · clear_value jp2
    split
    · rename_i h
      have hk : kw p = some kFunction := by simpa [isFn] using h
      have hpre := kw_prefix hk
      have hl : 8 ≤ p.length := by have := hpre.length_le; simpa [kFunction] using this
      have hs : (skip p 8 : P E Bytes) = pure (p.drop 8) := by unfold skip adv; rw [if_pos hl]; rfl
      obtain ⟨hd1, hd2⟩ := drop_spec ok hp1 hpre (by decide) (k := 8) rfl
      rw [hs, pure_bind]
      refine Spec.bind ?_ hjp
      exact (blanks_full ok hd1 (by omega)).weaken fun q hq => ⟨hq.1, by have := hq.2.1.length_le; omega, fun _ => hq.2.2⟩
    · rename_i h
      exact Spec.bind (Spec.pure ⟨hp1, hp2, fun hk => absurd hk (by simpa [isFn] using h)⟩) hjp
  obtain ⟨hq1, hq2, hq3⟩ := hqq
  simp -zeta only [jp2]
  split
  · -- the blanks once more
    refine Spec.bind (Q := fun r => G r ∧ r.length ≤ s.length ∧ (M.quiet ∨ anon = true ∨ hd r ≠ 40)) ?_ fun r hr => ?_
    · rcases hq with h | ⟨hk, ha⟩
      · exact (blanks_spec ok hq1 (by omega)).weaken fun r hr => ⟨hr.1, by omega, .inl h⟩
      rcases ha with h | ha
      · exact (blanks_spec ok hq1 (by omega)).weaken fun r hr => ⟨hr.1, by omega, .inr (.inl h)⟩
      rcases hp3 with h | rfl
      · exact (blanks_spec ok hq1 (by omega)).weaken fun r hr => ⟨hr.1, by omega, .inl h⟩
      obtain ⟨k, hk2⟩ := hq3 hk
      obtain ⟨hd1, hd2⟩ := drop_spec ok hp1 (kw_prefix hk) (by decide) (k := 8) rfl
      rcases ok.crlf hd1 with h | h
      · exact (blanks_spec ok hq1 (by omega)).weaken fun r hr => ⟨hr.1, by omega, .inl h⟩
      · rw [blanks_twice (ok.noNul hd1) h (by omega) hk2]
        refine Spec.pure ⟨hq1, hq2, .inr (.inr ?_)⟩
        intro h40
        simp [anonB, hk, hk2, h40] at ha
    obtain ⟨hr1, hr2, hr3⟩ := hr
    refine Spec.bind (functionName_spec ok hr1 (by omega) hr3) fun u hu => ?_
    split
    · rename_i h40
      obtain ⟨h1, h2⟩ := ok.tail hu.1 h40 (by decide) (by decide)
      refine Spec.bind (blanks_spec ok h1 (by omega)) fun v hv => ?_
      refine Spec.bind (params_spec ok hR hv.1 (by omega) hN) fun w hw => ?_
      obtain ⟨hw1, hw2, hw3⟩ := hw
      refine Spec.bind (Q := fun r => G r ∧ r.length < s.length) ?_ fun x hx => ?_
      · rcases hw3 with h | h
        · have := hd_zero (ok.noNul hw1) h
          subst this
          exact Spec.ub (ok.nonempty hw1)
        · exact (skip_one ok hw1 h (by decide) (by decide)).weaken fun r hr => ⟨hr.1, by omega⟩
      refine Spec.bind (blanks_spec ok hx.1 (by omega)) fun y hy => ?_
      split
      · rename_i h123
        refine Spec.bind Spec.need fun _ _ => Spec.bind Spec.need fun _ _ => ?_
        refine Spec.bind (block_spec ok hR hy.1 h123 (by omega) hN) fun z hz => ?_
        refine Spec.bind Spec.query fun b _ => ?_
        split
        · exact Spec.pure ⟨hz.1, by omega⟩
        · exact Spec.bind Spec.mark fun _ _ => Spec.pure ⟨hz.1, by omega⟩
      · exact Spec.fail
    · exact Spec.fail
  · rename_i hc
    refine Spec.nul ?_
    rcases hq with h | ⟨hk, -⟩
    · exact h
    rcases hp3 with h | rfl
    · exact h
    · simp [isFn, hk] at hc

/-! ### Inline objects -/

theorem objectKey_spec (ok : Ok M G) {p : Bytes} (hG : G p) : Spec M (objectKey p : P E (Bytes × Option Bytes))
    (fun x => (∀ e, x.2 = some e → G e ∧ e.length < p.length) ∧ (x.2 = none → x.1 = [] ∨ M.wild)) := by
  unfold objectKey
  split
  · rename_i h34
    have hs := cons_of_hd h34 (by decide)
    have hw : M.wild := ok.quote (hs ▸ hG)
    have hsl : p.tail.length < p.length := by have := congrArg List.length hs; simp at this; simp; omega
    have hsuf : (quoteEnd 34 p.tail) <:+ p := (quoteEnd_suffix _ _).trans (List.tail_suffix _)
    have hql := (quoteEnd_suffix 34 p.tail).length_le
    simp only []
    split
    · refine Spec.pure ⟨?_, by simp⟩
      rintro e ⟨⟩
      refine ⟨ok.all hw hG ((List.tail_suffix _).trans hsuf), ?_⟩
      have := (List.tail_suffix (quoteEnd 34 p.tail)).length_le
      omega
    · exact Spec.bind Spec.mark fun _ _ => Spec.pure ⟨by simp, fun _ => .inr hw⟩
  · rcases identifier_inv (ok.noNul hG) with h | ⟨n, t, h, e, h1, h2, h3⟩
    · rw [h]; exact Spec.pure ⟨by simp, fun _ => .inl rfl⟩
    · rw [h]
      refine Spec.pure ⟨?_, by simp⟩
      rintro e' ⟨⟩
      refine ⟨ok.drop (e ▸ hG) (noSemi_of_id h3), ?_⟩
      have := List.length_pos_iff.2 h1
      rw [e]; simp; omega

theorem objectTest_spec (ok : Ok M G) {s : Bytes} (hG : G s) (hN : s.length < N) :
    Spec M (objectTest N s : P E Bool) (fun _ => True) := by
  unfold objectTest
  refine Spec.bind (Spec.catchNull (Q := fun _ => True) ?_) fun o _ => ?_
  · have ok' := ok.loosen
    refine Spec.bind (blanks_spec ok' hG hN) fun p hp => ?_
    split
    · rename_i h
      obtain ⟨h1, h2⟩ := ok'.tail hp.1 h (by decide) (by decide)
      refine Spec.bind (blanks_spec ok' h1 (by omega)) fun q hq => ?_
      split
      · exact Spec.pure trivial
      refine Spec.bind (objectKey_spec ok' hq.1) fun x hx => ?_
      obtain ⟨_, e⟩ := x
      simp only at hx ⊢
      refine Spec.bind Spec.flag fun b _ => ?_
      split
      · exact Spec.pure trivial
      cases e with
      | none => exact Spec.pure trivial
      | some e =>
        obtain ⟨h3, h4⟩ := hx.1 e rfl
        exact Spec.bind (blanks_spec ok' h3 (by omega)) fun _ _ => Spec.pure trivial
    · exact Spec.pure trivial
  · cases o with
    | none => exact Spec.pure trivial
    | some b => exact Spec.pure trivial

theorem objectObject_spec (ok : Ok M G) (hR : RecOk M G N n R) {s : Bytes} (hG : G s) (hn : s.length ≤ n)
    (hN : 256 * (n + 2) ≤ N) : Spec M (objectObject R N s) (fun r => G r ∧ r.length < s.length) := by
  unfold objectObject
  split
  · rename_i h
    obtain ⟨h1, h2⟩ := ok.tail hG h (by decide) (by decide)
    refine Spec.bind (blanks_spec ok h1 (by omega)) fun p hp => ?_
    refine Spec.bind (Q := fun r => G r ∧ r.length ≤ p.length) ?_ fun r hr => ?_
    · refine Spec.loop (fun x : Bool × Bytes => G x.2 ∧ x.2.length ≤ p.length) (fun x => x.2.length) ?_ N (false, p)
        ⟨hp.1, Nat.le_refl _⟩ (by simp only; omega)
      rintro ⟨sm, b⟩ ⟨hb1, hb2⟩
      simp only at hb1 hb2
      unfold objectItem
      dsimp -zeta only
      split
      · exact Spec.pure ⟨hb1, hb2⟩
      refine Spec.bind (blanks_spec ok hb1 (by omega)) fun q hq => ?_
      extract_lets -underBinder jp
      refine Spec.join (k := jp) (fun q2 => G q2 ∧ q2.length ≤ q.length) (fun hjp => ?_) fun q2 hq2 => ?_
      · clear_value jp
        split
        · exact Spec.bind ((comma_spec ok hq.1 (by omega)).weaken fun _ h => ⟨h.1, Nat.le_of_lt h.2⟩) hjp
        · exact Spec.bind (Spec.pure ⟨hq.1, Nat.le_refl _⟩) hjp
      simp -zeta only [jp]
      rw [lift_kw, pure_bind]
      split
      · exact Spec.fail
      refine Spec.bind (objectKey_spec ok hq2.1) fun x hx => ?_
      obtain ⟨nm, e⟩ := x
      simp only at hx ⊢
      split
      · exact Spec.fail
      rename_i hnm
      cases e with
      | none =>
        refine Spec.ub ?_
        rcases hx.2 rfl with h | h
        · exact absurd h hnm
        · exact h
      | some e =>
        obtain ⟨h3, h4⟩ := hx.1 e rfl
        refine Spec.bind (blanks_spec ok h3 (by omega)) fun t ht => ?_
        split
        · rename_i h58
          obtain ⟨h5, h6⟩ := ok.tail ht.1 h58 (by decide) (by decide)
          refine Spec.bind (blanks_spec ok h5 (by omega)) fun u hu => ?_
          split
          · exact Spec.fail
          refine Spec.bind (hR.sub u none {} hu.1 (by omega)) fun v hv => ?_
          obtain ⟨hv1, hv2, -⟩ := hv
          exact Spec.pure ⟨⟨hv1, by simp only; omega⟩, by simp only; omega⟩
        · exact Spec.fail
    · split
      · rename_i h125
        obtain ⟨h3, h4⟩ := ok.tail hr.1 h125 (by decide) (by decide)
        exact Spec.pure ⟨h3, by omega⟩
      · exact Spec.fail
  · exact Spec.fail

theorem objectVector_spec (ok : Ok M G) (hR : RecOk M G N n R) {s : Bytes} (hG : G s) (hn : s.length ≤ n)
    (hN : 256 * (n + 2) ≤ N) : Spec M (objectVector R N s) (fun r => G r ∧ r.length < s.length) := by
  unfold objectVector
  refine Spec.bind (blanks_spec ok hG (by omega)) fun p0 hp0 => ?_
  split
  · rename_i h
    obtain ⟨h1, h2⟩ := ok.tail hp0.1 h (by decide) (by decide)
    refine Spec.bind (blanks_spec ok h1 (by omega)) fun p hp => ?_
    refine Spec.bind (Q := fun r => G r ∧ r.length ≤ p.length) ?_ fun r hr => ?_
    · refine Spec.loop (fun x : Bool × Bytes => G x.2 ∧ x.2.length ≤ p.length)
        (fun x => 2 * x.2.length + (!x.1).toNat) ?_ N (false, p)
        ⟨hp.1, Nat.le_refl _⟩ (by simp; omega)
      rintro ⟨sm, b⟩ ⟨hb1, hb2⟩
      simp only at hb1 hb2
      unfold arrayItem
      dsimp -zeta only
      split
      · exact Spec.pure ⟨hb1, hb2⟩
      refine Spec.bind (blanks_spec ok hb1 (by omega)) fun q hq => ?_
      extract_lets -underBinder jp
      refine Spec.join (k := jp) (fun q2 => G q2 ∧ q2.length ≤ q.length ∧ (sm = true → q2.length < q.length)) (fun hjp => ?_)
        fun q2 hq2 => ?_
      · clear_value jp
        split
        · exact Spec.bind ((comma_spec ok hq.1 (by omega)).weaken fun _ h => ⟨h.1, Nat.le_of_lt h.2, fun _ => h.2⟩) hjp
        · rename_i hs
          split
          · exact Spec.bind (Q := fun _ => False) Spec.fail fun _ h => h.elim
          · exact Spec.bind (Spec.pure ⟨hq.1, Nat.le_refl _, fun h => absurd h hs⟩) hjp
      simp -zeta only [jp]
      refine Spec.bind (hR.sub q2 none {} hq2.1 (by omega)) fun v hv => ?_
      obtain ⟨hv1, hv2, -⟩ := hv
      refine Spec.pure ⟨⟨hv1, by simp only; omega⟩, ?_⟩
      cases sm with
      | false => simp; omega
      | true => have := hq2.2.2 rfl; simp; omega
    · split
      · rename_i h93
        obtain ⟨h3, h4⟩ := ok.tail hr.1 h93 (by decide) (by decide)
        exact Spec.pure ⟨h3, by omega⟩
      · exact Spec.fail
  · exact Spec.fail

theorem newNames_spec (ok : Ok M G) {p : Bytes} (hG : G p) (hN : p.length < N) :
    Spec M (loop N (newName N) ([], p) : P E (Bytes × Bytes))
      (fun x => G x.2 ∧ x.2.length ≤ p.length ∧ hd x.2 = 40 ∧ Dotted x.1 ∧ x.1.length ≤ p.length) := by
  refine Spec.loop (fun x : Bytes × Bytes => G x.2 ∧ x.1.length + x.2.length ≤ p.length ∧
      (∀ c ∈ x.1, isIdChar c = true ∨ c = 46) ∧ (x.1 = [] ∨ isIdStart (hd x.1) = true)) (fun x => x.2.length) ?_ N ([], p)
    ⟨hG, by simp, by simp, .inl rfl⟩ hN
  rintro ⟨x, q⟩ ⟨hb1, hb2, hb3, hb4⟩
  simp only at hb1 hb2 hb3 hb4
  unfold newName
  refine Spec.bind (identifier_spec ok hb1) fun y hy => ?_
  obtain ⟨nm, r⟩ := y
  obtain ⟨hy1, hy2, hy3, hy4, hy5⟩ := hy
  simp only at hy1 hy2 hy3 hy4 hy5 ⊢
  have hch : ∀ c ∈ x ++ nm, isIdChar c = true ∨ c = 46 := by
    intro c hc
    rcases List.mem_append.1 hc with h | h
    · exact hb3 c h
    · exact .inl (hy5 c h)
  have hhd : isIdStart (hd (x ++ nm)) = true := by
    rcases hb4 with h | h
    · subst h; exact hy4
    · cases x with
      | nil => exact hy4
      | cons c x => exact h
  refine Spec.bind (blanks_spec ok hy1 (by omega)) fun t ht => ?_
  split
  · rename_i h46
    obtain ⟨h5, h6⟩ := ok.tail ht.1 h46 (by decide) (by decide)
    refine Spec.bind (blanks_spec ok h5 (by omega)) fun u hu => ?_
    refine Spec.pure ⟨⟨hu.1, by simp; omega, ?_, .inr ?_⟩, by simp only; omega⟩
    · intro c hc
      rcases List.mem_append.1 hc with h | h
      · exact hch c h
      · right; simpa using h
    · simp only
      cases hxn : x ++ nm with
      | nil => rw [hxn] at hhd; exact absurd hhd (by decide)
      | cons c l => rw [hxn] at hhd; exact hhd
  split
  · rename_i h40
    exact Spec.pure ⟨ht.1, by simp only; omega, h40, ⟨hch, hhd⟩, by simp; omega⟩
  · exact Spec.fail

theorem objectNew_spec (ok : Ok M G) (hR : RecOk M G N n R) {s : Bytes} (hG : G s) (hk : kw s = some kNew)
    (hn : s.length ≤ n) (hN : 256 * (n + 2) ≤ N) : Spec M (objectNew R N s) (fun r => G r ∧ r.length < s.length) := by
  unfold objectNew
  rw [blanks_solid (by omega) (by rw [kw_hd hk]; decide), pure_bind, lift_kw, pure_bind, if_pos hk]
  refine Spec.bind (skip_spec ok hG (kw_prefix hk) (by decide) (k := 3) rfl) fun a ha => ?_
  refine Spec.bind (blanks_spec ok ha.1 (by omega)) fun p hp => ?_
  refine Spec.bind (newNames_spec ok hp.1 (by omega)) fun x hx => ?_
  obtain ⟨x, q⟩ := x
  obtain ⟨hx1, hx2, hx3, hx4, hx5⟩ := hx
  simp only at hx1 hx2 hx3 hx4 hx5 ⊢
  rw [blanks_solid (by omega) (by rw [hx3]; decide), pure_bind]
  refine Spec.bind (Q := fun _ => True) ?_ fun native _ => ?_
  · refine Spec.bind Spec.query fun b _ => ?_
    split
    · exact Spec.bind Spec.need fun _ _ => Spec.query
    · exact Spec.bind (hR.dot x hx4 (by omega)) fun _ _ => Spec.pure trivial
  refine Spec.bind (skip_one ok hx1 hx3 (by decide) (by decide)) fun u hu => ?_
  refine Spec.bind (blanks_spec ok hu.1 (by omega)) fun v hv => ?_
  split
  · rename_i h
    obtain ⟨h1, h2⟩ := ok.tail hv.1 h.1 (by decide) (by decide)
    exact Spec.pure ⟨h1, by omega⟩
  refine Spec.bind (Q := fun r => G r ∧ r.length ≤ v.length ∧ hd r = 41) ?_ fun r hr => ?_
  · refine Spec.loop (fun x : Bytes => G x ∧ x.length ≤ v.length) (fun x => x.length) ?_ N v
      ⟨hv.1, Nat.le_refl _⟩ (by omega)
    rintro b ⟨hb1, hb2⟩
    unfold newArg
    extract_lets -underBinder jp
    refine Spec.join (k := jp) (fun q => G q ∧ q.length ≤ v.length ∧ (hd q = 41 ∨ q.length < b.length)) (fun hjp => ?_)
      fun q hq => ?_
    · clear_value jp
      split
      · rename_i h41
        exact Spec.bind (Spec.pure ⟨hb1, hb2, .inl h41⟩) hjp
      · refine Spec.bind (hR.sub b _ {} hb1 (by omega)) fun q hq => ?_
        obtain ⟨hq1, hq2, hq3, -⟩ := hq
        have hq4 := hq3 _ rfl (by decide)
        split
        · rename_i h44
          obtain ⟨h1, h2⟩ := ok.tail hq1 h44 (by decide) (by decide)
          exact Spec.bind ((blanks_spec ok h1 (by omega)).weaken fun r hr => ⟨hr.1, by omega, .inr (by omega)⟩) hjp
        · rename_i h44
          simp [h44] at hq4
          exact Spec.bind (Spec.pure ⟨hq1, by omega, .inl hq4⟩) hjp
    · simp -zeta only [jp]
      split
      · rename_i h; exact Spec.pure ⟨hq.1, hq.2.1, h⟩
      · rename_i h
        refine Spec.pure ⟨⟨hq.1, hq.2.1⟩, ?_⟩
        rcases hq.2.2 with h' | h'
        · exact absurd h' h
        · exact h'
  · obtain ⟨h1, h2⟩ := ok.tail hr.1 hr.2.2 (by decide) (by decide)
    exact Spec.bind Spec.need fun _ _ => Spec.pure ⟨h1, by omega⟩

/-! ### Accesses -/

/-- How many arguments may follow without a comma: the counter is an `int8_t`. -/
def wrap (k : Nat) : Nat := if k % 256 = 0 then 1 else if k % 256 < 128 then 0 else 257 - k % 256

theorem callArgs_spec (ok : Ok M G) (hR : RecOk M G N n R) {props : Props} {p : Bytes} (hG : G p) (hn : p.length < n)
    (hN : 256 * (n + 2) ≤ N) :
    Spec M (loop N (callArg R N props) (0, p)) (fun r => G r ∧ r.length ≤ p.length ∧ hd r = 41) := by
  refine Spec.loop (fun x : Nat × Bytes => G x.2 ∧ x.2.length ≤ p.length) (fun x => 256 * x.2.length + wrap x.1) ?_ N (0, p)
    ⟨hG, Nat.le_refl _⟩ (by simp [wrap]; omega)
  rintro ⟨k, q⟩ ⟨hb1, hb2⟩
  simp only at hb1 hb2
  unfold callArg
  dsimp -zeta only
  split
  · rename_i h; exact Spec.pure ⟨hb1, hb2, h⟩
  split
  · split
    · rename_i h44
      obtain ⟨h1, h2⟩ := ok.tail hb1 h44 (by decide) (by decide)
      refine Spec.bind (blanks_spec ok h1 (by omega)) fun u hu => ?_
      split
      · rename_i h; exact Spec.pure ⟨hu.1, by omega, h⟩
      refine Spec.bind (hR.sub u none props hu.1 (by omega)) fun v hv => ?_
      obtain ⟨hv1, hv2, -⟩ := hv
      refine Spec.pure ⟨⟨hv1, by simp only; omega⟩, ?_⟩
      simp only
      have : wrap (k + 1) ≤ 129 := by unfold wrap; split <;> (try split) <;> omega
      omega
    · exact Spec.fail
  · rename_i hk
    refine Spec.bind (hR.sub q none props hb1 (by omega)) fun v hv => ?_
    obtain ⟨hv1, hv2, -⟩ := hv
    refine Spec.pure ⟨⟨hv1, by simp only; omega⟩, ?_⟩
    simp only
    have : wrap (k + 1) < wrap k := by
      unfold wrap
      (repeat' split) <;> omega
    omega

theorem isAccess_hd {s : Bytes} (h : isAccess s = true) : hd s = 46 ∨ hd s = 91 ∨ hd s = 40 := by
  simp [isAccess] at h
  rcases h with (h | h) | h
  · exact .inl h
  · exact .inr (.inl h)
  · exact .inr (.inr h)

theorem accesses_spec (ok : Ok M G) (hR : RecOk M G N n R) {props : Props} {t : Tok} (hG : G t.rest)
    (hn : t.rest.length < n) (hN : 256 * (n + 2) ≤ N) :
    Spec M (accesses R N props t) (fun r => G r ∧ r.length ≤ t.rest.length) := by
  unfold accesses
  refine Spec.bind (blanks_spec ok hG (by omega)) fun u hu => ?_
  split
  · rename_i hacc
    extract_lets -underBinder jp
    refine Spec.join (k := jp) (fun _ => True) (fun hjp => ?_) fun b _ => ?_
    · clear_value jp
      cases t.kind <;> first
        | exact Spec.bind (Spec.pure trivial) hjp
        | exact Spec.bind (Spec.weaken Spec.query fun _ _ => trivial) hjp
        | exact Spec.bind Spec.query fun _ _ => Spec.bind (Spec.pure trivial) hjp
    simp -zeta only [jp]
    split
    · extract_lets -underBinder jp2
      refine Spec.join (k := jp2) (fun _ => True) (fun hjp => ?_) fun _ _ => ?_
      · clear_value jp2
        split
        · exact Spec.bind Spec.need fun _ _ => hjp _ trivial
        · exact hjp _ trivial
      simp -zeta only [jp2]
      refine Spec.loop (fun x : Bytes => G x ∧ x.length ≤ u.length ∧ isAccess x = true) (fun x => x.length) ?_ N u
        ⟨hu.1, Nat.le_refl _, hacc⟩ (by omega)
      rintro b ⟨hb1, hb2, hb3⟩
      unfold access
      refine Spec.bind (Q := fun r => G r ∧ r.length < b.length) ?_ fun p hp => ?_
      · have hb4 := isAccess_hd hb3
        split
        · rename_i h
          obtain ⟨h1, h2⟩ := ok.tail hb1 h (by decide) (by decide)
          refine Spec.bind Spec.need fun _ _ => ?_
          refine Spec.bind (blanks_spec ok h1 (by omega)) fun v hv => ?_
          refine Spec.bind (callArgs_spec ok hR hv.1 (by omega) hN) fun w hw => ?_
          obtain ⟨h3, h4⟩ := ok.tail hw.1 hw.2.2 (by decide) (by decide)
          exact Spec.pure ⟨h3, by omega⟩
        split
        · rename_i h
          obtain ⟨h1, h2⟩ := ok.tail hb1 h (by decide) (by decide)
          refine Spec.bind (hR.sub _ none props h1 (by omega)) fun q hq => ?_
          obtain ⟨hq1, hq2, -⟩ := hq
          split
          · rename_i h93
            obtain ⟨h3, h4⟩ := ok.tail hq1 h93 (by decide) (by decide)
            exact Spec.pure ⟨h3, by omega⟩
          · exact Spec.fail
        · rename_i h40 h91
          have h46 : hd b = 46 := by
            rcases hb4 with h | h | h
            · exact h
            · exact absurd h h91
            · exact absurd h h40
          obtain ⟨h1, h2⟩ := ok.tail hb1 h46 (by decide) (by decide)
          refine Spec.bind (blanks_spec ok h1 (by omega)) fun v hv => ?_
          refine Spec.bind (accessorName_spec ok hv.1) fun x hx => ?_
          obtain ⟨nm, r⟩ := x
          simp only at hx ⊢
          split
          · exact Spec.fail
          · exact Spec.bind Spec.need fun _ _ => Spec.pure ⟨hx.1, by omega⟩
      · refine Spec.bind (blanks_spec ok hp.1 (by omega)) fun v hv => ?_
        split
        · rename_i h; exact Spec.pure ⟨⟨hv.1, by omega, h⟩, by omega⟩
        · exact Spec.pure ⟨hp.1, by omega⟩
    · exact Spec.fail
  · exact Spec.bind Spec.need fun _ _ => Spec.pure ⟨hG, Nat.le_refl _⟩

theorem postOp_spec (ok : Ok M G) {t : Tok} {p : Bytes} (hG : G p) :
    Spec M (postOp t p : P E Bytes) (fun r => G r ∧ r.length ≤ p.length) := by
  unfold postOp
  rw [lift_pst, pure_bind]
  split
  · rename_i h
    refine Spec.bind Spec.need fun _ _ => ?_
    split
    · split
      · have hp : G (p.drop 2) ∧ (p.drop 2).length + 2 = p.length := by
          rcases h with h | h
          · exact drop_spec ok hG (pst_some h (.inl rfl)) (by decide) (k := 2) rfl
          · exact drop_spec ok hG (pst_some h (.inr rfl)) (by decide) (k := 2) rfl
        exact Spec.pure ⟨hp.1, by omega⟩
      · exact Spec.fail
    · exact Spec.fail
  · exact Spec.pure ⟨hG, Nat.le_refl _⟩

theorem preOp_spec {t : Tok} {p : Bytes} : Spec M (preOp t p : P E Unit) (fun _ => True) := by
  unfold preOp
  split
  · exact Spec.bind Spec.need fun _ _ => Spec.need
  split
  · split
    · exact Spec.need
    · exact Spec.fail
  · exact Spec.pure trivial

theorem tokenStart_spec (ok : Ok M G) (hR : RecOk M G N n R) {props : Props} {pre : Option Bytes} {p : Bytes} (hG : G p)
    (hn : p.length ≤ n) (hN : 256 * (n + 2) ≤ N) :
    Spec M (tokenStart R N props pre p) (fun t => G t.rest ∧ t.rest.length < p.length) := by
  unfold tokenStart
  split
  · rename_i h40
    split
    · exact Spec.fail
    obtain ⟨h1, h2⟩ := ok.tail hG h40 (by decide) (by decide)
    refine Spec.bind (hR.sub _ none props h1 (by omega)) fun q hq => ?_
    obtain ⟨hq1, hq2, -⟩ := hq
    split
    · rename_i h41
      obtain ⟨h3, h4⟩ := ok.tail hq1 h41 (by decide) (by decide)
      exact Spec.pure ⟨h3, by simp only; omega⟩
    · exact Spec.fail
  rw [lift_kw, pure_bind]
  split
  · exact Spec.bind (objectVector_spec ok hR hG hn hN) fun q hq => Spec.pure hq
  split
  · exact Spec.bind (objectObject_spec ok hR hG hn hN) fun q hq => Spec.pure hq
  split
  · rename_i hk
    exact Spec.bind (objectNew_spec ok hR hG hk hn hN) fun q hq => Spec.pure hq
  split
  · rename_i hk
    exact Spec.bind (keywordFunction_spec ok hR hG hn hN (.inr ⟨hk, .inl rfl⟩)) fun q hq => Spec.pure hq
  · refine Spec.bind (symbol_spec ok hG (by omega)) fun t ht => ?_
    exact (staticRef_spec ok ht.1 (by omega)).weaken fun t' ht' => ⟨ht'.1, by omega⟩

theorem token_spec (ok : Ok M G) (hR : RecOk M G N n R) {props : Props} {s : Bytes} (hG : G s)
    (hn : s.length ≤ n) (hN : 256 * (n + 2) ≤ N) :
    Spec M (token R N props s) (fun r => G r ∧ r.length < s.length) := by
  unfold token
  rw [lift_pro, pure_bind]
  split
  · exact Spec.fail
  rename_i hinv
  extract_lets -underBinder jp
  refine Spec.join (k := jp) (fun p => G p ∧ p.length ≤ s.length) (fun hjp => ?_) fun p hp => ?_
  · clear_value jp
    cases h : pro s with
    | none => exact Spec.bind (Spec.pure ⟨hG, Nat.le_refl _⟩) hjp
    | some w =>
      obtain ⟨h1, -, h2, -⟩ := pro_some h (fun e => hinv (by rw [h, e]))
      exact Spec.bind ((skip_spec ok hG h1 h2 rfl).weaken fun r hr => ⟨hr.1, by omega⟩) hjp
  simp -zeta only [jp]
  refine Spec.bind (blanks_spec ok hp.1 (by omega)) fun q hq => ?_
  refine Spec.bind (tokenStart_spec ok hR hq.1 (by omega) hN) fun t ht => ?_
  refine Spec.bind (accesses_spec ok hR ht.1 (by omega) hN) fun r hr => ?_
  refine Spec.bind (postOp_spec ok hr.1) fun u hu => ?_
  exact Spec.bind preOp_spec fun _ _ => Spec.pure ⟨hu.1, by omega⟩

/-! ### Sub-expressions -/

theorem rounds_spec (ok : Ok M G) (hR : RecOk M G N n R) {props : Props} {s : Bytes} (hG : G s)
    (hn : s.length ≤ n) (hN : 256 * (n + 2) ≤ N) :
    Spec M (loop N (subRound R N props) s) (fun r => G r ∧ r.length < s.length) := by
  refine Spec.loop (fun x : Bytes => G x ∧ x.length ≤ s.length) (fun x => x.length) ?_ N s
    ⟨hG, Nat.le_refl _⟩ (by omega)
  rintro b ⟨hb1, hb2⟩
  unfold subRound
  refine Spec.bind (token_spec ok hR hb1 (by omega) hN) fun p hp => ?_
  refine Spec.bind (blanks_spec ok hp.1 (by omega)) fun t ht => ?_
  rw [lift_opr, pure_bind]
  refine Spec.bind (endOrKeyword_spec (ok.noNul ht.1) (by omega)) fun e _ => ?_
  split
  · exact Spec.pure ⟨ht.1, by omega⟩
  cases ho : opr t with
  | none => exact Spec.fail
  | some w =>
    obtain ⟨h1, -, h2⟩ := opr_some ho
    refine Spec.bind (skip_spec ok ht.1 h1 h2 rfl) fun u hu => ?_
    exact Spec.bind (blanks_spec ok hu.1 (by omega)) fun v hv => Spec.pure ⟨⟨hv.1, by omega⟩, by omega⟩

theorem checkEnd_spec {e : Option Bytes} {p : Bytes} :
    Spec M (checkEnd e p : P E Unit) (fun _ => ∀ l, e = some l → l.contains (hd p) = true) := by
  unfold checkEnd
  refine Spec.chk ?_
  cases e with
  | none => exact Spec.pure (by simp)
  | some l =>
    simp only []
    split
    · rename_i h
      refine Spec.pure ?_
      rintro l' ⟨⟩
      exact h
    · exact Spec.fail

theorem ternary_spec (ok : Ok M G) (hR : RecOk M G N n R) {props : Props} {p : Bytes} (hG : G p) (hn : p.length ≤ n) :
    Spec M (ternary R props p) (fun r => G r ∧ r.length ≤ p.length ∧ (hd p ≠ 63 → r = p)) := by
  unfold ternary
  split
  · rename_i h
    obtain ⟨h1, h2⟩ := ok.tail hG h (by decide) (by decide)
    refine Spec.bind (hR.sub _ none props h1 (by omega)) fun q hq => ?_
    obtain ⟨hq1, hq2, -⟩ := hq
    split
    · rename_i h58
      obtain ⟨h3, h4⟩ := ok.tail hq1 h58 (by decide) (by decide)
      refine (hR.sub _ none props h3 (by omega)).weaken fun r hr => ⟨hr.1, ?_, fun h' => absurd h h'⟩
      have := hr.2.1
      omega
    · exact Spec.fail
  · exact Spec.pure ⟨hG, Nat.le_refl _, fun _ => rfl⟩

theorem subExp_spec (ok : Ok M G) (hR : RecOk M G N n R) {props : Props} {e : Option Bytes} {s : Bytes} (hG : G s)
    (hn : s.length ≤ n) (hN : 256 * (n + 2) ≤ N) : Spec M (subExp R N s e props) (SubQ G N s e) := by
  unfold subExp
  refine Spec.bind (blanks_full ok hG (by omega)) fun p hp => ?_
  obtain ⟨hp1, hp2, -⟩ := hp
  have hl := hp2.length_le
  split
  · exact Spec.fail
  rename_i hh
  simp only [not_or] at hh
  refine Spec.bind (endOrKeyword_spec (ok.noNul hp1) (by omega)) fun b hb => ?_
  split
  · rename_i hbt
    refine Spec.bind checkEnd_spec fun _ hc => Spec.pure ⟨hp1, hl, fun l he _ => hc l he, ?_⟩
    by_cases hlt : p.length < s.length
    · exact .inl hlt
    · right
      have : p = s := hp2.eq_of_length (by omega)
      subst this
      exact ⟨by rw [← hb]; exact hbt, hh.1, hh.2.1, hh.2.2.1⟩
  · refine Spec.bind (rounds_spec ok hR hp1 (by omega) hN) fun q hq => ?_
    refine Spec.bind checkEnd_spec fun _ hc => ?_
    refine Spec.bind Spec.need fun _ _ => ?_
    refine (ternary_spec ok hR hq.1 (by omega)).weaken fun r hr => ?_
    obtain ⟨hr1, hr2, hr3⟩ := hr
    refine ⟨hr1, by omega, fun l he h63 => ?_, .inl (by omega)⟩
    have h := hc l he
    have : hd q ≠ 63 := by
      intro hq63
      rw [hq63] at h
      rw [h] at h63
      cases h63
    rw [hr3 this]
    exact h

theorem expr_spec (ok : Ok M G) (hR : RecOk M G N n R) {props : Props} {s : Bytes} (hG : G s)
    (hn : s.length ≤ n) (hN : 256 * (n + 2) ≤ N) : Spec M (expression (subExp R N) N s props) (SubQ G N s none) :=
  expression_spec ok (fun q _ _ hq hql => subExp_spec ok hR hq (by omega) hN) hG (by omega)

end Verif.Parse
