import Verif.Compiler.ParseStmts
/-
The text of a type behind `new`, which is parsed as a text of its own, and the two recursive functions, by
induction on the length of the text.
-/
namespace Verif.Parse
open Verif Verif.Str Verif.Lex P

variable {E : Sem} {α β : Type} {M : Mode} {G : Bytes → Prop} {R : Rec E} {N n : Nat}

/-! ### Names and dots -/

def Dots (s : Bytes) : Prop := ∀ c ∈ s, isIdChar c = true ∨ c = 46

theorem Dots.ne {s : Bytes} (h : Dots s) {a : UInt8} (ha : isIdChar a = false) (h46 : a ≠ 46) (h0 : a ≠ 0) : hd s ≠ a := by
  cases s with
  | nil => exact fun e => h0 e.symm
  | cons c s =>
    intro e
    rw [hd_cons] at e
    subst e
    rcases h c (by simp) with h | h
    · rw [h] at ha; cases ha
    · exact h46 h

theorem Dots.suffix {s t : Bytes} (h : Dots s) (ht : t <:+ s) : Dots t := fun c hc => h c (ht.subset hc)

theorem Dots.noNul {s : Bytes} (h : Dots s) : NoNul s := by
  intro c hc
  rcases h c hc with h | h
  · exact idChar_ne h (by decide)
  · subst h; decide

theorem Dots.blanks {s : Bytes} (h : Dots s) (hN : 0 < N) : (blanks N s : P E Bytes) = pure s := by
  refine blanks_solid hN ?_
  have h1 := h.ne (a := 32) (by decide) (by decide) (by decide)
  have h2 := h.ne (a := 9) (by decide) (by decide) (by decide)
  have h3 := h.ne (a := 10) (by decide) (by decide) (by decide)
  have h4 := h.ne (a := 13) (by decide) (by decide) (by decide)
  have h5 := h.ne (a := 47) (by decide) (by decide) (by decide)
  have h6 := h.ne (a := 42) (by decide) (by decide) (by decide)
  simp [solid, h1, h2, h3, h4, h5, h6]

theorem Dots.noPre {s w : Bytes} (h : Dots s) (hw : w <+: s) {c : UInt8} (hc : c ∈ w) (hi : isIdChar c = false)
    (h46 : c ≠ 46) : False := by
  rcases h c (hw.subset hc) with h' | h'
  · rw [h'] at hi; cases hi
  · exact h46 h'

theorem dots_anon {x : Bytes} (h : Dots x) : anonB N x = false := by
  unfold anonB
  cases hk : kw x == some kFunction with
  | false => rfl
  | true =>
    have h8 : Dots (x.drop 8) := h.suffix (List.drop_suffix _ _)
    cases N with
    | zero => rfl
    | succ N =>
      have hs : solid (hd (x.drop 8)) = true := by
        have h1 := h8.ne (a := 32) (by decide) (by decide) (by decide)
        have h2 := h8.ne (a := 9) (by decide) (by decide) (by decide)
        have h3 := h8.ne (a := 10) (by decide) (by decide) (by decide)
        have h4 := h8.ne (a := 13) (by decide) (by decide) (by decide)
        have h5 := h8.ne (a := 47) (by decide) (by decide) (by decide)
        have h6 := h8.ne (a := 42) (by decide) (by decide) (by decide)
        simp [solid, h1, h2, h3, h4, h5, h6]
      rw [ignore_solid N _ 0 hs]
      have := h8.ne (a := 40) (by decide) (by decide) (by decide)
      simp [this]

theorem dots_number {x : Bytes} (h : Dotted x) (hN : 0 < N) :
    (literalNumber N x : P E (Option Bytes)) = pure none := by
  have hD : Dots x := h.1
  unfold literalNumber
  rw [hD.blanks hN, pure_bind, lift_kw, pure_bind]
  split
  · rfl
  rw [if_neg (hD.ne (by decide) (by decide) (by decide))]
  obtain ⟨h1, h2⟩ := h
  cases x with
  | nil => exact absurd h2 (by decide)
  | cons c x =>
    rw [hd_cons] at h2
    have hc48 := idStart_ne h2 (a := 48) (by decide)
    have hc46 := idStart_ne h2 (a := 46) (by decide)
    have hdec : isDec c = false := by
      cases hd : isDec c with
      | false => rfl
      | true =>
        exfalso
        simp only [isDec, isIdStart, Bool.and_eq_true, Bool.or_eq_true, decide_eq_true_eq, beq_iff_eq, UInt8.le_iff_toNat_le] at hd h2
        simp at hd h2
        rcases h2 with (h2 | h2) | h2
        · omega
        · omega
        · subst h2; simp at hd
    have : numHead (c :: x) = .ok none := by
      unfold numHead
      have hp : peek (c :: x) 0 = .ok c := by simp [peek]
      simp [hp, hc48, hdec, hc46]
    rw [this]
    rfl

theorem dots_symbol {x : Bytes} {pre : Option Bytes} (h : Dotted x) (hN : x.length < N) :
    Spec M (symbol N pre x : P E Tok) (fun t => Dots t.rest ∧ t.rest.length ≤ x.length) := by
  have hD : Dots x := h.1
  unfold symbol
  rw [dots_number h (by omega), pure_bind]
  refine Spec.chk ?_
  rw [if_neg (hD.ne (by decide) (by decide) (by decide))]
  have hne : x ≠ [] := by rintro rfl; exact absurd h.2 (by decide)
  obtain ⟨c, w, t, h1, h2, -⟩ := scanSymbol_ok x hne
  have hsuf : t <:+ x := ⟨c :: w, by rw [h2]; rfl⟩
  have good : Dots t ∧ t.length ≤ x.length := ⟨hD.suffix hsuf, hsuf.length_le⟩
  rw [h1]
  show Spec M ((pure (c :: w, t) : P E _) >>= _) _
  rw [pure_bind]
  simp only []
  split
  · exact Spec.pure good
  split
  · exact Spec.pure good
  split
  · exact Spec.pure good
  split
  · refine Spec.bind (blanks_any good.1.noNul (by omega)) fun u _ => ?_
    split
    · exact Spec.pure good
    · exact Spec.fail
  · refine Spec.bind (nameOk_spec _) fun b hb => ?_
    split
    · exact Spec.bind Spec.need fun _ _ => Spec.pure good
    · exact Spec.fail

theorem dots_new {x : Bytes} (h : Dotted x) (hk : kw x = some kNew) (hN : x.length < N) {Q : Bytes → Prop} :
    Spec M (objectNew R N x) Q := by
  have hD : Dots x := h.1
  obtain ⟨hm, t, e, he⟩ := kw_some hk
  have ht : Dots t := hD.suffix ⟨kNew, e.symm⟩
  unfold objectNew
  rw [hD.blanks (by omega), pure_bind, lift_kw, pure_bind, if_pos hk]
  have hs : (skip x 3 : P E Bytes) = pure t := by
    rw [e]
    unfold skip adv
    rw [if_pos (by simp [kNew])]
    rfl
  rw [hs, pure_bind, ht.blanks (by omega), pure_bind]
  have hid : identifier t = .err := by
    cases t with
    | nil => rfl
    | cons c t =>
      rcases ht c (by simp) with hc | hc
      · exfalso
        simp only [keyEnd, Bool.or_eq_true, decide_eq_true_eq] at he
        rcases he with he | he
        · simp [isSpecial] at he
          revert hc
          rcases he with rfl | rfl | rfl | rfl | rfl | rfl | rfl | rfl | rfl | rfl | rfl | rfl | rfl | rfl | rfl | rfl <;> decide
        · exact ht.noPre he (c := 47) (by simp) (by decide) (by decide)
      · subst hc
        simp [identifier, isIdStart]
  refine Spec.bind (Q := fun _ => False) ?_ fun _ h => h.elim
  obtain ⟨N, rfl⟩ : ∃ k, N = k + 1 := ⟨N - 1, by omega⟩
  refine Spec.loop (fun b : Bytes × Bytes => b = ([], t)) (fun _ => 0) ?_ (N + 1) ([], t) rfl (by omega)
  rintro b rfl
  unfold newName
  simp only []
  rw [hid]
  exact Spec.bind (Q := fun _ => False) Spec.fail fun _ h => h.elim

theorem dots_accesses {props : Props} {t : Tok} (h : Dots t.rest) (hN : t.rest.length < N) :
    Spec M (accesses R N props t) (fun r => Dots r ∧ r.length ≤ t.rest.length) := by
  unfold accesses
  rw [h.blanks (by omega), pure_bind]
  split
  · rename_i hacc
    extract_lets -underBinder jp
    refine Spec.join (k := jp) (fun _ => True) (fun hjp => ?_) fun b _ => ?_
    · clear_value jp
      cases t.kind <;> first
        | exact Spec.bind (Spec.pure trivial) hjp
        | exact Spec.bind Spec.query fun _ _ => Spec.bind (Spec.pure trivial) hjp
    simp -zeta only [jp]
    split
    · extract_lets -underBinder jp2
      refine Spec.join (k := jp2) (fun _ => True) (fun hjp => ?_) fun _ _ => ?_
      · clear_value jp2
        split
        · exact Spec.bind Spec.need fun _ _ => hjp _ trivial
        · exact hjp _ trivial
      simp -zeta only [jp2]
      refine Spec.loop (fun x : Bytes => Dots x ∧ x.length ≤ t.rest.length ∧ isAccess x = true) (fun x => x.length) ?_ N t.rest
        ⟨h, Nat.le_refl _, hacc⟩ (by omega)
      rintro b ⟨hb1, hb2, hb3⟩
      have h40 := hb1.ne (a := 40) (by decide) (by decide) (by decide)
      have h91 := hb1.ne (a := 91) (by decide) (by decide) (by decide)
      have h46 : hd b = 46 := by
        rcases isAccess_hd hb3 with h | h | h
        · exact h
        · exact absurd h h91
        · exact absurd h h40
      have hbt : Dots b.tail := hb1.suffix (List.tail_suffix _)
      have hbl : b.tail.length < b.length := by
        have := congrArg List.length (cons_of_hd h46 (by decide)); simp at this; simp; omega
      unfold access
      rw [if_neg h40, if_neg h91]
      refine Spec.bind (Q := fun r => Dots r ∧ r.length < b.length) ?_ fun p hp => ?_
      · rw [hbt.blanks (by omega), pure_bind]
        refine Spec.bind (accessorName_any (D := Dots) fun n t e _ => hbt.suffix ⟨n, e.symm⟩) fun x hx => ?_
        obtain ⟨nm, r⟩ := x
        simp only at hx ⊢
        split
        · exact Spec.fail
        · exact Spec.bind Spec.need fun _ _ => Spec.pure ⟨hx.1, by omega⟩
      · rw [hp.1.blanks (by omega), pure_bind]
        split
        · rename_i h; exact Spec.pure ⟨⟨hp.1, by omega, h⟩, by omega⟩
        · exact Spec.pure ⟨hp.1, by omega⟩
    · exact Spec.fail
  · exact Spec.bind Spec.need fun _ _ => Spec.pure ⟨h, Nat.le_refl _⟩

theorem dots_post {t : Tok} {p : Bytes} (h : Dots p) : Spec M (postOp t p : P E Bytes) (fun r => r = p) := by
  unfold postOp
  rw [lift_pst, pure_bind, if_neg]
  · exact Spec.pure rfl
  rintro (h' | h')
  · exact h.noPre (pst_some h' (.inl rfl)) (c := 43) (by decide) (by decide) (by decide)
  · exact h.noPre (pst_some h' (.inr rfl)) (c := 45) (by decide) (by decide) (by decide)

theorem dots_pro {x : Bytes} (h : Dotted x) (hinv : ¬pro x = some opInvalid) : pro x = none := by
  cases hp : pro x with
  | none => rfl
  | some w =>
    exfalso
    obtain ⟨h1, h2, -, h3, h4⟩ := pro_some hp (fun e => hinv (by rw [hp, e]))
    obtain ⟨u, rfl⟩ := h1
    have hw : isIdStart (hd w) = true := by
      cases w with
      | nil => exact absurd rfl h2
      | cons c w => exact h.2
    rw [h4] at hw
    obtain ⟨c, t, e, hc⟩ := h3 (by simpa using hw)
    rcases h.1 c (by rw [e]; simp) with h' | h'
    · rcases hc with rfl | rfl | rfl <;> exact absurd h' (by decide)
    · rcases hc with rfl | rfl | rfl <;> exact absurd h' (by decide)

theorem dots_token {props : Props} {x : Bytes} (h : Dotted x) (he : endsB N x = false) (hN : x.length < N) :
    Spec M (token R N props x) (fun r => Dots r ∧ r.length ≤ x.length) := by
  have hD : Dots x := h.1
  unfold token
  rw [lift_pro, pure_bind]
  split
  · exact Spec.fail
  rename_i hinv
  rw [dots_pro h hinv]
  extract_lets -underBinder jp
  refine Spec.join (k := jp) (fun p => p = x) (fun hjp => ?_) fun p hp => ?_
  · exact Spec.bind (Spec.pure (Q := fun p => p = x) rfl) hjp
  subst hp
  simp -zeta only [jp]
  rw [hD.blanks (by omega), pure_bind]
  refine Spec.bind (Q := fun t => Dots t.rest ∧ t.rest.length ≤ p.length) ?_ fun t ht => ?_
  · unfold tokenStart
    rw [if_neg (hD.ne (by decide) (by decide) (by decide)), lift_kw, pure_bind,
      if_neg (hD.ne (by decide) (by decide) (by decide)), if_neg (hD.ne (by decide) (by decide) (by decide))]
    split
    · rename_i hk
      exact Spec.bind (dots_new (Q := fun _ => False) h hk hN) fun _ h => h.elim
    split
    · rename_i hk
      exfalso
      have : isStatementWord (some kFunction) = true := by decide
      rw [endsB, dots_anon hD, hk, this] at he
      simp at he
    · refine Spec.bind (dots_symbol h hN) fun t ht => ?_
      unfold staticRef
      rw [if_neg]
      · exact Spec.pure ht
      · intro h'
        exact ht.1.ne (a := 58) (by decide) (by decide) (by decide) h'.2.1
  · refine Spec.bind (dots_accesses ht.1 (by omega)) fun r hr => ?_
    refine Spec.bind (dots_post hr.1) fun u hu => ?_
    subst hu
    exact Spec.bind preOp_spec fun _ _ => Spec.pure ⟨hr.1, by omega⟩

/-- The text of a type is parsed as a token, without recursion. -/
theorem sub_dotted {x : Bytes} (h : Dotted x) (hN : x.length < N) :
    Spec M (subExp R N x none { onlyToken := true }) (fun _ => True) := by
  have hD : Dots x := h.1
  unfold subExp
  rw [hD.blanks (by omega), pure_bind]
  split
  · exact Spec.fail
  refine Spec.bind (endOrKeyword_spec hD.noNul hN) fun b hb => ?_
  split
  · exact Spec.bind checkEnd_spec fun _ _ => Spec.pure trivial
  rename_i hbf
  have he : endsB N x = false := by rw [← hb]; simpa using hbf
  refine Spec.bind (Q := fun r => Dots r) ?_ fun q hq => ?_
  · refine Spec.loop (fun b => b = x) (fun _ => 0) ?_ N x rfl (by omega)
    rintro b rfl
    unfold subRound
    refine Spec.bind (dots_token h he hN) fun p hp => ?_
    rw [hp.1.blanks (by omega), pure_bind, lift_opr, pure_bind]
    refine Spec.bind (endOrKeyword_spec hp.1.noNul (by omega)) fun e _ => ?_
    rw [if_pos (by simp)]
    exact Spec.pure hp.1
  · refine Spec.bind checkEnd_spec fun _ _ => ?_
    refine Spec.bind Spec.need fun _ _ => ?_
    unfold ternary
    rw [if_neg (hq.ne (by decide) (by decide) (by decide))]
    exact Spec.pure trivial

/-! ### The recursion -/

theorem parser_ok (ok : Ok M G) : ∀ (n d : Nat), n ≤ d → 256 * (n + 2) ≤ N → RecOk M G N n (parser N d : Rec E)
  | 0, _, _, _ => ⟨fun _ _ _ _ h => absurd h (Nat.not_lt_zero _), fun _ _ _ h => absurd h (Nat.not_lt_zero _),
      fun _ _ h => absurd h (Nat.not_lt_zero _)⟩
  | n + 1, 0, h, _ => absurd h (Nat.not_succ_le_zero _)
  | n + 1, d + 1, h, hN => by
    have ih := parser_ok ok n d (by omega) (by omega)
    exact ⟨fun s e props hG hs => subExp_spec ok ih hG (by omega) (by omega),
      fun b s hG hs => statements_spec ok ih hG (by omega) (by omega),
      fun x hx hl => sub_dotted hx (by omega)⟩

/-- What the parser does with a text, for enough fuel. -/
theorem parser_spec (ok : Ok M G) {s : Bytes} (hG : G s) (hN : 256 * (s.length + 3) ≤ N) :
    Spec M ((parser N N : Rec E).recursive false s) (StmtQ G false s) :=
  (parser_ok ok (s.length + 1) N (by omega) (by omega)).rcv false s hG (by omega)

end Verif.Parse
