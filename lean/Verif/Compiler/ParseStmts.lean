import Verif.Compiler.ParseLemmas
/-
What the functions of `Parse.lean` satisfy, continued: the statements, the text of a type behind `new`, and the
two recursive functions, by induction on the length of the text.
-/
namespace Verif.Parse
open Verif Verif.Str Verif.Lex P

variable {E : Sem} {α β : Type} {M : Mode} {G : Bytes → Prop} {R : Rec E} {N n : Nat}

/-! ### Semicolons -/

theorem Fin.semi (ok : Ok M G) {p : Bytes} (h : Fin G p) (hp : hd p = 59) : Fin G p.tail ∧ p.tail.length < p.length := by
  have e := cons_of_hd hp (by decide)
  have hl : p.tail.length < p.length := by have := congrArg List.length e; simp at this; simp; omega
  refine ⟨?_, hl⟩
  rcases h with h | rfl | rfl
  · rw [e] at h
    rcases ok.semi h with h | h
    · exact .inl h
    · exact .inr (.inl h)
  · exact .inr (.inr rfl)
  · exact absurd hp (by decide)

theorem semicolons_spec (ok : Ok M G) {p : Bytes} (h : Fin G p) (hN : p.length < N) :
    Spec M (loop N (semicolons N) p : P E Bytes) (fun r => Fin G r ∧ r.length ≤ p.length ∧ hd r ≠ 59) := by
  refine Spec.loop (fun x => Fin G x ∧ x.length ≤ p.length) (fun x => x.length) ?_ N p ⟨h, Nat.le_refl _⟩ hN
  rintro b ⟨hb1, hb2⟩
  unfold semicolons
  split
  · rename_i h59
    obtain ⟨h1, h2⟩ := hb1.semi ok h59
    exact Spec.bind (blanks_fin ok h1 (by omega)) fun q hq => Spec.pure ⟨⟨hq.1, by omega⟩, by omega⟩
  · rename_i h59
    exact Spec.pure ⟨hb1, hb2, h59⟩

/-! ### Variables -/

theorem variable1_spec (ok : Ok M G) (hR : RecOk M G N n R) {cls const : Bool} {props : Props} {s : Bytes} (hG : G s)
    (hc : const = true → M.wild) (hn : s.length ≤ n) (hN : 256 * (n + 2) ≤ N) :
    Spec M (variable1 R N cls const props s)
      (Sum.elim (fun r => G r ∧ r.length < s.length) (fun r => G r ∧ r.length ≤ s.length)) := by
  unfold variable1
  refine Spec.bind (blanks_spec ok hG (by omega)) fun p hp => ?_
  extract_lets -underBinder jp
  refine Spec.join (k := jp) (fun o => ∀ e : Bytes × Bytes, o = some e → G e.2 ∧ e.2.length < p.length) (fun hjp => ?_)
    fun e he => ?_
  · clear_value jp
    split
    · exact Spec.bind (Spec.pure (by simp)) hjp
    · refine Spec.bind (Spec.catchNull (memberExt_spec ok.loosen trivial hp.1 (by omega))) fun o ho => ?_
      cases o with
      | some e => exact Spec.bind (Spec.pure (by simpa using ho)) hjp
      | none => exact Spec.chk (Spec.bind (Spec.pure (by simp)) hjp)
  · simp -zeta only [jp]
    extract_lets -underBinder jp2
    refine Spec.join (k := jp2) (fun x => G x.2 ∧ x.2.length ≤ p.length) (fun hjp => ?_) fun x hx => ?_
    · clear_value jp2
      cases e with
      | some e =>
        have := he e rfl
        exact Spec.bind (Spec.pure ⟨this.1, by omega⟩) hjp
      | none =>
        exact Spec.bind ((identifier_spec ok hp.1).weaken fun x hx => ⟨hx.1, by have := hx.2.1; omega⟩) hjp
    · obtain ⟨nm, r⟩ := x
      simp only at hx
      simp -zeta only [jp2]
      rw [lift_kw, pure_bind]
      split
      · exact Spec.fail
      refine Spec.bind Spec.need fun _ _ => ?_
      refine Spec.bind (blanks_spec ok hx.1 (by omega)) fun t ht => ?_
      refine Spec.bind (Q := fun v => G v ∧ v.length ≤ s.length) ?_ fun v hv => ?_
      · split
        · rename_i h61
          obtain ⟨h1, h2⟩ := ok.tail ht.1 h61 (by decide) (by decide)
          refine Spec.bind (Q := fun v => G v ∧ v.length ≤ s.length) ?_ fun v hv =>
            Spec.bind Spec.need fun _ _ => Spec.pure hv
          split
          · refine (expr_spec ok hR h1 (by omega) hN).weaken fun v hv => ⟨hv.1, ?_⟩
            have := hv.2.1; omega
          · refine (expr_spec ok hR hp.1 (by omega) hN).weaken fun v hv => ⟨hv.1, ?_⟩
            have := hv.2.1; omega
        split
        · rename_i hct
          split
          · exact Spec.ub (hc hct)
          · exact Spec.fail
        · exact Spec.pure ⟨ht.1, by omega⟩
      · split
        · rename_i h44
          obtain ⟨h1, h2⟩ := ok.tail hv.1 h44 (by decide) (by decide)
          exact Spec.pure ⟨h1, by omega⟩
        · exact Spec.pure hv

theorem keywordVar_spec (ok : Ok M G) (hR : RecOk M G N n R) {cls : Bool} {props : Props} {s : Bytes} (hG : G s)
    (hk : kw s = some kVar ∨ kw s = some kConst) (hn : s.length ≤ n) (hN : 256 * (n + 2) ≤ N) :
    Spec M (keywordVar R N cls props s) (fun r => G r ∧ r.length < s.length) := by
  unfold keywordVar
  rw [lift_kw, pure_bind, if_pos hk]
  extract_lets -underBinder const
  have hskip : Spec M (skip s (if const = true then 5 else 3) : P E Bytes) (fun r => G r ∧ r.length < s.length) := by
    rcases hk with h | h
    · have : const = false := by simp [const, h]; decide
      rw [this]
      exact (skip_spec ok hG (kw_prefix h) (by decide) (k := 3) rfl).weaken fun r hr => ⟨hr.1, by omega⟩
    · have : const = true := by simp [const, h]
      rw [this]
      exact (skip_spec ok hG (kw_prefix h) (by decide) (k := 5) rfl).weaken fun r hr => ⟨hr.1, by omega⟩
  have hc : const = true → M.wild := fun h => ok.const hG (kw_prefix (by simpa [const] using h))
  refine Spec.bind hskip fun p hp => ?_
  refine Spec.bind (blanks_spec ok hp.1 (by omega)) fun q hq => ?_
  refine Spec.bind (Q := fun r => G r ∧ r.length ≤ q.length) ?_ fun r hr => ?_
  · refine Spec.loop (fun x => G x ∧ x.length ≤ q.length) (fun x => x.length) ?_ N q ⟨hq.1, Nat.le_refl _⟩ (by omega)
    rintro b ⟨hb1, hb2⟩
    refine (variable1_spec ok hR hb1 hc (by omega) hN).weaken fun x hx => ?_
    cases x with
    | inl r => exact ⟨⟨hx.1, by have := hx.2; omega⟩, hx.2⟩
    | inr r => exact ⟨hx.1, by have := hx.2; omega⟩
  · rw [lift_opr, pure_bind]
    have hres : G r ∧ r.length < s.length := ⟨hr.1, by omega⟩
    cases opr r with
    | none => exact Spec.pure hres
    | some w =>
      simp only []
      split
      · exact Spec.pure hres
      · exact Spec.fail

/-! ### Classes -/

theorem classProperty_spec (ok : Ok M G) (hR : RecOk M G N n R) (hq : M.quiet) {s : Bytes} (hG : G s)
    (hn : s.length ≤ n) (hN : 256 * (n + 2) ≤ N) :
    Spec M (classProperty R N s) (fun r => G r ∧ r.length < s.length) := by
  unfold classProperty
  refine Spec.bind (blanks_spec ok hG (by omega)) fun p hp => ?_
  refine Spec.bind (identifier_spec ok hp.1) fun x hx => ?_
  obtain ⟨nm, r⟩ := x
  obtain ⟨hx1, hx2, hx3, -⟩ := hx
  simp only at hx1 hx2 hx3 ⊢
  refine Spec.bind (blanks_spec ok hx1 (by omega)) fun p2 hp2 => ?_
  split
  · rename_i h123
    obtain ⟨h1, h2⟩ := ok.tail hp2.1 h123 (by decide) (by decide)
    refine Spec.bind (blanks_spec ok h1 (by omega)) fun p3 hp3 => ?_
    refine Spec.bind Spec.need fun _ _ => ?_
    refine Spec.bind (Q := fun r => G r ∧ r.length ≤ p3.length) ?_ fun r hr => ?_
    · refine Spec.loop (fun x => G x ∧ x.length ≤ p3.length) (fun x => x.length) ?_ N p3 ⟨hp3.1, Nat.le_refl _⟩ (by omega)
      rintro b ⟨hb1, hb2⟩
      unfold propertyItem
      split
      · exact Spec.pure ⟨hb1, hb2⟩
      rw [lift_kw, pure_bind]
      extract_lets -underBinder jp
      refine Spec.join (k := jp) (fun q => G q ∧ q.length ≤ b.length) (fun hjp => ?_) fun q hqq => ?_
      · clear_value jp
        split
        · rename_i hk
          refine Spec.bind (skip_spec ok hb1 (kw_prefix hk) (by decide) (k := 8) rfl) fun a ha => ?_
          exact Spec.bind ((blanks_spec ok ha.1 (by omega)).weaken fun q hq => ⟨hq.1, by omega⟩) hjp
        · exact Spec.bind (Spec.pure ⟨hb1, Nat.le_refl _⟩) hjp
      · simp -zeta only [jp]
        refine Spec.bind (identifier_spec ok hqq.1) fun y hy => ?_
        obtain ⟨nm, u⟩ := y
        obtain ⟨hy1, hy2, hy3, -⟩ := hy
        simp only at hy1 hy2 hy3 ⊢
        refine Spec.bind (keywordFunction_spec ok hR hy1 (by omega) hN (.inl hq)) fun v hv => ?_
        refine Spec.bind Spec.need fun _ _ => ?_
        exact Spec.bind (blanks_spec ok hv.1 (by omega)) fun t ht => Spec.pure ⟨⟨ht.1, by omega⟩, by omega⟩
    · split
      · rename_i h125
        obtain ⟨h3, h4⟩ := ok.tail hr.1 h125 (by decide) (by decide)
        exact Spec.pure ⟨h3, by omega⟩
      · exact Spec.fail
  · exact Spec.nul hq

theorem classItem_spec (ok : Ok M G) (hR : RecOk M G N n R) (hq : M.quiet) (hw : M.wild) {p : Bytes} (hG : G p)
    (hn : p.length ≤ n) (hN : 256 * (n + 2) ≤ N) :
    Spec M (classItem R N p) (Sum.elim (fun r => G r ∧ r.length < p.length) (fun r => G r ∧ r.length ≤ p.length)) := by
  unfold classItem
  split
  · exact Spec.pure ⟨hG, Nat.le_refl _⟩
  refine Spec.bind (Q := fun q => G q ∧ q.length < p.length) ?_ fun q hqq =>
    Spec.bind (blanks_spec ok hqq.1 (by omega)) fun t ht => Spec.pure ⟨ht.1, by omega⟩
  refine Spec.bind (Spec.catchNull (Spec.loosen (classProperty_spec ok hR hq hG hn hN))) fun o ho => ?_
  cases o with
  | some q => exact Spec.pure (ho q rfl)
  | none =>
    refine Spec.chk ?_
    rw [lift_kw, pure_bind]
    split
    · exact keywordFunction_spec ok hR hG hn hN (.inl hq)
    split
    · rename_i hk
      refine Spec.bind (keywordVar_spec ok hR hG hk hn hN) fun q hqq => ?_
      split
      · refine Spec.pure ⟨ok.all hw hqq.1 (List.tail_suffix _), ?_⟩
        have := (List.tail_suffix q).length_le
        omega
      · exact Spec.pure hqq
    · exact Spec.fail

theorem uncheckedName_spec (ok : Ok M G) (hw : M.wild) {s : Bytes} (hG : G s) :
    Spec M (uncheckedName s : P E Bytes) (fun r => G r ∧ r.length ≤ s.length) := by
  unfold uncheckedName
  rcases identifier_inv (ok.noNul hG) with h | ⟨n, t, h, e, -, -, h3⟩
  · rw [h]; exact Spec.ub hw
  · rw [h]
    refine Spec.pure ⟨ok.drop (e ▸ hG) (noSemi_of_id h3), ?_⟩
    rw [e]; simp

theorem keywordClass_spec (ok : Ok M G) (hR : RecOk M G N n R) {s : Bytes} (hG : G s) (hk : kw s = some kClass)
    (hn : s.length ≤ n) (hN : 256 * (n + 2) ≤ N) :
    Spec M (keywordClass R N s) (fun r => G r ∧ r.length < s.length) := by
  obtain ⟨hw, hq⟩ := ok.cls hG (kw_prefix hk)
  unfold keywordClass
  rw [blanks_solid (by omega) (by rw [kw_hd hk]; decide), pure_bind, lift_kw, pure_bind, if_pos hk]
  refine Spec.bind Spec.need fun _ _ => ?_
  refine Spec.bind (skip_spec ok hG (kw_prefix hk) (by decide) (k := 5) rfl) fun a ha => ?_
  refine Spec.bind (blanks_spec ok ha.1 (by omega)) fun b hb => ?_
  refine Spec.bind (uncheckedName_spec ok hw hb.1) fun c hc => ?_
  refine Spec.bind (blanks_spec ok hc.1 (by omega)) fun d hd => ?_
  extract_lets -underBinder jp
  refine Spec.join (k := jp) (fun q => G q ∧ q.length ≤ d.length) (fun hjp => ?_) fun e he => ?_
  · clear_value jp
    split
    · rename_i h
      obtain ⟨h1, h2⟩ := drop_spec ok hd.1 ((startsWith_iff _ _).1 h) (by decide) (k := 7) rfl
      refine Spec.bind (blanks_spec ok h1 (by omega)) fun x hx => ?_
      refine Spec.bind (uncheckedName_spec ok hw hx.1) fun y hy => ?_
      exact Spec.bind ((blanks_spec ok hy.1 (by omega)).weaken fun q hq => ⟨hq.1, by omega⟩) hjp
    · exact Spec.bind (Spec.pure ⟨hd.1, Nat.le_refl _⟩) hjp
  · simp -zeta only [jp]
    refine Spec.bind Spec.need fun _ _ => ?_
    split
    · rename_i h123
      obtain ⟨h1, h2⟩ := ok.tail he.1 h123 (by decide) (by decide)
      refine Spec.bind (blanks_spec ok h1 (by omega)) fun f hf => ?_
      refine Spec.bind (Q := fun r => G r ∧ r.length ≤ f.length) ?_ fun r hr => ?_
      · refine Spec.loop (fun x => G x ∧ x.length ≤ f.length) (fun x => x.length) ?_ N f ⟨hf.1, Nat.le_refl _⟩ (by omega)
        rintro b ⟨hb1, hb2⟩
        refine (classItem_spec ok hR hq hw hb1 (by omega) hN).weaken fun x hx => ?_
        cases x with
        | inl r => exact ⟨⟨hx.1, by have := hx.2; omega⟩, hx.2⟩
        | inr r => exact ⟨hx.1, by have := hx.2; omega⟩
      · split
        · rename_i h125
          obtain ⟨h3, h4⟩ := ok.tail hr.1 h125 (by decide) (by decide)
          exact Spec.pure ⟨h3, by omega⟩
        · exact Spec.fail
    · exact Spec.fail

/-! ### `delete`, `return`, `if`, `switch`, jumps, `while` -/

theorem keywordDelete_spec (ok : Ok M G) (hR : RecOk M G N n R) {s : Bytes} (hG : G s) (hk : kw s = some kDelete)
    (hn : s.length ≤ n) (hN : 256 * (n + 2) ≤ N) :
    Spec M (keywordDelete R N s) (fun r => G r ∧ r.length < s.length) := by
  unfold keywordDelete
  rw [blanks_solid (by omega) (by rw [kw_hd hk]; decide), pure_bind, lift_kw, pure_bind, if_pos hk]
  refine Spec.bind (skip_spec ok hG (kw_prefix hk) (by decide) (k := 6) rfl) fun a ha => ?_
  refine Spec.bind (blanks_spec ok ha.1 (by omega)) fun b hb => ?_
  rw [lift_opr, pure_bind]
  split
  · exact Spec.fail
  rw [lift_kw, pure_bind]
  split
  · exact Spec.fail
  refine Spec.bind (expr_spec ok hR hb.1 (by omega) hN) fun c hc => ?_
  obtain ⟨hc1, hc2, -⟩ := hc
  rw [lift_opr, pure_bind]
  split
  · exact Spec.fail
  exact Spec.bind Spec.need fun _ _ => Spec.pure ⟨hc1, by omega⟩

theorem keywordReturn_spec (ok : Ok M G) (hR : RecOk M G N n R) {s : Bytes} (hG : G s) (hk : kw s = some kReturn)
    (hn : s.length ≤ n) (hN : 256 * (n + 2) ≤ N) :
    Spec M (keywordReturn R N s) (fun r => G r ∧ r.length < s.length) := by
  unfold keywordReturn
  refine Spec.bind (skip_spec ok hG (kw_prefix hk) (by decide) (k := 6) rfl) fun a ha => ?_
  refine Spec.loop (fun x => G x ∧ x.length ≤ a.length) (fun x => x.length) ?_ N a ⟨ha.1, Nat.le_refl _⟩ (by omega)
  rintro b ⟨hb1, hb2⟩
  unfold returnItem
  refine Spec.bind (blanks_spec ok hb1 (by omega)) fun p hp => ?_
  refine Spec.bind (subExp_spec ok hR hp.1 (by omega) hN) fun q hq => ?_
  obtain ⟨hq1, hq2, -⟩ := hq
  refine Spec.bind (blanks_spec ok hq1 (by omega)) fun t ht => ?_
  split
  · rename_i h
    obtain ⟨h1, h2⟩ := ok.tail ht.1 h (by decide) (by decide)
    exact Spec.pure ⟨⟨h1, by omega⟩, by omega⟩
  · exact Spec.pure ⟨ht.1, by omega⟩

/-- A condition in parentheses: the position behind the closing one. -/
theorem cond_spec (ok : Ok M G) (hR : RecOk M G N n R) {s : Bytes} (hG : G s) (hn : s.length ≤ n)
    (hN : 256 * (n + 2) ≤ N) :
    Spec M (subExp R N s (some [41]) {}) (fun e => G e.tail ∧ e.tail.length < s.length ∧ e.length ≤ s.length) := by
  refine (subExp_spec ok hR hG hn hN).weaken fun e he => ?_
  obtain ⟨he1, he2, he3, -⟩ := he
  have h41 : hd e = 41 := by
    have := he3 _ rfl (by decide)
    simpa using this
  obtain ⟨h1, h2⟩ := ok.tail he1 h41 (by decide) (by decide)
  exact ⟨h1, by omega, he2⟩

theorem keywordIf_spec (ok : Ok M G) (hR : RecOk M G N n R) {s : Bytes} (hG : G s) (hk : kw s = some kIf)
    (hn : s.length ≤ n) (hN : 256 * (n + 2) ≤ N) :
    Spec M (keywordIf R N s) (fun r => G r ∧ r.length < s.length) := by
  unfold keywordIf
  refine Spec.loop (fun x => G x ∧ x.length ≤ s.length ∧ kw x = some kIf) (fun x => x.length) ?_ N s
    ⟨hG, Nat.le_refl _, hk⟩ (by omega)
  rintro b ⟨hb1, hb2, hb3⟩
  unfold ifRound
  refine Spec.bind (skip_spec ok hb1 (kw_prefix hb3) (by decide) (k := 2) rfl) fun a ha => ?_
  refine Spec.bind (blanks_spec ok ha.1 (by omega)) fun p hp => ?_
  split
  · rename_i h40
    obtain ⟨h1, h2⟩ := ok.tail hp.1 h40 (by decide) (by decide)
    refine Spec.bind (cond_spec ok hR h1 (by omega) hN) fun e he => ?_
    refine Spec.bind (blanks_spec ok he.1 (by omega)) fun p2 hp2 => ?_
    split
    · rename_i h123
      refine Spec.bind (block_spec ok hR hp2.1 h123 (by omega) hN) fun q hq => ?_
      refine Spec.bind (blanks_spec ok hq.1 (by omega)) fun p3 hp3 => ?_
      rw [lift_kw, pure_bind]
      split
      · rename_i hke
        refine Spec.bind (skip_spec ok hp3.1 (kw_prefix hke) (by decide) (k := 4) rfl) fun c hc => ?_
        refine Spec.bind (blanks_spec ok hc.1 (by omega)) fun p4 hp4 => ?_
        rw [lift_kw, pure_bind]
        split
        · rename_i hki
          exact Spec.pure ⟨⟨hp4.1, by omega, hki⟩, by omega⟩
        split
        · rename_i h123'
          exact Spec.bind (block_spec ok hR hp4.1 h123' (by omega) hN) fun q hq => Spec.pure ⟨hq.1, by omega⟩
        · exact Spec.fail
      · exact Spec.pure ⟨hp3.1, by omega⟩
    · exact Spec.fail
  · exact Spec.fail

theorem switchItem_spec (ok : Ok M G) (hR : RecOk M G N n R) {p : Bytes} (hG : Fin G p)
    (hn : p.length ≤ n) (hN : 256 * (n + 2) ≤ N) :
    Spec M (switchItem R N p) (Sum.elim (fun r => Fin G r ∧ r.length < p.length) (fun r => Fin G r ∧ r.length ≤ p.length)) := by
  unfold switchItem
  split
  · exact Spec.pure ⟨hG, Nat.le_refl _⟩
  rw [lift_kw, pure_bind]
  refine Spec.bind (Q := fun q => G q ∧ q.length < p.length) ?_ fun q hq => ?_
  · split
    · rename_i hk
      have hG := hG.good (kw_hd hk) (by decide) (by decide)
      refine Spec.bind (skip_spec ok hG (kw_prefix hk) (by decide) (k := 4) rfl) fun a ha => ?_
      refine Spec.bind (blanks_spec ok ha.1 (by omega)) fun b hb => ?_
      refine (expr_spec ok hR hb.1 (by omega) hN).weaken fun c hc => ⟨hc.1, ?_⟩
      have := hc.2.1; omega
    split
    · rename_i hk
      have hG := hG.good (kw_hd hk) (by decide) (by decide)
      refine Spec.bind Spec.need fun _ _ => ?_
      refine Spec.bind (skip_spec ok hG (kw_prefix hk) (by decide) (k := 7) rfl) fun a ha => ?_
      exact (blanks_spec ok ha.1 (by omega)).weaken fun c hc => ⟨hc.1, by omega⟩
    · exact Spec.fail
  · split
    · rename_i h58
      obtain ⟨h1, h2⟩ := ok.tail hq.1 h58 (by decide) (by decide)
      refine Spec.bind (blanks_spec ok h1 (by omega)) fun t ht => ?_
      rw [lift_kw, pure_bind]
      split
      · exact Spec.pure ⟨.inl ht.1, by omega⟩
      refine Spec.bind (hR.rcv true t ht.1 (by omega)) fun u hu => ?_
      obtain ⟨hu1, hu2, -⟩ := hu
      rw [lift_kw, pure_bind]
      refine Spec.bind (Q := fun v => Fin G v ∧ v.length ≤ u.length) ?_ fun v hv =>
        Spec.bind (blanks_fin ok hv.1 (by omega)) fun w hw => Spec.pure ⟨hw.1, by omega⟩
      split
      · rename_i hkb
        have hGu := hu1.good (kw_hd hkb) (by decide) (by decide)
        refine Spec.bind (skip_spec ok hGu (kw_prefix hkb) (by decide) (k := 5) rfl) fun a ha => ?_
        refine Spec.bind (blanks_spec ok ha.1 (by omega)) fun b hb => ?_
        exact (semicolons_spec ok (.inl hb.1) (by omega)).weaken fun r hr => ⟨hr.1, by have := hr.2.1; omega⟩
      split
      · exact Spec.fail
      · exact Spec.pure ⟨hu1, Nat.le_refl _⟩
    · exact Spec.fail

theorem keywordSwitch_spec (ok : Ok M G) (hR : RecOk M G N n R) {s : Bytes} (hG : G s) (hk : kw s = some kSwitch)
    (hn : s.length ≤ n) (hN : 256 * (n + 2) ≤ N) :
    Spec M (keywordSwitch R N s) (fun r => G r ∧ r.length < s.length) := by
  unfold keywordSwitch
  refine Spec.bind (skip_spec ok hG (kw_prefix hk) (by decide) (k := 6) rfl) fun a ha => ?_
  refine Spec.bind (blanks_spec ok ha.1 (by omega)) fun p hp => ?_
  split
  · rename_i h40
    obtain ⟨h1, h2⟩ := ok.tail hp.1 h40 (by decide) (by decide)
    refine Spec.bind (blanks_spec ok h1 (by omega)) fun q hq => ?_
    refine Spec.bind (cond_spec ok hR hq.1 (by omega) hN) fun e he => ?_
    refine Spec.bind (blanks_spec ok he.1 (by omega)) fun p2 hp2 => ?_
    split
    · rename_i h123
      obtain ⟨h3, h4⟩ := ok.tail hp2.1 h123 (by decide) (by decide)
      refine Spec.bind (blanks_spec ok h3 (by omega)) fun p3 hp3 => ?_
      refine Spec.bind (Q := fun r => Fin G r ∧ r.length ≤ p3.length) ?_ fun r hr => ?_
      · refine Spec.loop (fun x => Fin G x ∧ x.length ≤ p3.length) (fun x => x.length) ?_ N p3
          ⟨.inl hp3.1, Nat.le_refl _⟩ (by omega)
        rintro b ⟨hb1, hb2⟩
        refine (switchItem_spec ok hR hb1 (by omega) hN).weaken fun x hx => ?_
        cases x with
        | inl r => exact ⟨⟨hx.1, by have := hx.2; omega⟩, hx.2⟩
        | inr r => exact ⟨hx.1, by have := hx.2; omega⟩
      · split
        · rename_i h125
          obtain ⟨h5, h6⟩ := ok.tail (hr.1.good h125 (by decide) (by decide)) h125 (by decide) (by decide)
          exact Spec.pure ⟨h5, by omega⟩
        · exact Spec.fail
    · exact Spec.fail
  · exact Spec.fail

theorem keywordJump_spec (ok : Ok M G) {s k : Bytes} (hG : G s) (hk : kw s = some k) (h59 : 59 ∉ k) (h0 : 0 < k.length)
    {l : Nat} (hl : l = k.length) (hN : s.length < N) :
    Spec M (keywordJump N l s : P E Bytes) (fun r => G r ∧ r.length < s.length) := by
  unfold keywordJump
  refine Spec.bind Spec.need fun _ _ => ?_
  refine Spec.bind (skip_spec ok hG (kw_prefix hk) h59 hl) fun a ha => ?_
  exact (blanks_spec ok ha.1 (by omega)).weaken fun r hr => ⟨hr.1, by omega⟩

theorem keywordWhile_spec (ok : Ok M G) (hR : RecOk M G N n R) {s : Bytes} (hG : G s) (hk : kw s = some kWhile)
    (hn : s.length ≤ n) (hN : 256 * (n + 2) ≤ N) :
    Spec M (keywordWhile R N s) (fun r => G r ∧ r.length < s.length) := by
  unfold keywordWhile
  refine Spec.bind (skip_spec ok hG (kw_prefix hk) (by decide) (k := 5) rfl) fun a ha => ?_
  refine Spec.bind (blanks_spec ok ha.1 (by omega)) fun p hp => ?_
  split
  · rename_i h40
    obtain ⟨h1, h2⟩ := ok.tail hp.1 h40 (by decide) (by decide)
    refine Spec.bind (Spec.catchNull (Spec.loosen (cond_spec ok hR h1 (by omega) hN))) fun o ho => ?_
    cases o with
    | none => exact Spec.throw
    | some e =>
      obtain ⟨he1, he2, -⟩ := ho e rfl
      refine Spec.bind (copyDiff_spec ?_) fun _ _ => ?_
      · rcases ok.len h1 with h | h
        · exact .inl h
        · exact .inr (by omega)
      refine Spec.bind (blanks_spec ok he1 (by omega)) fun p2 hp2 => ?_
      split
      · rename_i h123
        exact (block_spec ok hR hp2.1 h123 (by omega) hN).weaken fun r hr => ⟨hr.1, by omega⟩
      · exact Spec.fail
  · exact Spec.fail

theorem keywordDo_spec (ok : Ok M G) (hR : RecOk M G N n R) {s : Bytes} (hG : G s) (hk : kw s = some kDo)
    (hn : s.length ≤ n) (hN : 256 * (n + 2) ≤ N) :
    Spec M (keywordDo R N s) (fun r => G r ∧ r.length < s.length) := by
  unfold keywordDo
  refine Spec.bind (skip_spec ok hG (kw_prefix hk) (by decide) (k := 2) rfl) fun a ha => ?_
  refine Spec.bind (blanks_spec ok ha.1 (by omega)) fun p hp => ?_
  split
  · rename_i h123
    refine Spec.bind (block_spec ok hR hp.1 h123 (by omega) hN) fun q hq => ?_
    refine Spec.bind (blanks_spec ok hq.1 (by omega)) fun p2 hp2 => ?_
    rw [lift_kw, pure_bind]
    split
    · rename_i hkw
      refine Spec.bind (skip_spec ok hp2.1 (kw_prefix hkw) (by decide) (k := 5) rfl) fun c hc => ?_
      refine Spec.bind (blanks_spec ok hc.1 (by omega)) fun p3 hp3 => ?_
      split
      · rename_i h40
        obtain ⟨h1, h2⟩ := ok.tail hp3.1 h40 (by decide) (by decide)
        refine Spec.bind (Spec.catchNull (Spec.loosen (cond_spec ok hR h1 (by omega) hN))) fun o ho => ?_
        cases o with
        | none => exact Spec.fail
        | some e =>
          obtain ⟨he1, he2, -⟩ := ho e rfl
          refine Spec.bind (copyDiff_spec ?_) fun _ _ => Spec.pure ⟨he1, by omega⟩
          rcases ok.len h1 with h | h
          · exact .inl h
          · exact .inr (by omega)
      · exact Spec.fail
    · exact Spec.fail
  · exact Spec.fail

/-! ### `for` -/

theorem exitFor_spec {p : Bytes} {Q : Bytes → Prop} (h : Q p) : Spec M (exitFor p : P E Bytes) Q :=
  Spec.bind Spec.mark fun _ _ => Spec.pure h

theorem forBody_spec (ok : Ok M G) (hR : RecOk M G N n R) {p : Bytes} (hG : Fin G p)
    (hn : p.length ≤ n) (hN : 256 * (n + 2) ≤ N) :
    Spec M (forBody R N p) (fun r => Fin G r ∧ r.length ≤ p.length) := by
  unfold forBody
  split
  · rename_i h41
    obtain ⟨h1, h2⟩ := ok.tail (hG.good h41 (by decide) (by decide)) h41 (by decide) (by decide)
    refine Spec.bind (blanks_spec ok h1 (by omega)) fun q hq => ?_
    split
    · rename_i h123
      exact (block_spec ok hR hq.1 h123 (by omega) hN).weaken fun r hr => ⟨.inl hr.1, by omega⟩
    · exact exitFor_spec ⟨.inl hq.1, by omega⟩
  · exact exitFor_spec ⟨hG, Nat.le_refl _⟩

/-- An expression at the end of the text. -/
theorem expr_end {props : Props} {s : Bytes} (hs : s = [59] ∨ s = []) (hN : 1 < N) :
    Spec M (expression (subExp R N) N s props) (fun r => r = [59] ∧ s = [59]) := by
  have hz : NoNul s := by
    rcases hs with rfl | rfl
    · intro c hc; simp at hc; subst hc; decide
    · intro c hc; cases hc
  have hb : (blanks N s : P E Bytes) = pure s := by
    refine blanks_solid (by omega) ?_
    rcases hs with rfl | rfl <;> decide
  have hsub : Spec M (subExp R N s none props) (fun r => r = [59] ∧ s = [59]) := by
    unfold subExp
    rw [hb, pure_bind]
    rcases hs with rfl | rfl
    · rw [if_neg (by decide)]
      refine Spec.bind (endOrKeyword_spec hz (by simpa using hN)) fun b hb => ?_
      have : b = true := by
        rw [hb]
        have hk : kw [59] = none := by decide +kernel
        simp [endsB, anonB, hk, endChar, hd]
      rw [if_pos this]
      exact Spec.bind checkEnd_spec fun _ _ => Spec.pure ⟨rfl, rfl⟩
    · rw [if_pos (by decide)]
      exact Spec.fail
  unfold expression
  refine Spec.bind hsub fun q hq => ?_
  obtain ⟨rfl, rfl⟩ := hq
  extract_lets -underBinder jp
  refine Spec.join (k := jp) (fun r => r = [59]) (fun hjp => ?_) fun r hr => Spec.bind Spec.need fun _ _ => Spec.pure ⟨hr, rfl⟩
  clear_value jp
  rw [if_neg (by simp [hd])]
  exact Spec.bind (Spec.pure (Q := fun r => r = [59]) rfl) hjp

theorem forHead_spec (ok : Ok M G) (hR : RecOk M G N n R) {p : Bytes} (hG : G p)
    (hn : p.length ≤ n) (hN : 256 * (n + 2) ≤ N) :
    Spec M (forHead R N p) (fun r => Fin G r ∧ r.length ≤ p.length) := by
  unfold forHead
  refine Spec.bind (blanks_spec ok hG (by omega)) fun p0 hp0 => ?_
  split
  · rename_i h59
    have h1 : (G p0.tail ∨ p0.tail = [59]) ∧ p0.tail.length < p0.length := by
      have e := cons_of_hd h59 (by decide)
      have hg := hp0.1
      rw [e] at hg
      exact ⟨ok.semi hg, by have := congrArg List.length e; simp at this; simp; omega⟩
    refine Spec.bind (Q := fun r => (G r ∨ r = [59]) ∧ r.length ≤ p0.tail.length) ?_ fun p1 hp1 => ?_
    · rcases h1.1 with h | h
      · exact (blanks_spec ok h (by omega)).weaken fun r hr => ⟨.inl hr.1, hr.2⟩
      · rw [h, blanks_solid (by omega) (by decide)]
        exact Spec.pure ⟨.inr rfl, Nat.le_refl _⟩
    extract_lets -underBinder jp
    refine Spec.join (k := jp) (fun r => (G r ∨ r = [59]) ∧ r.length ≤ p1.length) (fun hjp => ?_) fun p2 hp2 => ?_
    · clear_value jp
      split
      · exact Spec.bind (Spec.pure ⟨hp1.1, Nat.le_refl _⟩) hjp
      · rename_i hn59
        have hg1 : G p1 := by
          rcases hp1.1 with h | h
          · exact h
          · rw [h] at hn59; exact absurd rfl hn59
        refine Spec.bind (Q := fun r => G r ∧ r.length < p1.length) ?_ fun a ha => ?_
        · by_cases h0 : hd p1 = 0
          · have := hd_zero (ok.noNul hg1) h0
            subst this
            exact Spec.ub (ok.nonempty hg1)
          · exact skip_one ok hg1 rfl h0 hn59
        refine Spec.bind (blanks_spec ok ha.1 (by omega)) fun e he => ?_
        split
        · exact Spec.bind (Spec.pure ⟨.inl hg1, Nat.le_refl _⟩) hjp
        · exact Spec.bind ((subExp_spec ok hR hg1 (by omega) hN).weaken fun r hr => ⟨.inl hr.1, hr.2.1⟩) hjp
    · simp -zeta only [jp]
      refine Spec.bind (Q := fun r => Fin G r ∧ r.length ≤ p2.length) ?_ fun p3 hp3 => ?_
      · refine blanks_fin ok ?_ (by omega)
        rcases hp2.1 with h | h
        · exact .inl h
        · exact .inr (.inl h)
      split
      · rename_i h59'
        obtain ⟨h3, h4⟩ := hp3.1.semi ok h59'
        refine Spec.bind (blanks_fin ok h3 (by omega)) fun p4 hp4 => ?_
        split
        · exact (forBody_spec ok hR hp4.1 (by omega) hN).weaken fun r hr => ⟨hr.1, by omega⟩
        · refine Spec.bind (Q := fun r => Fin G r ∧ r.length ≤ p4.length) ?_ fun r hr =>
            (forBody_spec ok hR hr.1 (by omega) hN).weaken fun r hr => ⟨hr.1, by omega⟩
          rcases hp4.1 with h | h
          · exact (expr_spec ok hR h (by omega) hN).weaken fun r hr => ⟨.inl hr.1, hr.2.1⟩
          · exact (expr_end h (by omega)).weaken fun r hr => ⟨.inr (.inl hr.1), by rw [hr.1, hr.2]; exact Nat.le_refl _⟩
      · exact exitFor_spec ⟨hp3.1, by omega⟩
  · exact exitFor_spec ⟨.inl hp0.1, by omega⟩

theorem in_hd {t : Bytes} (h : opr t = some inStr) : [105, 110] <+: t := (opr_some h).1

theorem forIn_spec (ok : Ok M G) (hR : RecOk M G N n R) {t : Bytes} (hG : G t) (hop : opr t = some inStr)
    (hn : t.length ≤ n) (hN : 256 * (n + 2) ≤ N) :
    Spec M (forIn R N t) (fun r => Fin G r ∧ r.length ≤ t.length) := by
  unfold forIn
  refine Spec.bind Spec.query fun b _ => ?_
  split
  · refine Spec.bind (skip_spec ok hG (in_hd hop) (by decide) (k := 2) rfl) fun a ha => ?_
    refine Spec.bind (blanks_spec ok ha.1 (by omega)) fun q hq => ?_
    have hqr : Fin G q ∧ q.length ≤ t.length := ⟨.inl hq.1, by omega⟩
    rw [lift_opr, pure_bind]
    split
    · exact exitFor_spec hqr
    rw [lift_kw, pure_bind]
    split
    · exact exitFor_spec hqr
    refine Spec.bind (Spec.catchNull (Spec.loosen (subExp_spec ok hR hq.1 (by omega) hN))) fun o ho => ?_
    cases o with
    | none => exact Spec.pure hqr
    | some u =>
      obtain ⟨hu1, hu2, -⟩ := ho u rfl
      have hwild : M.wild ∨ q.length < 1024 := ok.len hq.1
      simp only []
      split
      · rename_i h
        refine Spec.ub ?_
        rcases hwild with h' | h'
        · exact h'
        · omega
      refine Spec.bind Spec.query fun b _ => ?_
      split
      · split
        · rename_i h
          refine Spec.ub ?_
          rcases hwild with h' | h'
          · exact h'
          · omega
        · exact exitFor_spec hqr
      split
      · refine Spec.bind Spec.query fun b _ => ?_
        split
        · refine Spec.bind (blanks_spec ok hu1 (by omega)) fun v hv => ?_
          exact (forBody_spec ok hR (.inl hv.1) (by omega) hN).weaken fun r hr => ⟨hr.1, by omega⟩
        · exact Spec.pure ⟨.inl hu1, by omega⟩
      · exact exitFor_spec ⟨.inl hu1, by omega⟩
  · exact exitFor_spec ⟨.inl hG, Nat.le_refl _⟩

theorem forInit_spec (ok : Ok M G) (hR : RecOk M G N n R) {p : Bytes} (hG : G p)
    (hn : p.length ≤ n) (hN : 256 * (n + 2) ≤ N) :
    Spec M (forInit R N p) (fun r => Fin G r ∧ r.length ≤ p.length) := by
  unfold forInit
  refine Spec.bind (Spec.catchNull (Spec.loosen (expr_spec ok hR hG hn hN))) fun o ho => ?_
  cases o with
  | none => exact Spec.pure ⟨.inl hG, Nat.le_refl _⟩
  | some t =>
    obtain ⟨ht1, ht2, -⟩ := ho t rfl
    simp only []
    rw [lift_opr, pure_bind]
    split
    · rename_i h
      exact (forIn_spec ok hR ht1 h (by omega) hN).weaken fun r hr => ⟨hr.1, by omega⟩
    · exact (forHead_spec ok hR ht1 (by omega) hN).weaken fun r hr => ⟨hr.1, by omega⟩

theorem keywordFor_spec (ok : Ok M G) (hR : RecOk M G N n R) {s : Bytes} (hG : G s) (hk : kw s = some kFor)
    (hn : s.length ≤ n) (hN : 256 * (n + 2) ≤ N) :
    Spec M (keywordFor R N s) (fun r => Fin G r ∧ r.length < s.length) := by
  unfold keywordFor
  refine Spec.bind (skip_spec ok hG (kw_prefix hk) (by decide) (k := 3) rfl) fun a ha => ?_
  refine Spec.bind (blanks_spec ok ha.1 (by omega)) fun p hp => ?_
  split
  · rename_i h40
    obtain ⟨h1, h2⟩ := ok.tail hp.1 h40 (by decide) (by decide)
    refine Spec.bind (blanks_spec ok h1 (by omega)) fun q hq => ?_
    rw [lift_kw, pure_bind]
    split
    · rename_i hv
      refine Spec.bind (keywordVar_spec ok hR hq.1 (.inl hv) (by omega) hN) fun r hr => ?_
      rw [lift_opr, pure_bind]
      split
      · refine Spec.bind Spec.need fun _ _ => ?_
        refine Spec.bind (skip_spec ok hq.1 (kw_prefix hv) (by decide) (k := 3) rfl) fun b hb => ?_
        exact (forInit_spec ok hR hb.1 (by omega) hN).weaken fun r hr => ⟨hr.1, by omega⟩
      · exact (forHead_spec ok hR hr.1 (by omega) hN).weaken fun r hr => ⟨hr.1, by omega⟩
    · exact (forInit_spec ok hR hq.1 (by omega) hN).weaken fun r hr => ⟨hr.1, by omega⟩
  · exact Spec.fail

/-! ### Statements -/

theorem importFile_spec (ok : Ok M G) {s : Bytes} (hG : G s) (hk : kImport <+: s) (hN : s.length < N) :
    Spec M (importFile N s : P E Bytes) (fun r => G r ∧ r.length < s.length) := by
  unfold importFile
  refine Spec.bind (skip_spec ok hG hk (by decide) (k := 6) rfl) fun a ha => ?_
  refine Spec.bind (blanks_spec ok ha.1 (by omega)) fun p hp => ?_
  split
  · rename_i h34
    have hs := cons_of_hd h34 (by decide)
    have hw : M.wild := ok.quote (hs ▸ hp.1)
    have hsl : p.tail.length < p.length := by have := congrArg List.length hs; simp at this; simp; omega
    have hsuf : (quoteEnd 34 p.tail) <:+ p := (quoteEnd_suffix _ _).trans (List.tail_suffix _)
    have hql := (quoteEnd_suffix 34 p.tail).length_le
    have htl := (List.tail_suffix (quoteEnd 34 p.tail)).length_le
    simp only []
    split
    · refine Spec.bind (copyDiff_spec (.inl hw)) fun _ _ => Spec.bind Spec.need fun _ _ => Spec.bind Spec.need fun _ _ => ?_
      exact Spec.pure ⟨ok.all hw hp.1 ((List.tail_suffix _).trans hsuf), by omega⟩
    · exact Spec.fail
  · exact Spec.fail

theorem Spec.ite {c : Prop} [Decidable c] {a b : P E α} {Q : α → Prop} (h1 : c → Spec M a Q) (h2 : ¬c → Spec M b Q) :
    Spec M (if c then a else b) Q := by
  split
  · exact h1 ‹_›
  · exact h2 ‹_›

theorem keyword_spec (ok : Ok M G) (hR : RecOk M G N n R) {s k : Bytes} (hG : G s) (hk : kw s = some k)
    (ha : anonB N s = false) (hn : s.length ≤ n) (hN : 256 * (n + 2) ≤ N) :
    Spec M (keyword R N k s) (fun r => Fin G r ∧ r.length < s.length) := by
  have up : ∀ {m : P E Bytes}, Spec M m (fun r => G r ∧ r.length < s.length) →
      Spec M m (fun r => Fin G r ∧ r.length < s.length) := fun h => h.weaken fun r hr => ⟨.inl hr.1, hr.2⟩
  unfold keyword
  refine Spec.ite (fun h => ?_) fun _ => ?_
  · refine up (keywordFunction_spec ok hR hG hn hN ?_)
    rcases h with rfl | rfl
    · exact .inl (ok.static hG (kw_prefix hk))
    · exact .inr ⟨hk, .inr ha⟩
  refine Spec.ite (fun h => ?_) fun _ => ?_
  · subst h; exact up (keywordClass_spec ok hR hG hk hn hN)
  refine Spec.ite (fun h => ?_) fun _ => ?_
  · refine up (keywordVar_spec ok hR hG ?_ hn hN)
    rcases h with rfl | rfl
    · exact .inr hk
    · exact .inl hk
  refine Spec.ite (fun h => ?_) fun _ => ?_
  · subst h; exact up (keywordIf_spec ok hR hG hk hn hN)
  refine Spec.ite (fun h => ?_) fun _ => ?_
  · subst h; exact keywordFor_spec ok hR hG hk hn hN
  refine Spec.ite (fun h => ?_) fun _ => ?_
  · subst h; exact up (keywordWhile_spec ok hR hG hk hn hN)
  refine Spec.ite (fun h => ?_) fun _ => ?_
  · subst h; exact up (keywordDo_spec ok hR hG hk hn hN)
  refine Spec.ite (fun h => ?_) fun _ => ?_
  · subst h; exact up (keywordSwitch_spec ok hR hG hk hn hN)
  refine Spec.ite (fun h => ?_) fun _ => ?_
  · subst h; exact up (keywordJump_spec ok hG hk (by decide) (by decide) rfl (by omega))
  refine Spec.ite (fun h => ?_) fun _ => ?_
  · subst h; exact up (keywordJump_spec ok hG hk (by decide) (by decide) rfl (by omega))
  refine Spec.ite (fun h => ?_) fun _ => ?_
  · subst h; exact up (keywordReturn_spec ok hR hG hk hn hN)
  refine Spec.ite (fun h => ?_) fun _ => ?_
  · subst h; exact up (keywordDelete_spec ok hR hG hk hn hN)
  exact Spec.fail

theorem statement_spec (ok : Ok M G) (hR : RecOk M G N n R) {ret : Bool} {p : Bytes} (hG : G p) (h0 : hd p ≠ 0)
    (h59 : hd p ≠ 59) (h125 : hd p ≠ 125) (hn : p.length ≤ n) (hN : 256 * (n + 2) ≤ N) :
    Spec M (statement R N ret p)
      (fun o => (o = none → ret = true) ∧ ∀ q, o = some q → Fin G q ∧ q.length < p.length) := by
  unfold statement
  rw [lift_kw, pure_bind]
  extract_lets -underBinder jp
  refine Spec.join (k := jp) (fun w => w = (isStatementWord (kw p) && !anonB N p)) (fun hjp => ?_) fun w hw => ?_
  · clear_value jp
    split
    · rename_i h
      refine Spec.bind (isAnon_spec (ok.noNul hG) (by omega)) fun a ha => ?_
      exact Spec.bind (Spec.pure (by rw [h, ha]; rfl)) hjp
    · rename_i h
      exact Spec.bind (Spec.pure (by simp [h])) hjp
  simp -zeta only [jp]
  have up : ∀ {m : P E Bytes}, Spec M m (fun r => Fin G r ∧ r.length < p.length) → Spec M (m >>= fun q => pure (some q))
      (fun o => (o = none → ret = true) ∧ ∀ q, o = some q → Fin G q ∧ q.length < p.length) := fun h =>
    Spec.bind h fun q hq => Spec.pure ⟨by simp, by rintro q' ⟨⟩; exact hq⟩
  split
  · rename_i hwt
    rw [hwt] at hw
    simp only [Eq.comm (a := true), Bool.and_eq_true, Bool.not_eq_true'] at hw
    cases hk : kw p with
    | none => rw [hk] at hw; exact absurd hw.1 (by decide)
    | some k =>
      simp only []
      split
      · rename_i h
        exact Spec.pure ⟨fun _ => h.1, by simp⟩
      · exact up (keyword_spec ok hR hG hk hw.2 hn hN)
  rename_i hwf
  split
  · rename_i h
    exact up ((importFile_spec ok hG ((startsWith_iff _ _).1 h) (by omega)).weaken fun r hr => ⟨.inl hr.1, hr.2⟩)
  extract_lets -underBinder jp2
  refine Spec.join (k := jp2) (fun b => b = true → hd p = 123) (fun hjp => ?_) fun b hb => ?_
  · clear_value jp2
    split
    · rename_i h
      exact Spec.bind (objectTest_spec ok hG (by omega)) fun o _ => Spec.bind (Spec.pure fun _ => h) hjp
    · exact Spec.bind (Spec.pure (by simp)) hjp
  simp -zeta only [jp2]
  split
  · rename_i hbt
    exact Spec.chk (up ((block_spec ok hR hG (hb hbt) hn hN).weaken fun r hr => ⟨.inl hr.1, hr.2⟩))
  · refine up ((expr_spec ok hR hG hn hN).weaken fun r hr => ⟨.inl hr.1, ?_⟩)
    rcases hr.2.2.2 with h | ⟨he, h41, h44, h93⟩
    · exact h
    · exfalso
      simp only [endsB, Bool.and_eq_true, Bool.or_eq_true, Bool.not_eq_true'] at he
      rcases he.2 with h | h
      · simp [endChar, h41, h44, h93, h59, h0, h125] at h
      · apply hwf
        rw [hw, h, he.1]; rfl

theorem statements_spec (ok : Ok M G) (hR : RecOk M G N n R) {ret : Bool} {s : Bytes} (hG : G s)
    (hn : s.length ≤ n) (hN : 256 * (n + 2) ≤ N) : Spec M (statements R N ret s) (StmtQ G ret s) := by
  unfold statements
  refine Spec.bind (blanks_spec ok hG (by omega)) fun p hp => ?_
  refine Spec.loop (fun x => Fin G x ∧ x.length ≤ p.length) (fun x => x.length) ?_ N p ⟨.inl hp.1, Nat.le_refl _⟩ (by omega)
  rintro b ⟨hb1, hb2⟩
  unfold statements1
  split
  · rename_i h
    exact Spec.pure ⟨hb1, by omega, fun _ => .inl h⟩
  refine Spec.bind (semicolons_spec ok hb1 (by omega)) fun q hq => ?_
  obtain ⟨hq1, hq2, hq3⟩ := hq
  split
  · rename_i h
    exact Spec.pure ⟨hq1, by omega, fun _ => h⟩
  rename_i h
  simp only [not_or] at h
  have hGq : G q := hq1.good rfl h.1 hq3
  refine Spec.bind (statement_spec ok hR hGq h.1 hq3 h.2 (by omega) hN) fun o ho => ?_
  cases o with
  | none => exact Spec.pure ⟨hq1, by omega, fun hr => absurd (ho.1 rfl) (by simp [hr])⟩
  | some r =>
    obtain ⟨h1, h2⟩ := ho.2 r rfl
    exact Spec.bind (blanks_fin ok h1 (by omega)) fun t ht => Spec.pure ⟨⟨ht.1, by omega⟩, by omega⟩

end Verif.Parse
