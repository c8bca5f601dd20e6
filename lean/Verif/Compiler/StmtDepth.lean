import Verif.Compiler.ExprDepth
/-
Lemmas for C30, second part: statements.
-/
namespace Verif.Comp
open Verif Verif.Vm

mutual
/-- The expressions of a declaration with initialisers are assignments. -/
def DeclStm : Stm → Prop
  | .nil => True
  | .seq a b => DeclStm a ∧ DeclStm b
  | .acts each l => each = true → ∀ a ∈ l, ∃ o r e, a = .asg o r e
  | .block _ _ b => DeclStm b
  | .if1 _ a => DeclStm a
  | .if2 _ a b => DeclStm a ∧ DeclStm b
  | .while _ _ b => DeclStm b
  | .doWhile _ b _ => DeclStm b
  | .for _ _ each init _ _ _ b => (each = true → ∀ a ∈ init, ∃ o r e, a = .asg o r e) ∧ DeclStm b
  | .forIn _ _ _ _ _ b => DeclStm b
  | .switch _ cs => DeclCases cs
  | .brk => True
  | .cont => True
  | .ret _ => True
def DeclCases : Cases → Prop
  | .nil => True
  | .cons _ b _ rest => DeclStm b ∧ DeclCases rest
end

/-- No exits. -/
abbrev HasZ (c : List SI) (d k : Int) : Prop := HasA c d k fun _ => False

theorem HasZ.any {c : List SI} {d k : Int} {X : Int → Prop} (h : HasZ c d k) : HasA c d k X := by
  obtain ⟨D, h⟩ := h
  exact ⟨D, An.any h⟩

theorem hasZ_nil (d : Int) : HasZ [] d d := ⟨_, ann_nil d _⟩

theorem hasZ_append {a b : List SI} {d m k : Int} (ha : HasZ a d m) (hb : HasZ b m k) : HasZ (a ++ b) d k := hasA_append ha hb

/-- Jumps of `break` and `continue`. -/
theorem ann_resolve {c : List SI} {d k : Int} {D : Nat → Int} {X : Int → Prop} {b t : Option Nat} (a : Ann c d k D X)
    (hb : ∀ n, b = some n → n ≤ c.length ∧ D n = 0) (ht : ∀ n, t = some n → n ≤ c.length ∧ D n = 0) : Ann (resolve b t c) d k D X := by
  have get : ∀ (q : Nat) (i : SI), (resolve b t c)[q]? = some i → ∃ x, c[q]? = some x ∧ i = resolveAt b t q x := by
    intro q i hq
    unfold resolve at hq
    rw [List.getElem?_mapIdx] at hq
    cases hg : c[q]? with
    | none => rw [hg] at hq; cases hq
    | some x => rw [hg] at hq; exact ⟨x, rfl, (Option.some.inj hq).symm⟩
  refine ⟨a.start, by rw [resolve_length]; exact a.stop, fun q i hq => ?_, fun q i off hq ho => ?_⟩
  · obtain ⟨x, hx, rfl⟩ := get q i hq
    have hs := a.seq q x hx
    unfold resolveAt
    split
    · have h1 : D q = 0 ∧ D (q + 1) = 0 := hs
      split
      · simp only [SeqOk]; omega
      · exact hs
    · have h1 : D q = 0 ∧ D (q + 1) = 0 := hs
      split
      · simp only [SeqOk]; omega
      · exact hs
    · exact hs
  · obtain ⟨x, hx, rfl⟩ := get q i hq
    have hs := a.seq q x hx
    have hj := a.jmp q x off hx
    rw [resolve_length]
    unfold resolveAt at ho ⊢
    split at ho
    · have h1 : D q = 0 ∧ D (q + 1) = 0 := hs
      cases b with
      | none => cases ho
      | some n =>
        obtain ⟨hn, h0⟩ := hb n rfl
        have ho : (n : Int) - q = off := by simpa only [offs, Ins.off?, Option.some.injEq] using ho
        exact .inl ⟨n, by omega, hn, by simp only [jumpDepth]; omega⟩
    · have h1 : D q = 0 ∧ D (q + 1) = 0 := hs
      cases t with
      | none => cases ho
      | some n =>
        obtain ⟨hn, h0⟩ := ht n rfl
        have ho : (n : Int) - q = off := by simpa only [offs, Ins.off?, Option.some.injEq] using ho
        exact .inl ⟨n, by omega, hn, by simp only [jumpDepth]; omega⟩
    · exact hj ho

/-- The code of a loop. -/
theorem loop_depth {pre hd body tail : List SI} {k : Nat} (hp : HasZ pre 0 0)
    (hh : HasA hd 0 0 fun t => t = (hd.length + body.length + tail.length + 4 : Nat)) (hb : HasZ body 0 0) (ht : HasZ tail 0 0) :
    HasZ (loopCode pre hd k body tail) 0 0 := by
  unfold loopCode
  let X : Int → Prop := fun t => t = (pre.length + hd.length + body.length + tail.length + 4 : Nat) ∨ t = pre.length
  generalize hj : (.jmp (-((((pre ++ hd ++ [(.ext (.push k) : SI)] ++ body).length + 1 + tail.length : Nat) : Int) - pre.length)) : SI) = j
  have lf : (pre ++ hd ++ [(.ext (.push k) : SI)] ++ body).length = pre.length + (hd.length + (1 + body.length)) := by
    simp only [List.length_append, List.length_cons, List.length_nil]; omega
  obtain ⟨Dp, ap⟩ := hp.any (X := X)
  -- before the first `POP_SCOPE`
  have h1 : HasA (hd ++ ([.ext (.push k)] ++ body)) 0 0 fun t => X (t + pre.length) := by
    refine hasA_append ?_ (hasA_append (m := 0) (hasA_one rfl rfl) hb.any)
    obtain ⟨Dh, ah⟩ := hh
    exact ⟨Dh, ah.mono fun t ht => .inl (by show t + (pre.length : Int) = _; omega)⟩
  obtain ⟨D1, a1⟩ := h1
  obtain ⟨DF, aF, eF, -⟩ := ap.append a1
  -- between the `POP_SCOPE`s
  have h2 : HasA ([.ext .pop] ++ (tail ++ [j])) 0 0 fun t => X (t + (pre ++ (hd ++ ([(.ext (.push k) : SI)] ++ body))).length) := by
    refine hasA_append (m := 0) (hasA_one rfl rfl) (hasA_append ht.any ⟨_, ann_one (k := 0) ?_ ?_⟩)
    · rw [← hj]; simp only [SeqOk]; omega
    · intro off ho
      rw [← hj] at ho ⊢
      refine ⟨.inr ?_, rfl⟩
      rw [lf] at ho
      simp only [offs, Ins.off?, Option.some.injEq] at ho
      simp only [List.length_append, List.length_cons, List.length_nil]
      omega
  obtain ⟨DG, aG⟩ := h2
  obtain ⟨DH, aH⟩ := hasA_one (i := .ext .pop) (d := 0) (k := 0) (X := fun t => X (t + ([(.ext .pop : SI)] ++ (tail ++ [j])).length + (pre ++ (hd ++ ([(.ext (.push k) : SI)] ++ body))).length)) rfl rfl
  obtain ⟨DGH, aGH, eGH, eGH'⟩ := aG.append aH
  obtain ⟨D, a, e, e'⟩ := aF.append aGH
  have ecode : pre ++ hd ++ [(.ext (.push k) : SI)] ++ body ++ [.ext .pop] ++ tail ++ [j, .ext .pop]
      = (pre ++ (hd ++ ([(.ext (.push k) : SI)] ++ body))) ++ (([.ext .pop] ++ (tail ++ [j])) ++ [.ext .pop]) := by simp
  have e0 : pre ++ hd ++ [(.ext (.push k) : SI)] ++ body = pre ++ (hd ++ ([(.ext (.push k) : SI)] ++ body)) := by simp
  simp only []
  rw [hj, ecode, e0]
  have dpre : D pre.length = 0 := by
    rw [e _ (by simp), eF _ (Nat.le_refl _), ap.stop]
  have dF : D (pre ++ (hd ++ ([(.ext (.push k) : SI)] ++ body))).length = 0 := by
    rw [e _ (Nat.le_refl _), aF.stop]
  have dG : D ((pre ++ (hd ++ ([(.ext (.push k) : SI)] ++ body))).length + ([(.ext .pop : SI)] ++ (tail ++ [j])).length) = 0 := by
    rw [e', eGH _ (Nat.le_refl _), aG.stop]
  have hc : An _ 0 0 D := a.close (by
    rintro t (rfl | rfl)
    · refine ⟨_, rfl, ?_, ?_⟩
      · simp only [List.length_append, List.length_cons, List.length_nil]; omega
      · have := a.stop
        rw [← this]
        congr 1
        simp only [List.length_append, List.length_cons, List.length_nil]; omega
    · exact ⟨_, rfl, by simp only [List.length_append]; omega, dpre⟩)
  refine ⟨D, ann_resolve hc ?_ ?_⟩
  · rintro n hn
    cases hn
    refine ⟨Nat.sub_le _ _, ?_⟩
    rw [← dG]
    congr 1
    simp only [List.length_append, List.length_cons, List.length_nil]; omega
  · rintro n hn
    cases hn
    exact ⟨by simp only [List.length_append]; omega, dF⟩

theorem scope_depth {k : Nat} {vars : Bool} {c : List SI} (h : HasZ c 0 0) : HasZ (inScope k vars c) 0 0 := by
  unfold inScope
  split
  · rw [List.cons_append]
    exact hasA_append (a := [_]) (hasA_one (k := 0) rfl rfl) (hasA_append h.any (hasA_one rfl rfl))
  · exact h

section
variable {B : Base}

theorem good_ex {e : Sub} {c : List SI} (hg : GoodSub B e) (h : compSub B.S.fold e [] = some c) : Ex1 c := by
  obtain ⟨c', e', G⟩ := sub_depth (S := B.mach 10 0) e hg.1 (safeSub_mach e hg.2) [] c (.inl rfl) h
  rw [List.nil_append] at e'
  subst e'
  exact G

theorem good_args {f : Nat} {args : Args} {c : List SI} (hg : GoodSub B (.plain (.opd (.app f args)))) (h : compArgs B.S.fold args = some c)
    (d : Int) : HasZ c d (d + args.length) := by
  have hw := hg.1
  have hs := safeSub_mach (cap := 10) (halt := 0) _ hg.2
  simp only [WfSub, WfEx, WfOpd, SafeSub, SafeEx, SafeOpd] at hw hs
  exact args_depth (S := B.mach 10 0) args hw.2 hs c h d

/-- An expression of a statement that is not the last one leaves its value. -/
theorem act_leaves {a : Act} {stmt : Bool} {c : List SI} (hg : GoodAct B a) (h : compAct B.S.fold B.isCall stmt false a = some c) (d : Int) :
    HasZ c d (d + 1) := by
  cases a with
  | asg o r e =>
    simp only [compAct, Option.map_eq_some_iff] at h
    obtain ⟨ce, he, rfl⟩ := h
    refine hasA_append (good_ex (B := B) hg he d) (hasA_append (a := [_]) (b := [_]) (m := d + 2) (hasA_one ?_ rfl) (hasA_one ?_ rfl))
    · simp only [SeqOk]; omega
    · simp only [SeqOk, Bool.false_eq_true, if_false]; omega
  | inc o r =>
    simp only [compAct, Option.some.injEq] at h
    subst h
    exact hasA_append (a := [_]) (b := [_]) (m := d + 1) (hasA_one rfl rfl) (hasA_one (by simp [SeqOk]) rfl)
  | eff e =>
    simp only [compAct, Option.map_eq_some_iff, Bool.false_eq_true, if_false] at h
    obtain ⟨ce, he, rfl⟩ := h
    exact good_ex (B := B) hg he d

/-- The last one leaves nothing. -/
theorem act_resets {a : Act} {stmt : Bool} {c : List SI} (hg : GoodAct B a) (hc : lastActClean B stmt a)
    (h : compAct B.S.fold B.isCall stmt true a = some c) (d : Int) : HasZ c d 0 := by
  cases a with
  | asg o r e =>
    simp only [compAct, Option.map_eq_some_iff] at h
    obtain ⟨ce, he, rfl⟩ := h
    refine hasA_append (good_ex (B := B) hg he d) (hasA_append (a := [_]) (b := [_]) (m := d + 2) (hasA_one ?_ rfl) (hasA_one ?_ rfl))
    · simp only [SeqOk]; omega
    · simp [SeqOk]
  | inc o r =>
    simp only [compAct, Option.some.injEq] at h
    subst h
    exact hasA_append (a := [_]) (b := [_]) (m := d + 1) (hasA_one rfl rfl) (hasA_one (by simp [SeqOk]) rfl)
  | eff e =>
    simp only [compAct, Option.map_eq_some_iff, if_true] at h
    obtain ⟨ce, he, rfl⟩ := h
    rcases hc with hcall | ⟨rfl, hno⟩
    · match e, hcall with
      | .plain (.opd (.app f args)), hcall =>
        obtain ⟨ca, hca, rfl, -⟩ := call_code (cap := 10) (halt := 0) he hg
        have hf : B.isCall f = true := hcall
        have : resetLast B.isCall stmt (ca ++ [(.app f args.length : SI)]) = ca ++ [.ext (.callR f args.length)] := by
          unfold resetLast
          simp [hf]
        rw [this]
        exact hasA_append (good_args (B := B) hg hca d) (hasA_one (by simp [SeqOk]) rfl)
    · have : resetLast B.isCall true ce = ce ++ [.ext .reset] := by
        unfold resetLast
        split
        · rename_i f m hl
          rw [hno ce f m he hl]
          simp
        · simp
      rw [this]
      exact hasA_append (good_ex (B := B) hg he d) (hasA_one (by simp [SeqOk]) rfl)

theorem acts_depth {stmt each : Bool} : (l : List Act) → GoodActs B l → ActsClean B stmt l → (each = true → ∀ a ∈ l, ∃ o r e, a = .asg o r e) →
    (c : List SI) → compActs B.S.fold B.isCall stmt each l = some c → ∀ d, HasZ c d (if l.isEmpty then d else 0)
  | [], _, _, _, c, h, d => by cases h; exact hasZ_nil d
  | [a], hg, hc, _, c, h, d => by
    simp only [compActs, Option.bind_eq_some_iff, Option.map_eq_some_iff, List.isEmpty_nil, Bool.or_true] at h
    obtain ⟨c1, h1, c2, h2, rfl⟩ := h
    cases h2
    rw [List.append_nil]
    exact act_resets (hg a (by simp)) hc h1 d
  | a :: b :: rest, hg, hc, hd, c, h, d => by
    rw [compActs] at h
    simp only [Option.bind_eq_some_iff, Option.map_eq_some_iff] at h
    obtain ⟨c1, h1, c2, h2, rfl⟩ := h
    have ih := acts_depth (stmt := stmt) (each := each) (b :: rest) (fun x hx => hg x (List.mem_cons_of_mem _ hx)) hc
      (fun he x hx => hd he x (List.mem_cons_of_mem _ hx)) c2 h2
    simp only [List.isEmpty_cons, Bool.or_false] at h1
    have ih : ∀ d, HasZ c2 d 0 := ih
    show HasZ (c1 ++ c2) d 0
    cases each with
    | false => exact hasZ_append (act_leaves (hg a (by simp)) h1 d) (ih _)
    | true =>
      obtain ⟨o, r, e, rfl⟩ := hd rfl a (by simp)
      exact hasZ_append (act_resets (stmt := stmt) (hg _ (by simp)) (show lastActClean B stmt (.asg o r e) from trivial) h1 d) (ih _)

theorem acts_zero {stmt each : Bool} {l : List Act} (hg : GoodActs B l) (hc : ActsClean B stmt l) (hd : each = true → ∀ a ∈ l, ∃ o r e, a = .asg o r e)
    {c : List SI} (h : compActs B.S.fold B.isCall stmt each l = some c) : HasZ c 0 0 := by
  have := acts_depth l hg hc hd c h 0
  split at this <;> exact this

theorem list_depth : (es : List Sub) → (∀ e ∈ es, GoodSub B e) → (c : List SI) → compList B.S.fold es = some c → ∀ d, HasZ c d (d + es.length)
  | [], _, c, h, d => by
    cases h
    have := hasZ_nil d
    simpa using this
  | e :: rest, hg, c, h, d => by
    simp only [compList, Option.bind_eq_some_iff, Option.map_eq_some_iff] at h
    obtain ⟨c1, h1, c2, h2, rfl⟩ := h
    have := hasZ_append (good_ex (hg e (by simp)) h1 d) (list_depth rest (fun x hx => hg x (List.mem_cons_of_mem _ hx)) c2 h2 (d + 1))
    rwa [show d + 1 + (rest.length : Int) = d + ((e :: rest).length : Int) by simp only [List.length_cons]; omega] at this

theorem addrs_depth : (rs : List Nat) → ∀ d, HasZ (rs.map fun r => (.ext (.addr r) : SI)) d (d + rs.length)
  | [], d => by
    have := hasZ_nil d
    simpa using this
  | r :: rs, d => by
    have := hasZ_append (a := [(.ext (.addr r) : SI)]) (hasA_one (d := d) (k := d + 1) rfl rfl) (addrs_depth rs (d + 1))
    rwa [show d + 1 + (rs.length : Int) = d + ((r :: rs).length : Int) by simp only [List.length_cons]; omega] at this

/-- The comparisons of a `switch`. -/
theorem cases_depth {size : Nat} : (i : Nat) → (tab : List (Option Lab × Nat)) →
    HasA (caseCode size i tab) 1 1 fun t => ∃ l o, (l, o) ∈ tab ∧ t + i = size + 1 + o
  | i, [] => ⟨_, ann_nil 1 _⟩
  | i, (none, o) :: rest => by
    obtain ⟨D, a⟩ := cases_depth (size := size) i rest
    exact ⟨D, a.mono fun t ⟨l, o, hm, e⟩ => ⟨l, o, List.mem_cons_of_mem _ hm, e⟩⟩
  | i, (some l, o) :: rest => by
    obtain ⟨D, a⟩ := cases_depth (size := size) (i + 2) rest
    refine hasA_append (a := [_]) (m := 2) (hasA_one ?_ ?_) (hasA_append (a := [_]) (m := 1) ⟨_, ann_one ?_ ?_⟩ ⟨D, a.mono ?_⟩)
    · cases l <;> rfl
    · cases l <;> rfl
    · rfl
    · intro off ho
      refine ⟨⟨some l, o, by simp, ?_⟩, rfl⟩
      simp only [offs, Option.some.injEq] at ho
      simp only [List.length_cons, List.length_nil]
      omega
    · rintro t ⟨l', o', hm, e⟩
      refine ⟨l', o', List.mem_cons_of_mem _ hm, ?_⟩
      simp only [List.length_cons, List.length_nil]
      omega

theorem default_some : (cs : Cases) → (lvl : Nat) → (inL : Bool) → (off : Nat) → (tab : List (Option Lab × Nat)) → (bodies : List SI) →
    compCases B.S.fold B.isCall lvl inL off cs = some (tab, bodies) → (defaultNo cs).isSome = true → ∃ o, defaultOff tab = some o
  | .nil, lvl, inL, off, tab, bodies, h, hd => by cases hd
  | .cons l b brk rest, lvl, inL, off, tab, bodies, h, hd => by
    simp only [compCases] at h
    split at h
    · cases h
    · simp only [Option.bind_eq_some_iff, Option.map_eq_some_iff, Prod.mk.injEq] at h
      obtain ⟨cb, hb, ⟨tab', bodies'⟩, hrest, rfl, rfl⟩ := h
      cases l with
      | none => exact ⟨off, rfl⟩
      | some l =>
        simp only [defaultNo, Option.isSome_map] at hd
        exact default_some rest lvl inL _ tab' bodies' hrest hd

mutual
theorem stm_depth : (b : Stm) → SafeStm B b → CleanStm B b → DeclStm b → (lvl : Nat) → (inL inS : Bool) → (c : List SI) →
    compStm B.S.fold B.isCall lvl inL inS b = some c → HasZ c 0 0
  | .nil, _, _, _, lvl, inL, inS, c, h => by cases h; exact hasZ_nil 0
  | .seq a b, hs, hc, hd, lvl, inL, inS, c, h => by
    simp only [SafeStm] at hs; simp only [CleanStm] at hc; simp only [DeclStm] at hd
    simp only [compStm, Option.bind_eq_some_iff, Option.map_eq_some_iff] at h
    obtain ⟨ca, ha, cb, hb, rfl⟩ := h
    exact hasZ_append (stm_depth a hs.1 hc.1 hd.1 lvl inL inS ca ha) (stm_depth b hs.2 hc.2 hd.2 lvl inL inS cb hb)
  | .acts each l, hs, hc, hd, lvl, inL, inS, c, h => by
    simp only [SafeStm] at hs; simp only [CleanStm] at hc; simp only [DeclStm] at hd
    simp only [compStm] at h
    exact acts_zero hs hc hd h
  | .block k vars b, hs, hc, hd, lvl, inL, inS, c, h => by
    simp only [SafeStm] at hs; simp only [CleanStm] at hc; simp only [DeclStm] at hd
    simp only [compStm] at h
    split at h
    · cases h
    · simp only [Option.map_eq_some_iff] at h
      obtain ⟨cb, hb, rfl⟩ := h
      exact scope_depth (stm_depth b hs.1 hc hd _ inL inS cb hb)
  | .if1 cnd a, hs, hc, hd, lvl, inL, inS, c, h => by
    simp only [SafeStm] at hs; simp only [CleanStm] at hc; simp only [DeclStm] at hd
    simp only [compStm, Option.bind_eq_some_iff, Option.map_eq_some_iff] at h
    obtain ⟨cc, hcc, ca, ha, rfl⟩ := h
    have h1 := good_ex hs.1 hcc
    have h2 := stm_depth a hs.2 hc hd lvl inL inS ca ha
    have : HasA (cc ++ [.jnt ((ca.length : Int) + 1)] ++ ca) 0 0 fun t => t = (cc.length + 1 + ca.length : Nat) := by
      rw [List.append_assoc]
      refine hasA_append (h1.any 0 _) (hasA_append ⟨_, ann_one rfl fun off ho => ⟨?_, rfl⟩⟩ h2.any)
      cases ho
      omega
    obtain ⟨D, a⟩ := this
    refine ⟨D, a.close ?_⟩
    rintro t rfl
    have hl : cc.length + 1 + ca.length = (cc ++ [(.jnt ((ca.length : Int) + 1) : SI)] ++ ca).length := by
      simp only [List.length_append, List.length_cons, List.length_nil]
    exact ⟨_, rfl, by omega, by rw [hl]; exact a.stop⟩
  | .if2 cnd a b, hs, hc, hd, lvl, inL, inS, c, h => by
    simp only [SafeStm] at hs; simp only [CleanStm] at hc; simp only [DeclStm] at hd
    simp only [compStm, Option.bind_eq_some_iff, Option.map_eq_some_iff] at h
    obtain ⟨cc, hcc, ca, ha, cb, hb, rfl⟩ := h
    have h1 := good_ex hs.1 hcc
    have h2 := stm_depth a hs.2.1 hc.1 hd.1 lvl inL inS ca ha
    have h3 := stm_depth b hs.2.2 hc.2 hd.2 lvl inL inS cb hb
    let X : Int → Prop := fun t => t = (cc.length + 1 + ca.length + 1 : Nat) ∨ t = (cc.length + 1 + ca.length + 1 + cb.length : Nat)
    have hA : HasA (cc ++ ([(.jnt ((ca.length : Int) + 2) : SI)] ++ (ca ++ [(.jmp ((cb.length : Int) + 1) : SI)]))) 0 0 X := by
      refine hasA_append (h1.any 0 _) (hasA_append (m := 0) ⟨_, ann_one rfl fun off ho => ⟨?_, rfl⟩⟩
        (hasA_append h2.any ⟨_, ann_one (k := 0) (Int.le_refl _) fun off ho => ⟨?_, rfl⟩⟩))
      · cases ho; exact .inl (by omega)
      · cases ho; exact .inr (by simp only [List.length_cons, List.length_nil]; omega)
    obtain ⟨DA, aA⟩ := hA
    obtain ⟨DB, aB⟩ := h3.any (X := fun t => X (t + (cc ++ ([(.jnt ((ca.length : Int) + 2) : SI)] ++ (ca ++ [(.jmp ((cb.length : Int) + 1) : SI)]))).length))
    obtain ⟨D, a, e, e'⟩ := aA.append aB
    have ecode : cc ++ [(.jnt ((ca.length : Int) + 2) : SI)] ++ ca ++ [(.jmp ((cb.length : Int) + 1) : SI)] ++ cb
        = (cc ++ ([(.jnt ((ca.length : Int) + 2) : SI)] ++ (ca ++ [(.jmp ((cb.length : Int) + 1) : SI)]))) ++ cb := by simp
    rw [ecode]
    have hl : (cc ++ ([(.jnt ((ca.length : Int) + 2) : SI)] ++ (ca ++ [(.jmp ((cb.length : Int) + 1) : SI)]))).length = cc.length + 1 + ca.length + 1 := by
      simp only [List.length_append, List.length_cons, List.length_nil]; omega
    refine ⟨D, a.close ?_⟩
    rintro t (rfl | rfl)
    · refine ⟨_, rfl, by rw [List.length_append, hl]; omega, ?_⟩
      rw [← hl, e _ (Nat.le_refl _)]; exact aA.stop
    · refine ⟨_, rfl, by rw [List.length_append, hl]; omega, ?_⟩
      rw [← hl, e']; exact aB.stop
  | .while cnd k b, hs, hc, hd, lvl, inL, inS, c, h => by
    simp only [SafeStm] at hs; simp only [CleanStm] at hc; simp only [DeclStm] at hd
    simp only [compStm] at h
    split at h
    · cases h
    · simp only [Option.bind_eq_some_iff, Option.map_eq_some_iff] at h
      obtain ⟨cc, hcc, cb, hb, rfl⟩ := h
      refine loop_depth (hasZ_nil 0) ?_ (stm_depth b hs.2 hc hd _ true inS cb hb) (hasZ_nil 0)
      refine hasA_append ((good_ex hs.1 hcc).any 0 _) ⟨_, ann_one rfl fun off ho => ⟨?_, rfl⟩⟩
      cases ho
      simp only [List.length_append, List.length_cons, List.length_nil]
      omega
  | .doWhile k b cnd, hs, hc, hd, lvl, inL, inS, c, h => by
    simp only [SafeStm] at hs; simp only [CleanStm] at hc; simp only [DeclStm] at hd
    simp only [compStm] at h
    split at h
    · cases h
    · simp only [Option.bind_eq_some_iff, Option.map_eq_some_iff] at h
      obtain ⟨cb, hb, cc, hcc, rfl⟩ := h
      have h1 := good_ex hs.1 hcc
      have h2 := stm_depth b hs.2 hc hd _ true inS cb hb
      generalize hj : (.jt (-((([(.ext (.push k) : SI)] ++ cb).length + 1 + cc.length : Nat) : Int)) : SI) = j
      let X : Int → Prop := fun t => t = 0 ∨ t = (1 + cb.length + 1 + cc.length + 3 : Nat)
      obtain ⟨DF, aF⟩ := hasA_append (X := X) (hasA_one (i := .ext (.push k)) (d := 0) (k := 0) rfl rfl) h2.any
      have hG : HasA ([.ext .pop] ++ (cc ++ ([j] ++ [(.jmp 2 : SI)]))) 0 0 fun t => X (t + ([(.ext (.push k) : SI)] ++ cb).length) := by
        refine hasA_append (m := 0) (hasA_one rfl rfl) (hasA_append (h1.any 0 _) (hasA_append (m := 0) ⟨_, ann_one ?_ ?_⟩
          ⟨_, ann_one (k := 0) (Int.le_refl _) fun off ho => ⟨?_, rfl⟩⟩))
        · rw [← hj]; rfl
        · intro off ho
          rw [← hj] at ho ⊢
          refine ⟨.inl ?_, rfl⟩
          cases ho
          simp only [List.length_append, List.length_cons, List.length_nil]
          omega
        · cases ho
          refine .inr ?_
          simp only [List.length_append, List.length_cons, List.length_nil]
          omega
      obtain ⟨DG, aG⟩ := hG
      obtain ⟨DH, aH⟩ := hasA_one (i := .ext .pop) (d := 0) (k := 0) (X := fun t => X (t + ([(.ext .pop : SI)] ++ (cc ++ ([j] ++ [(.jmp 2 : SI)]))).length + ([(.ext (.push k) : SI)] ++ cb).length)) rfl rfl
      obtain ⟨DGH, aGH, eGH, eGH'⟩ := aG.append aH
      obtain ⟨D, a, e, e'⟩ := aF.append aGH
      have ecode : [(.ext (.push k) : SI)] ++ cb ++ [.ext .pop] ++ cc ++ [j, .jmp 2, .ext .pop]
          = ([(.ext (.push k) : SI)] ++ cb) ++ (([.ext .pop] ++ (cc ++ ([j] ++ [(.jmp 2 : SI)]))) ++ [.ext .pop]) := by simp
      rw [ecode]
      have dF : D ([(.ext (.push k) : SI)] ++ cb).length = 0 := by rw [e _ (Nat.le_refl _), aF.stop]
      have dG : D (([(.ext (.push k) : SI)] ++ cb).length + ([(.ext .pop : SI)] ++ (cc ++ ([j] ++ [(.jmp 2 : SI)]))).length) = 0 := by
        rw [e', eGH _ (Nat.le_refl _), aG.stop]
      have hcl : An _ 0 0 D := a.close (by
        rintro t (rfl | rfl)
        · exact ⟨0, rfl, Nat.zero_le _, a.start⟩
        · refine ⟨_, rfl, ?_, ?_⟩
          · simp only [List.length_append, List.length_cons, List.length_nil]; omega
          · have := a.stop
            rw [← this]
            congr 1
            simp only [List.length_append, List.length_cons, List.length_nil]; omega)
      refine ⟨D, ann_resolve hcl ?_ ?_⟩
      · rintro n hn
        cases hn
        refine ⟨Nat.sub_le _ _, ?_⟩
        rw [← dG]
        congr 1
        simp only [List.length_append, List.length_cons, List.length_nil]; omega
      · rintro n hn
        cases hn
        exact ⟨by simp only [List.length_append]; omega, dF⟩
  | .for ki vars each init cond post k b, hs, hc, hd, lvl, inL, inS, c, h => by
    simp only [SafeStm] at hs; simp only [CleanStm] at hc; simp only [DeclStm] at hd
    simp only [compStm] at h
    split at h
    · cases h
    · simp only [Option.bind_eq_some_iff] at h
      obtain ⟨ci, hci, cb, hb, cp, hcp, h⟩ := h
      have h1 := acts_zero hs.1 hc.1 hd.1 hci
      have h2 := stm_depth b hs.2.2.1 hc.2.2 hd.2 _ true inS cb hb
      have h3 := acts_zero hs.2.1 hc.2.1 (by simp) hcp
      cases cond with
      | none =>
        cases h
        exact scope_depth (loop_depth (hasZ_nil 0) h1.any h2 h3)
      | some cnd =>
        simp only [Option.map_eq_some_iff] at h
        obtain ⟨cc, hcc, rfl⟩ := h
        refine scope_depth (loop_depth h1 ?_ h2 h3)
        refine hasA_append ((good_ex hs.2.2.2 hcc).any 0 _) ⟨_, ann_one rfl fun off ho => ⟨?_, rfl⟩⟩
        cases ho
        simp only [List.length_append, List.length_cons, List.length_nil]
        omega
  | .forIn ki it rs cnd k b, hs, hc, hd, lvl, inL, inS, c, h => by
    simp only [SafeStm] at hs; simp only [CleanStm] at hc; simp only [DeclStm] at hd
    simp only [compStm] at h
    split at h
    · cases h
    · simp only [Option.bind_eq_some_iff, Option.map_eq_some_iff] at h
      obtain ⟨cc, hcc, cb, hb, rfl⟩ := h
      have h1 := good_ex hs.1 hcc
      have h2 := stm_depth b hs.2 hc hd _ true inS cb hb
      have hthree : ∀ (x : SI) (m : Int) (X : Int → Prop), SeqOk 2 m x → offs x = none → HasA [.loadR it, .ext .member, x] 0 m X := by
        intro x m X hx ho
        exact hasA_append (a := [_]) (m := 1) (hasA_one rfl rfl) (hasA_append (a := [_]) (b := [_]) (m := 2) (hasA_one rfl rfl) (hasA_one hx ho))
      refine scope_depth (loop_depth ?_ ?_ ?_ ?_)
      · exact hasA_append (h1 0) (hasA_append (a := [_]) (b := [_]) (m := 2) (hasA_one rfl rfl) (hasA_one rfl rfl))
      · have := hasA_append (b := [(.jt ((([(.loadR it : SI), (.ext .member : SI), (.ext (.itGet rs.length) : SI)] ++ rs.map (fun r => (.ext (.addr r) : SI)) ++ [(.ext (.storeN rs.length) : SI)] ++ cb).length : Int) + 3 + 5) : SI)])
          (X := fun t => t = (4 + ([(.loadR it : SI), (.ext .member : SI), (.ext (.itGet rs.length) : SI)] ++ rs.map (fun r => (.ext (.addr r) : SI)) ++ [(.ext (.storeN rs.length) : SI)] ++ cb).length + 3 + 4 : Nat))
          (hthree (.ext .itEnd) 1 _ rfl rfl) ⟨_, ann_one (k := 0) rfl fun off ho => ⟨by cases ho; simp only [List.length_cons, List.length_nil]; omega, rfl⟩⟩
        exact this
      · refine hasZ_append (hasZ_append (hasZ_append (hthree _ (rs.length : Int) _ ?_ rfl) (addrs_depth rs _)) (hasA_one rfl rfl)) h2
        simp only [SeqOk]; omega
      · exact hthree _ 0 _ rfl rfl
  | .switch e cs, hs, hc, hd, lvl, inL, inS, c, h => by
    simp only [SafeStm] at hs; simp only [CleanStm] at hc; simp only [DeclStm] at hd
    simp only [compStm, Option.bind_eq_some_iff] at h
    obtain ⟨ce, hce, ⟨tab, bodies⟩, hcs, h⟩ := h
    obtain ⟨Db, ab, ho⟩ := clauses_depth cs hs.2.1 hc.2 hd lvl inL 0 tab bodies hcs
    obtain ⟨od, hod⟩ := default_some cs lvl inL 0 tab bodies hcs hc.1
    split at h
    · cases h
      simp only [switchCode]
      split
      · rw [hod]
        simp only []
        have hlen := caseCode_length (2 * caseCount tab) 0 tab
        let X : Int → Prop := fun t => ∃ l o, (l, o) ∈ tab ∧ t = (ce.length + 2 * caseCount tab + 1 + o : Nat)
        have hA : HasA (ce ++ (caseCode (2 * caseCount tab) 0 tab ++ [.ext (.jmpCase ((od : Int) + 1))])) 0 0 X := by
          refine hasA_append ((good_ex hs.1 hce).any 0 _) ?_
          obtain ⟨D1, a1⟩ := cases_depth (size := 2 * caseCount tab) 0 tab
          refine hasA_append (m := 1) ⟨D1, a1.mono ?_⟩ ⟨_, ann_one ?_ fun off ho => ⟨?_, rfl⟩⟩
          · rintro t ⟨l, o, hm, et⟩
            exact ⟨l, o, hm, by omega⟩
          · simp only [SeqOk]; omega
          · obtain ⟨l, hm⟩ := defaultOff_mem tab od hod
            refine ⟨l, od, hm, ?_⟩
            simp only [offs, Option.some.injEq] at ho
            rw [hlen]
            omega
        obtain ⟨DA, aA⟩ := hA
        obtain ⟨D, a, e1, e2⟩ := aA.append (An.any ab)
        have ecode : ce ++ caseCode (2 * caseCount tab) 0 tab ++ [(.ext (.jmpCase ((od : Int) + 1)) : SI)] ++ bodies
            = (ce ++ (caseCode (2 * caseCount tab) 0 tab ++ [.ext (.jmpCase ((od : Int) + 1))])) ++ bodies := by simp
        rw [ecode]
        have hl : (ce ++ (caseCode (2 * caseCount tab) 0 tab ++ [(.ext (.jmpCase ((od : Int) + 1)) : SI)])).length = ce.length + 2 * caseCount tab + 1 := by
          simp only [List.length_append, List.length_cons, List.length_nil, hlen]; omega
        have hcl : An _ 0 0 D := a.close (by
          rintro t ⟨l, o, hm, rfl⟩
          obtain ⟨n, rfl, hn, h0⟩ := ho l o hm
          refine ⟨_, rfl, by rw [List.length_append, hl]; omega, ?_⟩
          rw [← h0, ← e2, hl]
          congr 1; omega)
        refine ⟨D, ann_resolve hcl ?_ (by rintro n hn; cases hn)⟩
        rintro n hn
        cases hn
        exact ⟨Nat.le_refl _, a.stop⟩
      · exact ⟨Db, ab⟩
    · cases h
  | .brk, _, _, _, lvl, inL, inS, c, h => by
    simp only [compStm] at h
    split at h <;> cases h
    exact hasA_one ⟨rfl, rfl⟩ rfl
  | .cont, _, _, _, lvl, inL, inS, c, h => by
    simp only [compStm] at h
    split at h <;> cases h
    exact hasA_one ⟨rfl, rfl⟩ rfl
  | .ret es, hs, _, _, lvl, inL, inS, c, h => by
    simp only [SafeStm] at hs
    simp only [compStm, Option.map_eq_some_iff] at h
    obtain ⟨d, hd, rfl⟩ := h
    exact hasA_append (list_depth es hs d hd 0) (hasA_one (Int.le_refl _) rfl)
theorem clauses_depth : (cs : Cases) → SafeCases B cs → CleanCases B cs → DeclCases cs → (lvl : Nat) → (inL : Bool) → (off : Nat) →
    (tab : List (Option Lab × Nat)) → (bodies : List SI) → compCases B.S.fold B.isCall lvl inL off cs = some (tab, bodies) →
    ∃ D, An bodies 0 0 D ∧ ∀ l o, (l, o) ∈ tab → ∃ n, o = off + n ∧ n ≤ bodies.length ∧ D n = 0
  | .nil, _, _, _, lvl, inL, off, tab, bodies, h => by cases h; exact ⟨_, ann_nil 0 _, fun l o h => absurd h List.not_mem_nil⟩
  | .cons l b brk rest, hs, hc, hd, lvl, inL, off, tab, bodies, h => by
    simp only [SafeCases] at hs; simp only [CleanCases] at hc; simp only [DeclCases] at hd
    simp only [compCases] at h
    split at h
    · cases h
    · simp only [Option.bind_eq_some_iff, Option.map_eq_some_iff, Prod.mk.injEq] at h
      obtain ⟨cb, hb, ⟨tab', bodies'⟩, hrest, rfl, rfl⟩ := h
      have ib := stm_depth b hs.1 hc.1 hd.1 lvl inL true cb hb
      obtain ⟨Dr, ar, hr⟩ := clauses_depth rest hs.2 hc.2 hd.2 lvl inL _ tab' bodies' hrest
      have ib' : HasZ (cb ++ (if brk && !rest.isNil then [(.ext .brk : SI)] else [])) 0 0 := by
        refine hasZ_append ib ?_
        split
        · exact hasA_one ⟨rfl, rfl⟩ rfl
        · exact hasZ_nil 0
      obtain ⟨Db, ab⟩ := ib'
      obtain ⟨D, a, e, e'⟩ := ab.append ar
      refine ⟨D, a, fun l' o hm => ?_⟩
      rcases List.mem_cons.mp hm with hm | hm
      · cases hm; exact ⟨0, rfl, Nat.zero_le _, a.start⟩
      · obtain ⟨n, rfl, hn, h0⟩ := hr l' o hm
        refine ⟨_, Nat.add_assoc _ _ _, by
          show _ ≤ ((cb ++ _) ++ bodies').length
          rw [List.length_append (as := cb ++ _)]; exact Nat.add_le_add_left hn _, ?_⟩
        rw [e']; exact h0
end
end

end Verif.Comp
