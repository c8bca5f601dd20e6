import Verif.Compiler.StmtLoops
import Verif.Compiler.ExprRange
/-
Proof of C27 by induction over statements.
-/
namespace Verif.Comp
open Verif Verif.Vm

section
variable {B : Base} {halt : Nat} {P : List SI} {n : Nat} {m : Bool}

/-! ### Code is not empty -/

theorem compAct_ne {a : Act} {stmt rst : Bool} {c : List SI} (h : compAct B.S.fold B.isCall stmt rst a = some c) : c ≠ [] := by
  cases a with
  | asg o r e => simp only [compAct, Option.map_eq_some_iff] at h; obtain ⟨d, _, rfl⟩ := h; simp
  | inc o r => cases h; simp
  | eff e =>
    simp only [compAct, Option.map_eq_some_iff] at h
    obtain ⟨d, hd, rfl⟩ := h
    have hne : d ≠ [] := by obtain ⟨c, rfl, G⟩ := compSub_code e [] d hd; exact G.ne
    cases rst with
    | false => simpa using hne
    | true =>
      simp only [if_true]
      unfold resetLast
      repeat' split
      all_goals first | exact hne | (intro h; simp at h)

mutual
theorem emits_ne : (b : Stm) → emits b = true → (lvl : Nat) → (inL inS : Bool) → (c : List SI) →
    compStm B.S.fold B.isCall lvl inL inS b = some c → c ≠ []
  | .nil, he, _, _, _, _, _ => by cases he
  | .seq a b, he, lvl, inL, inS, c, h => by
    simp only [compStm, Option.bind_eq_some_iff, Option.map_eq_some_iff] at h
    obtain ⟨ca, ha, cb, hb, rfl⟩ := h
    simp only [emits, Bool.or_eq_true] at he
    rcases he with he | he
    · have := emits_ne a he lvl inL inS ca ha; simp [this]
    · have := emits_ne b he lvl inL inS cb hb; simp [this]
  | .acts each l, he, lvl, inL, inS, c, h => by
    cases l with
    | nil => cases he
    | cons a rest =>
      simp only [compStm, compActs, Option.bind_eq_some_iff, Option.map_eq_some_iff] at h
      obtain ⟨ca, ha, cb, hb, rfl⟩ := h
      have := compAct_ne ha
      simp [this]
  | .block k vars b, he, lvl, inL, inS, c, h => by
    simp only [compStm] at h
    split at h
    · cases h
    · simp only [Option.map_eq_some_iff] at h
      obtain ⟨cb, hb, rfl⟩ := h
      unfold inScope
      cases vars with
      | true => simp
      | false =>
        have := emits_ne b (by simpa [emits] using he) _ inL inS cb hb
        simpa using this
  | .if1 c a, _, lvl, inL, inS, code, h => by
    simp only [compStm, Option.bind_eq_some_iff, Option.map_eq_some_iff] at h
    obtain ⟨_, _, _, _, rfl⟩ := h; simp
  | .if2 c a b, _, lvl, inL, inS, code, h => by
    simp only [compStm, Option.bind_eq_some_iff, Option.map_eq_some_iff] at h
    obtain ⟨_, _, _, _, _, _, rfl⟩ := h; simp
  | .while c k b, _, lvl, inL, inS, code, h => by
    simp only [compStm] at h
    split at h
    · cases h
    · simp only [Option.bind_eq_some_iff, Option.map_eq_some_iff] at h
      obtain ⟨_, _, _, _, rfl⟩ := h; simp [loopCode, resolve]
  | .doWhile k b c, _, lvl, inL, inS, code, h => by
    simp only [compStm] at h
    split at h
    · cases h
    · simp only [Option.bind_eq_some_iff, Option.map_eq_some_iff] at h
      obtain ⟨_, _, _, _, rfl⟩ := h; simp [resolve]
  | .for ki vars each init cond post k b, _, lvl, inL, inS, code, h => by
    simp only [compStm] at h
    split at h
    · cases h
    · simp only [Option.bind_eq_some_iff] at h
      obtain ⟨_, _, _, _, _, _, h⟩ := h
      cases cond with
      | none => cases h; unfold inScope; split <;> simp [loopCode, resolve]
      | some c =>
        simp only [Option.map_eq_some_iff] at h
        obtain ⟨_, _, rfl⟩ := h; unfold inScope; split <;> simp [loopCode, resolve]
  | .forIn ki it rs c k b, _, lvl, inL, inS, code, h => by
    simp only [compStm] at h
    split at h
    · cases h
    · simp only [Option.bind_eq_some_iff, Option.map_eq_some_iff] at h
      obtain ⟨_, _, _, _, rfl⟩ := h; simp [inScope]
  | .switch e cs, he, lvl, inL, inS, code, h => by
    simp only [compStm, Option.bind_eq_some_iff] at h
    obtain ⟨ce, _, ⟨tab, bodies⟩, hc, h⟩ := h
    split at h
    · cases h
      have := emitsC_ne cs he lvl inL 0 tab bodies hc
      unfold switchCode
      split
      · simp [resolve]
      · exact this
    · cases h
  | .brk, _, lvl, inL, inS, code, h => by
    simp only [compStm] at h
    split at h <;> cases h
    simp
  | .cont, _, lvl, inL, inS, code, h => by
    simp only [compStm] at h
    split at h <;> cases h
    simp
  | .ret es, _, lvl, inL, inS, code, h => by
    simp only [compStm, Option.map_eq_some_iff] at h
    obtain ⟨_, _, rfl⟩ := h; simp
theorem emitsC_ne : (cs : Cases) → emitsC cs = true → (lvl : Nat) → (inL : Bool) → (off : Nat) → (tab : List (Option Lab × Nat)) →
    (bodies : List SI) → compCases B.S.fold B.isCall lvl inL off cs = some (tab, bodies) → bodies ≠ []
  | .nil, he, _, _, _, _, _, _ => by cases he
  | .cons l b brk rest, he, lvl, inL, off, tab, bodies, h => by
    simp only [compCases] at h
    split at h
    · cases h
    · simp only [Option.bind_eq_some_iff, Option.map_eq_some_iff, Prod.mk.injEq] at h
      obtain ⟨cb, hb, ⟨tab', bodies'⟩, hrest, _, rfl⟩ := h
      simp only [emitsC, Bool.or_eq_true] at he
      rcases he with (he | he) | he
      · have := emits_ne b he lvl inL true cb hb; simp [this]
      · rw [if_pos he]; simp
      · have := emitsC_ne rest he lvl inL _ tab' bodies' hrest; simp [this]
end

/-! ### The table of a `switch` -/

theorem hasCase_count : (cs : Cases) → cs.hasCase = true → (lvl : Nat) → (inL : Bool) → (off : Nat) → (tab : List (Option Lab × Nat)) →
    (bodies : List SI) → compCases B.S.fold B.isCall lvl inL off cs = some (tab, bodies) → 0 < caseCount tab
  | .nil, he, _, _, _, _, _, _ => by cases he
  | .cons l b brk rest, he, lvl, inL, off, tab, bodies, h => by
    simp only [compCases] at h
    split at h
    · cases h
    · simp only [Option.bind_eq_some_iff, Option.map_eq_some_iff, Prod.mk.injEq] at h
      obtain ⟨cb, hb, ⟨tab', bodies'⟩, hrest, rfl, _⟩ := h
      cases l with
      | some l => simp [caseCount]
      | none =>
        simp only [Cases.hasCase, Option.isSome_none, Bool.false_or] at he
        exact hasCase_count rest he lvl inL _ tab' bodies' hrest

theorem caseCode_length (size : Nat) : (i : Nat) → (tab : List (Option Lab × Nat)) → (caseCode size i tab).length = 2 * caseCount tab
  | _, [] => rfl
  | i, (some l, off) :: rest => by simp only [caseCode, caseCount, List.length_cons]; rw [caseCode_length size (i + 2) rest]; omega
  | i, (none, off) :: rest => by simp only [caseCode, caseCount]; exact caseCode_length size i rest

/-- The number and the offset of `default`. -/
theorem default_tab : (cs : Cases) → (lvl : Nat) → (inL : Bool) → (off : Nat) → (tab : List (Option Lab × Nat)) →
    (bodies : List SI) → compCases B.S.fold B.isCall lvl inL off cs = some (tab, bodies) →
    match defaultNo cs with
    | none => defaultOff tab = none
    | some j => ∃ off' l, defaultOff tab = some off' ∧ tab[j]? = some (l, off')
  | .nil, _, _, _, tab, bodies, h => by cases h; rfl
  | .cons l b brk rest, lvl, inL, off, tab, bodies, h => by
    simp only [compCases] at h
    split at h
    · cases h
    · simp only [Option.bind_eq_some_iff, Option.map_eq_some_iff, Prod.mk.injEq] at h
      obtain ⟨cb, hb, ⟨tab', bodies'⟩, hrest, rfl, _⟩ := h
      cases l with
      | none => exact ⟨off, none, rfl, rfl⟩
      | some l =>
        have ih := default_tab rest lvl inL _ tab' bodies' hrest
        simp only [defaultNo]
        cases hd : defaultNo rest with
        | none => rw [hd] at ih; exact ih
        | some j =>
          rw [hd] at ih
          obtain ⟨off', l', h1, h2⟩ := ih
          exact ⟨off', l', h1, by simpa using h2⟩

/-- Looking for a clause. `q` = position of the first load of a label. -/
theorem pick_at {q size bt ct : Nat} (sc : List Nat) (v : B.S.Val) (stk : List B.S.Val) : (cs : Cases) → (lvl : Nat) → (inL : Bool) → (off : Nat) →
    (tab : List (Option Lab × Nat)) → (bodies : List SI) → compCases B.S.fold B.isCall lvl inL off cs = some (tab, bodies) →
    (i : Nat) → i + 2 * caseCount tab = size → At P (q + i) (caseCode size i tab) bt ct → (s : B.S.St) →
    match pick B v cs s with
    | .ok (none, s') => Steps (B.mach 10 halt) P ⟨q + i, v :: stk, (s, sc)⟩ ⟨q + size, v :: stk, (s', sc)⟩
    | .ok (some j, s') => ∃ l off', tab[j]? = some (l, off') ∧
        Steps (B.mach 10 halt) P ⟨q + i, v :: stk, (s, sc)⟩ ⟨q + size + 1 + off', [], (s', sc)⟩
    | .err => Does (B.mach 10 halt) P ⟨q + i, v :: stk, (s, sc)⟩ .err
    | .ub => Does (B.mach 10 halt) P ⟨q + i, v :: stk, (s, sc)⟩ .ub
  | .nil, _, _, _, tab, bodies, h, i, hi, hat, s => by
    cases h
    simp only [caseCount] at hi
    have : i = size := by omega
    subst this
    exact .refl _
  | .cons l b brk rest, lvl, inL, off, tab, bodies, h, i, hi, hat, s => by
    simp only [compCases] at h
    split at h
    · cases h
    · simp only [Option.bind_eq_some_iff, Option.map_eq_some_iff, Prod.mk.injEq] at h
      obtain ⟨cb, hb, ⟨tab', bodies'⟩, hrest, rfl, _⟩ := h
      cases l with
      | none =>
        have ih := pick_at sc v stk rest lvl inL _ tab' bodies' hrest i hi hat s
        simp only [pick]
        rcases hp : pick B v rest s with ⟨_ | j, s'⟩ | _ | _
        · rw [hp] at ih; exact ih
        · rw [hp] at ih
          obtain ⟨l', off', h1, h2⟩ := ih
          exact ⟨l', off', by simpa using h1, h2⟩
        · rw [hp] at ih; exact ih
        · rw [hp] at ih; exact ih
      | some l =>
        simp only [caseCount] at hi
        simp only [caseCode] at hat
        obtain ⟨hat1, hat⟩ := at_cons.mp hat
        obtain ⟨hat2, hat3⟩ := at_cons.mp hat
        have hld : Does (B.mach 10 halt) P ⟨q + i, v :: stk, (s, sc)⟩ ((l.val B s).map fun w => ⟨q + i + 1, w.1 :: v :: stk, (w.2, sc)⟩) := by
          cases l with
          | lit k => exact Does.one hat1 rfl
          | reg r => exact Does.one hat1 rfl
          | glb x =>
            refine Does.one hat1 ?_
            simp only [Lab.ins, res, exec, pushRes, Base.keep, Lab.val]
            rw [map_map]
        simp only [pick]
        cases hl : l.val B s with
        | err => rw [hl] at hld; exact hld
        | ub => rw [hl] at hld; exact hld
        | ok w =>
          rw [hl] at hld
          simp only [Out.bind]
          have hje : Does (B.mach 10 halt) P ⟨q + i + 1, w.1 :: v :: stk, (w.2, sc)⟩ ((B.eq v w.1 w.2).map fun u =>
              if u.1 then ⟨q + size + 1 + off, [], (u.2, sc)⟩ else ⟨q + i + 1 + 1, v :: stk, (u.2, sc)⟩) := by
            refine Does.one hat2 ?_
            simp only [res, exec, Base.exec]
            rw [show (((q + i + 1 : Nat) : Int) + ((off : Int) + (size + 1) - (i + 2) + 1)).toNat = q + size + 1 + off by omega]
          cases he : B.eq v w.1 w.2 with
          | err => rw [he] at hje; exact Does.after (o := .err) hld hje
          | ub => rw [he] at hje; exact Does.after (o := .ub) hld hje
          | ok u =>
            rw [he] at hje
            obtain ⟨b', s2⟩ := u
            cases b' with
            | true =>
              simp only [Out.map, if_true] at hje ⊢
              exact ⟨some l, off, rfl, Steps.trans hld hje⟩
            | false =>
              simp only [Out.map, Bool.false_eq_true, if_false] at hje ⊢
              have hgo := Steps.trans hld hje
              have ih := pick_at sc v stk rest lvl inL _ tab' bodies' hrest (i + 2) (by omega) hat3 s2
              rcases hp : pick B v rest s2 with ⟨_ | j, s'⟩ | _ | _
              · rw [hp] at ih; exact Steps.trans hgo ih
              · rw [hp] at ih
                obtain ⟨l', off', h1, h2⟩ := ih
                exact ⟨l', off', by simpa using h1, Steps.trans hgo h2⟩
              · rw [hp] at ih; exact Does.after (o := .err) hgo ih
              · rw [hp] at ih; exact Does.after (o := .ub) hgo ih

/-! ### Statements -/

theorem leave_false {k : Nat} {r : B.Res} : leave B k false r = r := by
  rcases r with _ | (⟨o, s⟩ | _ | _) <;> rfl

/-- Pointers to the variables of a `for-in`. -/
theorem addrs_at {bt ct : Nat} (sc : List Nat) (s : B.S.St) : (rs : List Nat) → (p : Nat) → At P p (rs.map fun r => .ext (.addr r)) bt ct →
    (stk : List B.S.Val) →
    Steps (B.mach 10 halt) P ⟨p, stk, (s, sc)⟩ ⟨p + rs.length, (rs.map B.ptr).reverse ++ stk, (s, sc)⟩
  | [], p, _, stk => .refl _
  | r :: rs, p, h, stk => by
    obtain ⟨h1, h2⟩ := at_cons.mp h
    have ih := addrs_at sc s rs (p + 1) h2 (B.ptr r :: stk)
    refine Steps.trans (mstep (c' := ⟨p + 1, B.ptr r :: stk, (s, sc)⟩) h1 rfl) ?_
    simp only [List.map_cons, List.reverse_cons, List.append_assoc, List.singleton_append, List.length_cons]
    rw [show p + (rs.length + 1) = p + 1 + rs.length by omega]
    exact ih

theorem andThen_thenRes {α β γ : Type} (o : Out α) (f : α → Option (Out β)) (g : β → Option (Out γ)) :
    thenRes (andThen o f) g = andThen o fun a => thenRes (f a) g := by
  cases o <;> rfl

mutual
theorem stm_sim : (b : Stm) → SafeStm B b → (m = true → CleanStm B b) → (lvl : Nat) → (inL inS : Bool) → (code : List SI) →
    compStm B.S.fold B.isCall lvl inL inS b = some code → (p bt ct : Nat) → (sc : List Nat) → At P p code bt ct → sc.length + 1 ≤ lvl →
    (stk : List B.S.Val) → (s : B.S.St) → Junk m stk →
    Sim B 10 halt P n m (p + code.length) bt ct sc ⟨p, stk, (s, sc)⟩ (runStm B n b s)
  | .nil, _, _, lvl, inL, inS, code, h, p, bt, ct, sc, hat, hl, stk, s, hj => by
    cases h; exact ⟨stk, hj, .refl _⟩
  | .seq a b, hs, hc, lvl, inL, inS, code, h, p, bt, ct, sc, hat, hl, stk, s, hj => by
    simp only [compStm, Option.bind_eq_some_iff, Option.map_eq_some_iff] at h
    obtain ⟨ca, ha, cb, hb, rfl⟩ := h
    simp only [SafeStm] at hs
    simp only [CleanStm] at hc
    obtain ⟨hat1, hat2⟩ := at_append.mp hat
    simp only [runStm]
    refine sim_then (stm_sim a hs.1 (fun hm => (hc hm).1) lvl inL inS ca ha p bt ct sc hat1 hl stk s hj) ?_
    intro stk1 o s1 hj1
    rw [List.length_append, ← Nat.add_assoc]
    cases o with
    | normal => exact stm_sim b hs.2 (fun hm => (hc hm).2) lvl inL inS cb hb _ bt ct sc hat2 hl stk1 s1 hj1
    | brk => exact ⟨stk1, hj1, .refl _⟩
    | cont => exact ⟨stk1, hj1, .refl _⟩
    | ret vs => exact ⟨stk1, hj1, .refl _⟩
  | .acts each l, hs, hc, lvl, inL, inS, code, h, p, bt, ct, sc, hat, hl, stk, s, hj => by
    simp only [compStm] at h
    simp only [SafeStm] at hs
    simp only [CleanStm] at hc
    have A := acts_junk (cap := 10) (halt := halt) (sc := sc) hs hc h hat stk s hj
    simp only [runStm]
    cases hr : runActs B l s with
    | ok s' => rw [hr] at A; exact A
    | err => rw [hr] at A; exact A
    | ub => rw [hr] at A; exact A
  | .block k vars b, hs, hc, lvl, inL, inS, code, h, p, bt, ct, sc, hat, hl, stk, s, hj => by
    simp only [compStm] at h
    split at h
    · cases h
    rename_i hlvl
    simp only [Option.map_eq_some_iff] at h
    obtain ⟨cb, hb, rfl⟩ := h
    simp only [SafeStm] at hs
    simp only [CleanStm] at hc
    simp only [runStm]
    cases vars with
    | false =>
      rw [leave_false]
      simp only [inScope, Bool.false_eq_true, if_false] at hat ⊢
      exact stm_sim b hs.1 hc (lvl + 1) inL inS cb hb p bt ct sc hat (by omega) stk s hj
    | true =>
      simp only [inScope, if_true] at hat ⊢
      obtain ⟨h12, h3⟩ := at_append.mp hat
      obtain ⟨h1, h2⟩ := at_cons.mp h12
      have h3 := at_one h3
      simp only [List.length_cons] at h3
      have ih := stm_sim b hs.1 hc (lvl + 1) inL inS cb hb (p + 1) bt ct (k :: sc) h2 (by simp; omega) stk s hj
      have e : p + (.ext (.push k) :: cb ++ [(.ext .pop : SI)]).length = p + 1 + cb.length + 1 := by simp; omega
      rw [e]
      refine sim_leave h1 (by rw [show p + 1 + cb.length = p + (cb.length + 1) by omega]; exact h3) (by omega) ?_ ih
      intro o s' ho
      have := jumps_stm b false (hs.2 rfl) s o s' ho
      exact ⟨this.2 rfl, this.1⟩
  | .if1 c a, hs, hc, lvl, inL, inS, code, h, p, bt, ct, sc, hat, hl, stk, s, hj => by
    simp only [compStm, Option.bind_eq_some_iff, Option.map_eq_some_iff] at h
    obtain ⟨cc, hcc, ca, ha, rfl⟩ := h
    simp only [SafeStm] at hs
    simp only [CleanStm] at hc
    obtain ⟨h12, h3⟩ := at_append.mp hat
    obtain ⟨h1, h2⟩ := at_append.mp h12
    have h2 := at_one h2
    simp only [runStm]
    refine sim_does (ev_at hs.1 hcc h1 stk s) fun q _ => ?_
    have e : p + (cc ++ [(.jnt ((ca.length : Int) + 1) : SI)] ++ ca).length = p + cc.length + 1 + ca.length := by simp; omega
    rw [e]
    refine sim_jnt (t := p + cc.length + 1 + ca.length) h2 (by omega) ?_ ⟨stk, hj, .refl _⟩
    rw [List.length_append, List.length_singleton, ← Nat.add_assoc] at h3
    exact stm_sim a hs.2 hc lvl inL inS ca ha _ bt ct sc h3 hl stk _ hj
  | .if2 c a b, hs, hc, lvl, inL, inS, code, h, p, bt, ct, sc, hat, hl, stk, s, hj => by
    simp only [compStm, Option.bind_eq_some_iff, Option.map_eq_some_iff] at h
    obtain ⟨cc, hcc, ca, ha, cb, hb, rfl⟩ := h
    simp only [SafeStm] at hs
    simp only [CleanStm] at hc
    simp only [at_append, at_cons, List.length_append, List.length_cons, List.length_nil] at hat
    obtain ⟨⟨⟨⟨h1, h2, -⟩, h3⟩, h4, -⟩, h5⟩ := hat
    simp only [Nat.zero_add, ← Nat.add_assoc] at h3 h4 h5
    simp only [runStm]
    refine sim_does (ev_at hs.1 hcc h1 stk s) fun q _ => ?_
    have e : p + (cc ++ [(.jnt ((ca.length : Int) + 2) : SI)] ++ ca ++ [(.jmp ((cb.length : Int) + 1) : SI)] ++ cb).length =
        p + cc.length + 1 + ca.length + 1 + cb.length := by simp; omega
    rw [e]
    refine sim_jnt (t := p + cc.length + 1 + ca.length + 1) h2 (by omega) ?_ ?_
    · have ih := stm_sim a hs.2.1 (fun hm => (hc hm).1) lvl inL inS ca ha _ bt ct sc h3 hl stk q.2 hj
      rcases hr : runStm B n a q.2 with _ | (⟨o, s'⟩ | _ | _)
      · rw [hr] at ih; exact ih
      · rw [hr] at ih
        obtain ⟨stk1, hj1, hst⟩ := ih
        refine ⟨stk1, hj1, hst.trans ?_⟩
        cases o with
        | normal => exact step_jmp h4 (by omega)
        | brk => exact .refl _
        | cont => exact .refl _
        | ret vs => exact .refl _
      · rw [hr] at ih; exact ih
      · rw [hr] at ih; exact ih
    · exact stm_sim b hs.2.2 (fun hm => (hc hm).2) lvl inL inS cb hb _ bt ct sc h5 hl stk q.2 hj
  | .while c k b, hs, hc, lvl, inL, inS, code, h, p, bt, ct, sc, hat, hl, stk, s, hj => by
    simp only [compStm] at h
    split at h
    · cases h
    rename_i hlvl
    simp only [Option.bind_eq_some_iff, Option.map_eq_some_iff] at h
    obtain ⟨cc, hcc, cb, hb, rfl⟩ := h
    simp only [SafeStm] at hs
    simp only [CleanStm] at hc
    obtain ⟨bt', ct', e1, e2, elen, -, hhead, hpush, hbody, hpop, -, ⟨off, hjmp, hoff⟩, hpop2⟩ := loop_at hat
    simp only [List.length_nil, Nat.add_zero, List.length_append, List.length_singleton] at *
    obtain ⟨hcond, hjnt⟩ := at_append.mp hhead
    have hjnt := at_one hjnt
    rw [elen]
    simp only [runStm]
    refine sim_rounds ?_ n (Nat.le_refl n) stk s hj
    intro stk s hj
    refine round_does (ev_at hs.1 hcc hcond stk s) fun q _ => ?_
    refine round_jnt (t := bt' + 1) hjnt (by omega) ?_ ⟨stk, hj, .refl _⟩
    have ih := stm_sim b hs.2 hc (lvl + 1) true inS cb hb _ bt' ct' (k :: sc) hbody (by simp; omega) stk q.2 hj
    have hr := round_body (cap := 10) (sc := sc) (head := p) (exit := bt' + 1) (bt := bt) (ct := ct) (endp := ct') (tl := fun s => .ok (none, s)) hpush (by omega) hpop hpop2 rfl
      (by rw [e1]; rw [e1] at ih; exact ih) (fun stk s hj => round_back (o := .ok s) ⟨stk, hj, .refl _⟩ hjmp hoff)
    rw [← Nat.add_assoc] at hr
    have e : (fun q : Outc B.S.Val × B.S.St => (some (.ok (q.1.turn, B.close k q.2)) : Option (Out (Option (Outc B.S.Val) × B.S.St)))) =
        fun q => match q.1.turn with
          | some o => some (.ok (some o, B.close k q.2))
          | none => some (.ok (none, B.close k q.2)) := by
      funext q; cases q.1.turn <;> rfl
    simp only [e]
    exact hr
  | .doWhile k b c, hs, hc, lvl, inL, inS, code, h, p, bt, ct, sc, hat, hl, stk, s, hj => by
    simp only [compStm] at h
    split at h
    · cases h
    rename_i hlvl
    simp only [Option.bind_eq_some_iff, Option.map_eq_some_iff] at h
    obtain ⟨cb, hb, cc, hcc, rfl⟩ := h
    simp only [SafeStm] at hs
    simp only [CleanStm] at hc
    have hat := at_resolve hat
    generalize hbt : p + _ = bt' at hat
    generalize hct : p + _ = ct' at hat
    simp only [List.length_append, List.length_cons, List.length_nil] at hbt hct
    simp only [at_append, at_cons, List.length_append, List.length_cons, List.length_nil] at hat
    obtain ⟨⟨⟨⟨⟨h1, -⟩, h2⟩, h3, -⟩, h4⟩, h5, h6, h7, -⟩ := hat
    simp only [resolve_length, List.length_append, List.length_cons, List.length_nil]
    simp only [Nat.zero_add, ← Nat.add_assoc] at *
    have e0 : p + 1 + cb.length = ct' := by omega
    have e1 : bt' = ct' + 1 + cc.length + 1 + 1 := by omega
    rw [e0] at h3 h4 h5 h6 h7
    rw [← e1] at h7
    rw [show p + 1 + cb.length + 1 + cc.length + 1 + 1 + 1 = bt' + 1 by omega]
    simp only [runStm]
    refine sim_rounds ?_ n (Nat.le_refl n) stk s hj
    intro stk s hj
    refine RoundSim.after (step_push h1 (by omega)) (round_then (stm_sim b hs.2 hc (lvl + 1) true inS cb hb (p + 1) bt' ct' (k :: sc) h2
      (by simp; omega) stk s hj) ?_)
    intro stk1 o s1 hj1
    have hcont : RoundSim B 10 halt P n m p (bt' + 1) bt ct sc ⟨ct' + 1, stk1, (B.close k s1, sc)⟩
        (andThen (evalSub B.S c (B.close k s1)) fun p => test B p.1 fun
        | true => some (.ok (none, p.2))
        | false => some (.ok (some .normal, p.2))) := by
      refine round_does (ev_at hs.1 hcc h4 stk1 _) fun q _ => ?_
      unfold test
      cases hv : B.S.truth q.1 with
      | none => exact ⟨_, _, .refl _, h5, by simp only [res, exec, hv]⟩
      | some bb =>
        cases bb with
        | true =>
          refine ⟨stk1, _, _, hj1, .refl _, h5, ?_⟩
          simp only [res, exec, hv, if_true, jump]
          rw [show (((ct' + 1 + cc.length : Nat) : Int) + -((1 + cb.length + 1 + cc.length : Nat) : Int)).toNat = p by omega]
        | false =>
          refine ⟨stk1, hj1, ?_⟩
          refine Steps.trans (mstep (c' := ⟨ct' + 1 + cc.length + 1, stk1, (q.2, sc)⟩) h5 (by simp [res, exec, hv])) ?_
          exact step_jmp h6 (by omega)
    cases o with
    | normal => exact RoundSim.after (step_pop (by rw [e0]; exact h3)) (by rw [e0]; exact hcont)
    | cont => exact RoundSim.after (step_pop h3) hcont
    | brk => exact ⟨stk1, hj1, step_pop h7⟩
    | ret vs => exact ⟨stk1, hj1, .refl _⟩
  | .for ki vars each init cond post k b, hs, hc, lvl, inL, inS, code, h, p, bt, ct, sc, hat, hl, stk, s, hj => by
    simp only [compStm] at h
    split at h
    · cases h
    rename_i hlvl
    simp only [Option.bind_eq_some_iff] at h
    obtain ⟨ci, hci, cb, hb, cp, hcp, h⟩ := h
    simp only [SafeStm] at hs
    simp only [CleanStm] at hc
    -- the loop itself, inside or outside of the scope of its variables
    have body : ∀ (p : Nat) (sc : List Nat) (bt ct : Nat), sc.length + 1 ≤ lvl + 1 → ∀ lc, code = inScope ki vars lc → At P p lc bt ct → ∀ stk, Junk m stk →
        Sim B 10 halt P n m (p + lc.length) bt ct sc ⟨p, stk, (s, sc)⟩ (andThen (runActs B init s) fun s =>
      rounds (fun s =>
        let body : B.S.St → Option (Out (Option (Outc B.S.Val) × B.S.St)) := fun s =>
          thenRes (runStm B n b s) fun q =>
            match q.1.turn with
            | some o => some (.ok (some o, B.close k q.2))
            | none => some ((runActs B post (B.close k q.2)).map fun s => (none, s))
        match (generalizing := false) cond with
        | none => body s
        | some c => andThen (evalSub B.S c s) fun p => test B p.1 fun
          | true => body p.2
          | false => some (.ok (some .normal, p.2))) n s) := by
      intro p sc bt ct hl lc hcode hat stk hj
      have inj : ∀ x y, inScope ki vars x = inScope ki vars y → x = y := by
        intro x y hxy
        unfold inScope at hxy
        split at hxy
        · simp only [List.cons_append, List.cons.injEq, true_and] at hxy
          exact (List.append_inj' hxy rfl).1
        · exact hxy
      cases cond with
      | none =>
        cases h
        have := inj _ _ hcode
        subst this
        obtain ⟨bt', ct', e1, e2, elen, -, hhead, hpush, hbody, hpop, htail, ⟨off, hjmp, hoff⟩, hpop2⟩ := loop_at hat
        have hinit : init = [] := hs.2.2.2
        subst hinit
        cases hci
        simp only [List.length_nil, Nat.add_zero] at *
        rw [elen]
        simp only [runActs, andThen]
        refine sim_rounds ?_ n (Nat.le_refl n) stk s hj
        intro stk s hj
        have ih := stm_sim b hs.2.2.1 (fun hm => (hc hm).2.2) (lvl + 2) true inS cb hb _ bt' ct' (k :: sc) hbody (by simp; omega) stk s hj
        exact round_body (endp := ct') hpush (by omega) hpop hpop2 rfl (by rw [e1]; rw [e1] at ih; exact ih)
          (tl := fun s => (runActs B post s).map fun s => (none, s))
          (fun stk s hj => round_back (acts_junk hs.2.1 (fun hm => (hc hm).2.1) hcp htail stk s hj) hjmp hoff)
      | some c =>
        simp only [Option.map_eq_some_iff] at h
        obtain ⟨cc, hcc, h⟩ := h
        have := inj _ _ (h.trans hcode)
        subst this
        obtain ⟨bt', ct', e1, e2, elen, hpre, hhead, hpush, hbody, hpop, htail, ⟨off, hjmp, hoff⟩, hpop2⟩ := loop_at hat
        obtain ⟨hcond, hjnt⟩ := at_append.mp hhead
        have hjnt := at_one hjnt
        rw [elen]
        simp only [List.length_append, List.length_singleton] at *
        have A := acts_junk (cap := 10) (halt := halt) (sc := sc) hs.1 (fun hm => (hc hm).1) hci hpre stk s hj
        cases hr : runActs B init s with
        | err => rw [hr] at A; exact A
        | ub => rw [hr] at A; exact A
        | ok s1 =>
          rw [hr] at A
          obtain ⟨stk1, hj1, hst⟩ := A
          refine Sim.after hst ?_
          simp only [andThen]
          refine sim_rounds ?_ n (Nat.le_refl n) stk1 s1 hj1
          intro stk s hj
          refine round_does (ev_at hs.2.2.2 hcc hcond stk s) fun q _ => ?_
          refine round_jnt (t := bt' + 1) hjnt (by omega) ?_ ⟨stk, hj, .refl _⟩
          have ih := stm_sim b hs.2.2.1 (fun hm => (hc hm).2.2) (lvl + 2) true inS cb hb _ bt' ct' (k :: sc) hbody (by simp; omega) stk q.2 hj
          have hr := round_body (cap := 10) (sc := sc) (head := p + ci.length) (exit := bt' + 1) (bt := bt) (ct := ct) (endp := ct') hpush (by omega) hpop hpop2 rfl
            (by rw [e1]; rw [e1] at ih; exact ih)
            (tl := fun s => (runActs B post s).map fun s => (none, s))
            (fun stk s hj => round_back (acts_junk hs.2.1 (fun hm => (hc hm).2.1) hcp htail stk s hj) hjmp hoff)
          rw [← Nat.add_assoc] at hr
          exact hr
    obtain ⟨lc, hlc⟩ : ∃ lc, code = inScope ki vars lc := by
      cases cond with
      | none => cases h; exact ⟨_, rfl⟩
      | some c =>
        simp only [Option.map_eq_some_iff] at h
        obtain ⟨cc, hcc, h⟩ := h
        exact ⟨_, h.symm⟩
    have hstay := fun o s' => for_stays (B := B) (n := n) (ki := ki) (vars := false) (each := each) (init := init) (cond := cond) (post := post)
      (k := k) (b := b) (s := s) (o := o) (s' := s')
    simp only [runStm, leave_false] at hstay ⊢
    cases vars with
    | false =>
      rw [leave_false]
      have hc' : code = lc := hlc
      subst hc'
      exact body p sc bt ct (by omega) code rfl hat stk hj
    | true =>
      have hc' : code = .ext (.push ki) :: lc ++ [.ext .pop] := hlc
      have hb' := body (p + 1) (ki :: sc) bt ct (by simp; omega) lc hlc
      subst hc'
      obtain ⟨h12, h3⟩ := at_append.mp hat
      obtain ⟨h1, h2⟩ := at_cons.mp h12
      have h3 := at_one h3
      simp only [List.length_cons] at h3
      have e : p + (.ext (.push ki) :: lc ++ [(.ext .pop : SI)]).length = p + 1 + lc.length + 1 := by simp; omega
      rw [e]
      refine sim_leave h1 (by rw [show p + 1 + lc.length = p + (lc.length + 1) by omega]; exact h3) (by omega) ?_ (hb' h2 stk hj)
      intro o s' ho
      have := hstay o s' ho
      cases o <;> first | exact absurd this id | exact ⟨by simp, by simp⟩
  | .forIn ki it rs c k b, hs, hc, lvl, inL, inS, code, h, p, bt, ct, sc, hat, hl, stk, s, hj => by
    simp only [compStm] at h
    split at h
    · cases h
    rename_i hlvl
    simp only [Option.bind_eq_some_iff, Option.map_eq_some_iff] at h
    obtain ⟨cc, hcc, cb, hb, rfl⟩ := h
    simp only [SafeStm] at hs
    simp only [CleanStm] at hc
    simp only [inScope, if_true] at hat ⊢
    generalize hlc : loopCode _ _ _ _ _ = lc at hat
    obtain ⟨h12, h3⟩ := at_append.mp hat
    obtain ⟨h1, h2⟩ := at_cons.mp h12
    have h3 := at_one h3
    simp only [List.length_cons] at h3
    have e : p + (.ext (.push ki) :: lc ++ [(.ext .pop : SI)]).length = p + 1 + lc.length + 1 := by simp; omega
    rw [e]
    have hstay := fun o s' => forIn_stays (B := B) (n := n) (ki := ki) (it := it) (rs := rs) (c := c)
      (k := k) (b := b) (s := s) (o := o) (s' := s')
    simp only [runStm] at hstay ⊢
    refine sim_leave h1 (by rw [show p + 1 + lc.length = p + (lc.length + 1) by omega]; exact h3) (by omega) ?_ (bt' := bt) (ct' := ct) ?_
    · intro o s' ho
      have := hstay o (B.close ki s') (by rw [ho]; rfl)
      cases o <;> first | exact absurd this id | exact ⟨by simp, by simp⟩
    · subst hlc
      obtain ⟨bt', ct', e1, e2, elen, hpre, hhead, hpush, hbody, hpop, htail, ⟨off, hjmp, hoff⟩, hpop2⟩ := loop_at h2
      rw [elen]
      simp only [at_append, at_cons, List.length_append, List.length_cons, List.length_nil, List.length_map] at hpre hhead hbody htail e1 e2 hjmp hoff hpush
      obtain ⟨hp1, hp2, hp3, -⟩ := hpre
      obtain ⟨hh1, hh2, hh3, hh4, -⟩ := hhead
      obtain ⟨⟨⟨⟨hb1, hb2, hb3, -⟩, hb4⟩, hb5, -⟩, hb6⟩ := hbody
      obtain ⟨ht1, ht2, ht3, -⟩ := htail
      simp only [Nat.zero_add, ← Nat.add_assoc] at *
      refine sim_does (ev_at hs.1 hcc hp1 stk s) fun q _ => ?_
      refine Sim.after (c' := ⟨p + 1 + cc.length + 1, B.ptr it :: q.1 :: stk, (q.2, ki :: sc)⟩) (mstep hp2 rfl) ?_
      refine sim_does (g := fun s => ⟨p + 1 + cc.length + 1 + 1, [], (s, ki :: sc)⟩) (Does.one hp3 rfl) fun s1 _ => ?_
      refine sim_rounds ?_ n (Nat.le_refl n) [] s1 (fun _ => rfl)
      intro stk s hj
      refine RoundSim.after (c' := ⟨p + 1 + cc.length + 1 + 1 + 1, B.S.reg it s :: stk, (s, ki :: sc)⟩) (mstep hh1 rfl) ?_
      refine RoundSim.after (c' := ⟨p + 1 + cc.length + 1 + 1 + 1 + 1, B.S.reg it s :: B.S.reg it s :: stk, (s, ki :: sc)⟩) (mstep hh2 rfl) ?_
      refine round_does (g := fun w => ⟨p + 1 + cc.length + 1 + 1 + 1 + 1 + 1, w.1 :: stk, (w.2, ki :: sc)⟩) (Does.one hh3 rfl) fun w _ => ?_
      refine round_jt (t := bt' + 1) hh4 (by omega) ⟨stk, hj, .refl _⟩ ?_
      simp only
      simp only [← andThen_thenRes]
      refine round_body (endp := ct') hpush (by simp; omega) hpop hpop2 rfl ?_ (tl := fun s => (B.itNext (B.S.reg it s) s).map fun s => (none, s)) ?_
      · refine Sim.after (c' := ⟨_ + 1, B.S.reg it w.2 :: stk, (w.2, k :: ki :: sc)⟩) (mstep hb1 rfl) ?_
        refine Sim.after (c' := ⟨_ + 1, B.S.reg it w.2 :: B.S.reg it w.2 :: stk, (w.2, k :: ki :: sc)⟩) (mstep hb2 rfl) ?_
        refine sim_does (g := fun u => ⟨_ + 1, u.1 ++ stk, (u.2, k :: ki :: sc)⟩) (Does.one hb3 rfl) fun u hu => ?_
        have hlen := B.itGet_length _ _ _ _ hu
        refine Sim.after (addrs_at _ u.2 rs _ hb4 (u.1 ++ stk)) ?_
        have hl1 : ¬ ((rs.map B.ptr).reverse ++ (u.1 ++ stk)).length < 2 * rs.length := by simp; omega
        have hl2 : ((rs.map B.ptr).reverse ++ (u.1 ++ stk)).take rs.length = (rs.map B.ptr).reverse := by
          rw [List.take_append_of_le_length (by simp), List.take_of_length_le (by simp)]
        have hl3 : (((rs.map B.ptr).reverse ++ (u.1 ++ stk)).drop rs.length).take rs.length = u.1 := by
          rw [List.drop_append_of_le_length (by simp), List.drop_of_length_le (by simp), List.nil_append,
            List.take_append_of_le_length (by omega), List.take_of_length_le (by omega)]
        refine sim_does (g := fun s => ⟨p + 1 + cc.length + 1 + 1 + 1 + 1 + 1 + 1 + 1 + 1 + 1 + 1 + rs.length + 1, [], (s, k :: ki :: sc)⟩) (Does.one hb5 ?_) fun s2 _ => ?_
        · simp only [res, exec, Base.exec, if_neg hl1, hl2, hl3]
        · have ih := stm_sim b hs.2 hc (lvl + 2) true inS cb hb _ bt' ct' (k :: ki :: sc) hb6 (by simp; omega) [] s2 (fun _ => rfl)
          rw [show p + 1 + cc.length + 1 + 1 + 1 + 1 + 1 + 1 + 1 + 1 + 1 + 1 + rs.length + 1 + cb.length = ct' by omega] at ih
          exact ih
      · intro stk s hj
        refine RoundSim.after (c' := ⟨ct' + 1 + 1, B.S.reg it s :: stk, (s, ki :: sc)⟩) (mstep ht1 rfl) ?_
        refine RoundSim.after (c' := ⟨ct' + 1 + 1 + 1, B.S.reg it s :: B.S.reg it s :: stk, (s, ki :: sc)⟩) (mstep ht2 rfl) ?_
        refine round_back (pc' := ct' + 1 + 1 + 1 + 1) (o := B.itNext (B.S.reg it s) s) ?_ hjmp hoff
        have hd : Does (B.mach 10 halt) P ⟨ct' + 1 + 1 + 1, B.S.reg it s :: B.S.reg it s :: stk, (s, ki :: sc)⟩
          ((B.itNext (B.S.reg it s) s).map fun s => ⟨ct' + 1 + 1 + 1 + 1, [], (s, ki :: sc)⟩) := Does.one ht3 rfl
        cases hx : B.itNext (B.S.reg it s) s with
        | ok s2 => rw [hx] at hd; exact ⟨[], fun _ => rfl, hd⟩
        | err => rw [hx] at hd; exact hd
        | ub => rw [hx] at hd; exact hd
  | .switch e cs, hs, hc, lvl, inL, inS, code, h, p, bt, ct, sc, hat, hl, stk, s, hj => by
    simp only [compStm, Option.bind_eq_some_iff] at h
    obtain ⟨ce, hce, ⟨tab, bodies⟩, hcs, h⟩ := h
    split at h
    rotate_left
    · cases h
    cases h
    simp only [SafeStm] at hs
    simp only [CleanStm] at hc
    have hb := emitsC_ne cs hs.2.2.2 lvl inL 0 tab bodies hcs
    have hcnt := hasCase_count cs hs.2.2.1 lvl inL 0 tab bodies hcs
    have hif : 0 < bodies.length ∧ 0 < caseCount tab := ⟨List.length_pos_iff.mpr hb, hcnt⟩
    simp only [switchCode, if_pos hif] at hat ⊢
    have hat := at_resolve_brk hat
    generalize hbt : p + _ = bt' at hat
    simp only [List.length_append, List.length_cons, List.length_nil, caseCode_length] at hbt
    simp only [resolve_length, List.length_append, List.length_cons, List.length_nil, caseCode_length]
    simp only [at_append, at_cons, List.length_append, List.length_cons, List.length_nil, caseCode_length] at hat
    obtain ⟨⟨⟨h1, h2⟩, h3, -⟩, h4⟩ := hat
    simp only [Nat.zero_add, ← Nat.add_assoc] at h3 h4 hbt ⊢
    rw [hbt]
    simp only [runStm]
    refine sim_does (ev_at hs.1 hce h1 stk s) fun q _ => ?_
    have hpick := pick_at (halt := halt) (q := p + ce.length) sc q.1 stk cs lvl inL 0 tab bodies hcs 0 (by omega) h2 q.2
    have hrun : ∀ j l off' s1 stk, tab[j]? = some (l, off') → Junk m stk →
        Sim B 10 halt P n m bt' bt ct sc ⟨p + ce.length + 2 * caseCount tab + 1 + off', stk, (s1, sc)⟩
          (thenRes (runAt B n j cs s1) fun r => some (.ok (r.1.leaveSwitch, r.2))) := by
      intro j l off' s1 stk htab hj
      refine sim_then (cases_sim cs hs.2.1 (fun hm => (hc hm).2) lvl inL 0 tab bodies hcs (p + ce.length + 2 * caseCount tab + 1) bt' ct sc h4
        (by omega) hl j l off' htab stk s1 hj) ?_
      intro stk1 o s2 hj1
      cases o with
      | normal => exact ⟨stk1, hj1, .refl _⟩
      | brk => exact ⟨stk1, hj1, .refl _⟩
      | cont => exact ⟨stk1, hj1, .refl _⟩
      | ret vs => exact ⟨stk1, hj1, .refl _⟩
    rcases hp : pick B q.1 cs q.2 with ⟨_ | j, s1⟩ | _ | _
    · rw [hp] at hpick
      refine Sim.after hpick ?_
      have hd := default_tab cs lvl inL 0 tab bodies hcs
      simp only [andThen, Option.none_or]
      cases hdn : defaultNo cs with
      | none =>
        rw [hdn] at hd
        simp only at hd
        rw [hd] at h3
        refine ⟨q.1 :: stk, ?_, ?_⟩
        · intro hm
          have := (hc hm).1
          rw [hdn] at this; cases this
        · exact step_jmp h3 (by omega)
      | some j =>
        rw [hdn] at hd
        obtain ⟨off', l, hd1, hd2⟩ := hd
        rw [hd1] at h3
        refine Sim.after (c' := ⟨p + ce.length + 2 * caseCount tab + 1 + off', [], (s1, sc)⟩) (mstep h3 ?_) (hrun j l off' s1 [] hd2 (fun _ => rfl))
        simp only [res, exec, Base.exec]
        rw [show (((p + ce.length + 2 * caseCount tab : Nat) : Int) + ((off' : Int) + 1)).toNat = p + ce.length + 2 * caseCount tab + 1 + off' by omega]
    · rw [hp] at hpick
      obtain ⟨l, off', ht, hst⟩ := hpick
      exact Sim.after hst (hrun j l off' s1 [] ht (fun _ => rfl))
    · rw [hp] at hpick; exact hpick
    · rw [hp] at hpick; exact hpick
  | .brk, _, _, lvl, inL, inS, code, h, p, bt, ct, sc, hat, hl, stk, s, hj => by
    simp only [compStm] at h
    split at h <;> cases h
    exact ⟨stk, hj, step_jmp (at_one hat) (by omega)⟩
  | .cont, _, _, lvl, inL, inS, code, h, p, bt, ct, sc, hat, hl, stk, s, hj => by
    simp only [compStm] at h
    split at h <;> cases h
    exact ⟨stk, hj, step_jmp (at_one hat) (by omega)⟩
  | .ret es, hs, _, lvl, inL, inS, code, h, p, bt, ct, sc, hat, hl, stk, s, hj => by
    simp only [compStm, Option.map_eq_some_iff] at h
    obtain ⟨c, hc, rfl⟩ := h
    simp only [SafeStm] at hs
    obtain ⟨h1, h2⟩ := at_append.mp hat
    have h2 := at_one h2
    have hd := list_at (cap := 10) (halt := halt) (sc := sc) es hs c hc p h1 stk s
    simp only [runStm]
    cases hr : evalList B es s with
    | ok q =>
      rw [hr] at hd
      exact ⟨stk, hj, Steps.trans hd (mstep h2 rfl)⟩
    | err => rw [hr] at hd; exact hd
    | ub => rw [hr] at hd; exact hd
/-- The clauses of a `switch` from number `j` on; `q` = position of the statements. -/
theorem cases_sim : (cs : Cases) → SafeCases B cs → (m = true → CleanCases B cs) → (lvl : Nat) → (inL : Bool) → (off : Nat) →
    (tab : List (Option Lab × Nat)) → (bodies : List SI) → compCases B.S.fold B.isCall lvl inL off cs = some (tab, bodies) → (q bt ct : Nat) → (sc : List Nat) →
    At P (q + off) bodies bt ct → q + off + bodies.length = bt → sc.length + 1 ≤ lvl → (j : Nat) → (l : Option Lab) → (off' : Nat) → tab[j]? = some (l, off') →
    (stk : List B.S.Val) → (s : B.S.St) → Junk m stk →
    Sim B 10 halt P n m bt bt ct sc ⟨q + off', stk, (s, sc)⟩ (runAt B n j cs s)
  | .nil, _, _, lvl, inL, off, tab, bodies, h, q, bt, ct, sc, hat, hbt, hl, j, l, off', ht, stk, s, hj => by
    cases h; simp at ht
  | .cons l0 b brk rest, hs, hc, lvl, inL, off, tab, bodies, h, q, bt, ct, sc, hat, hbt, hl, j, l, off', ht, stk, s, hj => by
    simp only [compCases] at h
    split at h
    · cases h
    simp only [Option.bind_eq_some_iff, Option.map_eq_some_iff, Prod.mk.injEq] at h
    obtain ⟨cb, hb, ⟨tab', bodies'⟩, hrest, rfl, rfl⟩ := h
    simp only [SafeCases] at hs
    simp only [CleanCases] at hc
    obtain ⟨hat12, hat3⟩ := at_append.mp hat
    obtain ⟨hat1, hat2⟩ := at_append.mp hat12
    have hlen : q + (off + (cb ++ if (brk && !rest.isNil) = true then [(.ext .brk : SI)] else []).length) + bodies'.length = bt := by
      rw [← hbt]; simp only [List.length_append]; omega
    have hrec := fun j l off' ht stk s hj => cases_sim rest hs.2 (fun hm => (hc hm).2) lvl inL _ tab' bodies' hrest q bt ct sc
      (by rw [← Nat.add_assoc]; exact hat3) hlen hl j l off' ht stk s hj
    cases j with
    | succ j =>
      simp only [List.getElem?_cons_succ] at ht
      simp only [runAt]
      exact hrec j l off' ht stk s hj
    | zero =>
      simp only [List.getElem?_cons_zero, Option.some.injEq, Prod.mk.injEq] at ht
      obtain ⟨-, rfl⟩ := ht
      simp only [runAt]
      refine sim_then (stm_sim b hs.1 (fun hm => (hc hm).1) lvl inL true cb hb (q + off) bt ct sc hat1 hl stk s hj) ?_
      intro stk1 o s1 hj1
      cases o with
      | brk => exact ⟨stk1, hj1, .refl _⟩
      | cont => exact ⟨stk1, hj1, .refl _⟩
      | ret vs => exact ⟨stk1, hj1, .refl _⟩
      | normal =>
        simp only [tgt]
        cases brk with
        | true =>
          simp only [if_true]
          cases rest with
          | nil =>
            cases hrest
            refine ⟨stk1, hj1, ?_⟩
            simp only [Cases.isNil, Bool.not_true, Bool.and_false, Bool.false_eq_true, if_false, List.append_nil] at hbt
            rw [hbt]
            exact .refl _
          | cons l1 b1 k1 r1 =>
            exact ⟨stk1, hj1, step_jmp (at_one hat2) (by omega)⟩
        | false =>
          simp only [Bool.false_eq_true, if_false]
          simp only [Bool.false_and, Bool.false_eq_true, if_false, List.append_nil] at hrec hat3 hrest hbt
          cases rest with
          | nil =>
            cases hrest
            simp only [runAt]
            simp only [List.append_nil] at hbt
            rw [hbt]
            exact ⟨stk1, hj1, .refl _⟩
          | cons l1 b1 k1 r1 =>
            have h0 : ∃ l2, tab'[0]? = some (l2, off + cb.length) := by
              simp only [compCases] at hrest
              split at hrest
              · cases hrest
              · simp only [Option.bind_eq_some_iff, Option.map_eq_some_iff, Prod.mk.injEq] at hrest
                obtain ⟨_, _, _, _, rfl, _⟩ := hrest
                exact ⟨_, rfl⟩
            obtain ⟨l2, h0⟩ := h0
            have := hrec 0 l2 _ h0 stk1 s1 hj1
            rw [← Nat.add_assoc] at this
            exact this
end

end
end Verif.Comp
