import Verif.Compiler.StmtProof
/-
Proof of C28: a set of instruction positions with the scopes open there, closed under every step the machine can make, for the
code of any statement without `break` or `continue` out of a block that declares variables.
-/
namespace Verif.Comp
open Verif Verif.Vm

mutual
/-- No `break` or `continue` out of a block that declares variables; a `switch` has a `case`, and a clause with a statement. No
condition on expressions. -/
def ScopeOk : Stm → Prop
  | .nil => True
  | .seq a b => ScopeOk a ∧ ScopeOk b
  | .acts _ _ => True
  | .block _ vars b => ScopeOk b ∧ (vars = true → jumps false b = false)
  | .if1 _ a => ScopeOk a
  | .if2 _ a b => ScopeOk a ∧ ScopeOk b
  | .while _ _ b => ScopeOk b
  | .doWhile _ b _ => ScopeOk b
  | .for _ _ _ _ _ _ _ b => ScopeOk b
  | .forIn _ _ _ _ _ b => ScopeOk b
  | .switch _ cs => ScopeOkC cs ∧ cs.hasCase = true ∧ emitsC cs = true
  | .brk => True
  | .cont => True
  | .ret _ => True
def ScopeOkC : Cases → Prop
  | .nil => True
  | .cons _ b _ rest => ScopeOk b ∧ ScopeOkC rest
end

mutual
theorem safe_scopeOk {B : Base} : (b : Stm) → SafeStm B b → ScopeOk b
  | .nil, _ => trivial
  | .seq a b, h => by simp only [SafeStm] at h; exact ⟨safe_scopeOk a h.1, safe_scopeOk b h.2⟩
  | .acts _ _, _ => trivial
  | .block _ _ b, h => by simp only [SafeStm] at h; exact ⟨safe_scopeOk b h.1, h.2⟩
  | .if1 _ a, h => by simp only [SafeStm] at h; exact safe_scopeOk a h.2
  | .if2 _ a b, h => by simp only [SafeStm] at h; exact ⟨safe_scopeOk a h.2.1, safe_scopeOk b h.2.2⟩
  | .while _ _ b, h => by simp only [SafeStm] at h; exact safe_scopeOk b h.2
  | .doWhile _ b _, h => by simp only [SafeStm] at h; exact safe_scopeOk b h.2
  | .for _ _ _ _ _ _ _ b, h => by simp only [SafeStm] at h; exact safe_scopeOk b h.2.2.1
  | .forIn _ _ _ _ _ b, h => by simp only [SafeStm] at h; exact safe_scopeOk b h.2
  | .switch _ cs, h => by simp only [SafeStm] at h; exact ⟨safe_scopeOkC cs h.2.1, h.2.2⟩
  | .brk, _ => trivial
  | .cont, _ => trivial
  | .ret _, _ => trivial
theorem safe_scopeOkC {B : Base} : (cs : Cases) → SafeCases B cs → ScopeOkC cs
  | .nil, _ => trivial
  | .cons _ b _ rest, h => by simp only [SafeCases] at h; exact ⟨safe_scopeOk b h.1, safe_scopeOkC rest h.2⟩
end

/-! ### Code of expressions -/

/-- Neither scopes nor jumps of statements. -/
def SIns.plain : SIns → Bool
  | .push _ => false
  | .pop => false
  | .jeCase _ => false
  | .jmpCase _ => false
  | .brk => false
  | .cont => false
  | .ret => false
  | .fin => false
  | _ => true

def plainI : SI → Bool
  | .ext x => x.plain
  | _ => true

structure Plain (c : List SI) : Prop where
  inR : InR c
  plain : ∀ i ∈ c, plainI i = true

theorem plain_nil : Plain [] := ⟨trivial, fun _ h => absurd h List.not_mem_nil⟩

theorem plain_append {a b : List SI} (ha : Plain a) (hb : Plain b) : Plain (a ++ b) := by
  refine ⟨inR_append ha.inR hb.inR, fun i hi => ?_⟩
  rcases List.mem_append.mp hi with h | h
  · exact ha.plain i h
  · exact hb.plain i h

theorem plain_one {i : SI} (h : i.off? = none) (hp : plainI i = true) : Plain [i] :=
  ⟨inR_one h, fun j hj => by rw [List.mem_singleton.mp hj]; exact hp⟩

theorem plain_sub {fold : BOp → Const → Const → Option Const} {e : Sub} {c : List SI} (h : compSub fold e [] = some c) :
    Plain c ∧ c ≠ [] := by
  have hn := compSub_noExt e [] c noExt_nil h
  obtain ⟨c', rfl, G⟩ := compSub_code e [] c h
  refine ⟨⟨G.inR, fun i hi => ?_⟩, G.ne⟩
  have := hn i hi
  cases i <;> first | rfl | cases this

theorem plain_resetLast {call : Nat → Bool} {stmt : Bool} {c : List SI} (h : Plain c) : Plain (resetLast call stmt c) := by
  unfold resetLast
  have hr : Plain (if stmt = true then c ++ [.ext .reset] else c) := by
    split
    · exact plain_append h (plain_one rfl rfl)
    · exact h
  split
  · rename_i f n he
    split
    · obtain ⟨d, rfl⟩ := List.getLast?_eq_some_iff.mp he
      rw [List.dropLast_concat]
      refine ⟨inR_swap h.inR rfl, fun i hi => ?_⟩
      rcases List.mem_append.mp hi with hi | hi
      · exact h.plain i (List.mem_append_left _ hi)
      · rw [List.mem_singleton.mp hi]; rfl
    · exact hr
  · exact hr

theorem plain_act {fold : BOp → Const → Const → Option Const} {call : Nat → Bool} {stmt rst : Bool} {a : Act} {c : List SI}
    (h : compAct fold call stmt rst a = some c) : Plain c := by
  cases a with
  | asg o r e =>
    simp only [compAct, Option.map_eq_some_iff] at h
    obtain ⟨d, hd, rfl⟩ := h
    exact plain_append (plain_sub hd).1 (plain_append (b := [_]) (plain_one rfl rfl) (plain_one rfl rfl))
  | inc o r => cases h; exact plain_append (a := [_]) (b := [_]) (plain_one rfl rfl) (plain_one rfl rfl)
  | eff e =>
    simp only [compAct, Option.map_eq_some_iff] at h
    obtain ⟨d, hd, rfl⟩ := h
    split
    · exact plain_resetLast (plain_sub hd).1
    · exact (plain_sub hd).1

theorem plain_acts {fold : BOp → Const → Const → Option Const} {call : Nat → Bool} {stmt each : Bool} : (l : List Act) → (c : List SI) →
    compActs fold call stmt each l = some c → Plain c
  | [], c, h => by cases h; exact plain_nil
  | a :: rest, c, h => by
    simp only [compActs, Option.bind_eq_some_iff, Option.map_eq_some_iff] at h
    obtain ⟨ca, ha, cb, hb, rfl⟩ := h
    exact plain_append (plain_act ha) (plain_acts rest cb hb)

theorem plain_list {fold : BOp → Const → Const → Option Const} : (l : List Sub) → (c : List SI) → compList fold l = some c → Plain c
  | [], c, h => by cases h; exact plain_nil
  | a :: rest, c, h => by
    simp only [compList, Option.bind_eq_some_iff, Option.map_eq_some_iff] at h
    obtain ⟨ca, ha, cb, hb, rfl⟩ := h
    exact plain_append (plain_sub ha).1 (plain_list rest cb hb)

theorem plain_addrs (rs : List Nat) : Plain (rs.map fun r => (.ext (.addr r) : SI)) := by
  induction rs with
  | nil => exact plain_nil
  | cons r rs ih => exact plain_append (a := [_]) (plain_one rfl rfl) ih

theorem plain_mark {c : List SI} (h : Plain c) : Ins.ext .brk ∉ c ∧ Ins.ext .cont ∉ c :=
  ⟨fun hc => (by have := h.plain _ hc; cases this), fun hc => (by have := h.plain _ hc; cases this)⟩

/-! ### `break` and `continue` that have no offset yet -/

theorem mem_resolve {b c : Option Nat} {code : List SI} {x : SI} (h : x ∈ resolve b c code) :
    ∃ i y, y ∈ code ∧ x = resolveAt b c i y := by
  unfold resolve at h
  obtain ⟨i, hi, rfl⟩ := List.mem_mapIdx.mp h
  exact ⟨i, code[i], List.getElem_mem _, rfl⟩

theorem resolve_no_brk {b : Nat} {c : Option Nat} {code : List SI} : Ins.ext .brk ∉ resolve (some b) c code := by
  intro h
  obtain ⟨i, y, _, e⟩ := mem_resolve h
  unfold resolveAt at e
  split at e
  · cases e
  · split at e <;> cases e
  · rename_i h1 h2; exact h1 e.symm

theorem resolve_no_cont {b : Option Nat} {c : Nat} {code : List SI} : Ins.ext .cont ∉ resolve b (some c) code := by
  intro h
  obtain ⟨i, y, _, e⟩ := mem_resolve h
  unfold resolveAt at e
  split at e
  · split at e <;> cases e
  · cases e
  · rename_i h1 h2; exact h2 e.symm

theorem resolve_cont {b : Option Nat} {code : List SI} (h : Ins.ext .cont ∈ resolve b none code) : Ins.ext .cont ∈ code := by
  obtain ⟨i, y, hy, e⟩ := mem_resolve h
  unfold resolveAt at e
  split at e
  · split at e <;> cases e
  · exact hy
  · rw [e]; exact hy

theorem loop_no_mark {pre hd body tail : List SI} {k : Nat} :
    Ins.ext .brk ∉ loopCode pre hd k body tail ∧ Ins.ext .cont ∉ loopCode pre hd k body tail :=
  ⟨resolve_no_brk, resolve_no_cont⟩

theorem inScope_mark {k : Nat} {vars : Bool} {c : List SI} {x : SIns} (h : Ins.ext x ∈ inScope k vars c) (h1 : x = .brk ∨ x = .cont) :
    Ins.ext x ∈ c := by
  unfold inScope at h
  split at h
  · simp only [List.mem_append, List.mem_cons, List.not_mem_nil, or_false] at h
    rcases h with (h | h) | h
    · rcases h1 with rfl | rfl <;> cases h
    · exact h
    · rcases h1 with rfl | rfl <;> cases h
  · exact h

mutual
/-- A `break` that leaves through a `switch` is not one that leaves the statement. -/
theorem jumps_le : (b : Stm) → jumps true b = true → jumps false b = true
  | .nil, h => by cases h
  | .seq a b, h => by
    simp only [jumps, Bool.or_eq_true] at h ⊢
    rcases h with h | h
    · exact .inl (jumps_le a h)
    · exact .inr (jumps_le b h)
  | .acts _ _, h => by cases h
  | .block _ _ b, h => by simp only [jumps] at h ⊢; exact jumps_le b h
  | .if1 _ a, h => by simp only [jumps] at h ⊢; exact jumps_le a h
  | .if2 _ a b, h => by
    simp only [jumps, Bool.or_eq_true] at h ⊢
    rcases h with h | h
    · exact .inl (jumps_le a h)
    · exact .inr (jumps_le b h)
  | .while .., h => by cases h
  | .doWhile .., h => by cases h
  | .for .., h => by cases h
  | .forIn .., h => by cases h
  | .switch _ cs, h => by simp only [jumps] at h ⊢; exact h
  | .brk, h => by cases h
  | .cont, _ => rfl
  | .ret _, h => by cases h
end

theorem caseCode_mark {size : Nat} : (i : Nat) → (tab : List (Option Lab × Nat)) → Ins.ext .cont ∉ caseCode size i tab
  | _, [] => by simp [caseCode]
  | i, (some l, off) :: rest => by
    simp only [caseCode, List.mem_cons, not_or]
    refine ⟨?_, by simp, caseCode_mark (i + 2) rest⟩
    cases l <;> simp [Lab.ins]
  | i, (none, _) :: rest => by simp only [caseCode]; exact caseCode_mark i rest

section
variable {B : Base}

theorem open_acts {fold : BOp → Const → Const → Option Const} {call : Nat → Bool} {each : Bool} {l : List Act} {c : List SI} {P Q : Prop}
    (h : compActs fold call true each l = some c) : (Ins.ext .brk ∈ c → P) ∧ (Ins.ext .cont ∈ c → Q) :=
  ⟨fun hc => absurd hc (plain_mark (plain_acts l c h)).1, fun hc => absurd hc (plain_mark (plain_acts l c h)).2⟩

mutual
/-- Code with a `break` or `continue` comes from a statement with one, inside a loop or `switch`. -/
theorem open_stm : (b : Stm) → ScopeOk b → (lvl : Nat) → (inL inS : Bool) → (c : List SI) →
    compStm B.S.fold B.isCall lvl inL inS b = some c →
    (Ins.ext .brk ∈ c → (inL || inS) = true ∧ jumps false b = true) ∧ (Ins.ext .cont ∈ c → inL = true ∧ jumps true b = true)
  | .nil, _, lvl, inL, inS, c, h => by cases h; simp
  | .seq a b, ho, lvl, inL, inS, c, h => by
    simp only [ScopeOk] at ho
    simp only [compStm, Option.bind_eq_some_iff, Option.map_eq_some_iff] at h
    obtain ⟨ca, ha, cb, hb, rfl⟩ := h
    have ia := open_stm a ho.1 lvl inL inS ca ha
    have ib := open_stm b ho.2 lvl inL inS cb hb
    simp only [jumps, Bool.or_eq_true, List.mem_append] at *
    constructor
    · rintro (h | h)
      · exact ⟨(ia.1 h).1, .inl (ia.1 h).2⟩
      · exact ⟨(ib.1 h).1, .inr (ib.1 h).2⟩
    · rintro (h | h)
      · exact ⟨(ia.2 h).1, .inl (ia.2 h).2⟩
      · exact ⟨(ib.2 h).1, .inr (ib.2 h).2⟩
  | .acts each l, _, lvl, inL, inS, c, h => by
    simp only [compStm] at h
    exact open_acts h
  | .block k vars b, ho, lvl, inL, inS, c, h => by
    simp only [ScopeOk] at ho
    simp only [compStm] at h
    split at h
    · cases h
    · simp only [Option.map_eq_some_iff] at h
      obtain ⟨cb, hb, rfl⟩ := h
      have ib := open_stm b ho.1 _ inL inS cb hb
      simp only [jumps]
      exact ⟨fun h => ib.1 (inScope_mark h (.inl rfl)), fun h => ib.2 (inScope_mark h (.inr rfl))⟩
  | .if1 cnd a, ho, lvl, inL, inS, c, h => by
    simp only [ScopeOk] at ho
    simp only [compStm, Option.bind_eq_some_iff, Option.map_eq_some_iff] at h
    obtain ⟨cc, hc, ca, ha, rfl⟩ := h
    have ia := open_stm a ho lvl inL inS ca ha
    have ic := plain_mark (plain_sub hc).1
    simp only [jumps, List.mem_append, List.mem_singleton, reduceCtorEq, or_false]
    exact ⟨fun h => ia.1 (h.resolve_left ic.1), fun h => ia.2 (h.resolve_left ic.2)⟩
  | .if2 cnd a b, ho, lvl, inL, inS, c, h => by
    simp only [ScopeOk] at ho
    simp only [compStm, Option.bind_eq_some_iff, Option.map_eq_some_iff] at h
    obtain ⟨cc, hc, ca, ha, cb, hb, rfl⟩ := h
    have ia := open_stm a ho.1 lvl inL inS ca ha
    have ib := open_stm b ho.2 lvl inL inS cb hb
    have ic := plain_mark (plain_sub hc).1
    simp only [jumps, Bool.or_eq_true, List.mem_append, List.mem_singleton, reduceCtorEq, or_false] at *
    constructor
    · rintro ((h | h) | h)
      · exact absurd h ic.1
      · exact ⟨(ia.1 h).1, .inl (ia.1 h).2⟩
      · exact ⟨(ib.1 h).1, .inr (ib.1 h).2⟩
    · rintro ((h | h) | h)
      · exact absurd h ic.2
      · exact ⟨(ia.2 h).1, .inl (ia.2 h).2⟩
      · exact ⟨(ib.2 h).1, .inr (ib.2 h).2⟩
  | .while cnd k b, _, lvl, inL, inS, c, h => by
    simp only [compStm] at h
    split at h
    · cases h
    · simp only [Option.bind_eq_some_iff, Option.map_eq_some_iff] at h
      obtain ⟨_, _, _, _, rfl⟩ := h
      exact ⟨fun h => absurd h loop_no_mark.1, fun h => absurd h loop_no_mark.2⟩
  | .doWhile k b cnd, _, lvl, inL, inS, c, h => by
    simp only [compStm] at h
    split at h
    · cases h
    · simp only [Option.bind_eq_some_iff, Option.map_eq_some_iff] at h
      obtain ⟨_, _, _, _, rfl⟩ := h
      exact ⟨fun h => absurd h resolve_no_brk, fun h => absurd h resolve_no_cont⟩
  | .for ki vars each init cond post k b, _, lvl, inL, inS, c, h => by
    simp only [compStm] at h
    split at h
    · cases h
    · simp only [Option.bind_eq_some_iff] at h
      obtain ⟨_, _, _, _, _, _, h⟩ := h
      cases cond with
      | none =>
        cases h
        exact ⟨fun h => absurd (inScope_mark h (.inl rfl)) loop_no_mark.1, fun h => absurd (inScope_mark h (.inr rfl)) loop_no_mark.2⟩
      | some cnd =>
        simp only [Option.map_eq_some_iff] at h
        obtain ⟨_, _, rfl⟩ := h
        exact ⟨fun h => absurd (inScope_mark h (.inl rfl)) loop_no_mark.1, fun h => absurd (inScope_mark h (.inr rfl)) loop_no_mark.2⟩
  | .forIn ki it rs cnd k b, _, lvl, inL, inS, c, h => by
    simp only [compStm] at h
    split at h
    · cases h
    · simp only [Option.bind_eq_some_iff, Option.map_eq_some_iff] at h
      obtain ⟨_, _, _, _, rfl⟩ := h
      exact ⟨fun h => absurd (inScope_mark h (.inl rfl)) loop_no_mark.1, fun h => absurd (inScope_mark h (.inr rfl)) loop_no_mark.2⟩
  | .switch e cs, ho, lvl, inL, inS, c, h => by
    simp only [ScopeOk] at ho
    simp only [compStm, Option.bind_eq_some_iff] at h
    obtain ⟨ce, hce, ⟨tab, bodies⟩, hcs, h⟩ := h
    split at h
    · cases h
      have hb := emitsC_ne cs ho.2.2 lvl inL 0 tab bodies hcs
      have hcnt := hasCase_count cs ho.2.1 lvl inL 0 tab bodies hcs
      have ic := open_cases cs ho.1 lvl inL 0 tab bodies hcs
      unfold switchCode
      rw [if_pos ⟨List.length_pos_iff.mpr hb, hcnt⟩]
      refine ⟨fun h => absurd h resolve_no_brk, fun h => ?_⟩
      have h := resolve_cont h
      simp only [List.mem_append, List.mem_singleton] at h
      simp only [jumps]
      rcases h with ((h | h) | h) | h
      · exact absurd h (plain_mark (plain_sub hce).1).2
      · exact absurd h (caseCode_mark 0 tab)
      · split at h <;> cases h
      · exact ic h
    · cases h
  | .brk, _, lvl, inL, inS, c, h => by
    simp only [compStm] at h
    split at h
    · rename_i hi; cases h; simp [jumps]; simpa using hi
    · cases h
  | .cont, _, lvl, inL, inS, c, h => by
    simp only [compStm] at h
    split at h
    · rename_i hi; cases h; simp [jumps, hi]
    · cases h
  | .ret es, _, lvl, inL, inS, c, h => by
    simp only [compStm, Option.map_eq_some_iff] at h
    obtain ⟨d, hd, rfl⟩ := h
    have := plain_mark (plain_list es d hd)
    simp [this.1, this.2]
theorem open_cases : (cs : Cases) → ScopeOkC cs → (lvl : Nat) → (inL : Bool) → (off : Nat) → (tab : List (Option Lab × Nat)) →
    (bodies : List SI) → compCases B.S.fold B.isCall lvl inL off cs = some (tab, bodies) →
    Ins.ext .cont ∈ bodies → inL = true ∧ jumpsC cs = true
  | .nil, _, _, _, _, _, _, h, hm => by cases h; cases hm
  | .cons l b brk rest, ho, lvl, inL, off, tab, bodies, h, hm => by
    simp only [ScopeOkC] at ho
    simp only [compCases] at h
    split at h
    · cases h
    · simp only [Option.bind_eq_some_iff, Option.map_eq_some_iff, Prod.mk.injEq] at h
      obtain ⟨cb, hb, ⟨tab', bodies'⟩, hrest, _, rfl⟩ := h
      have ib := open_stm b ho.1 lvl inL true cb hb
      have ir := open_cases rest ho.2 lvl inL _ tab' bodies' hrest
      simp only [jumpsC, Bool.or_eq_true]
      simp only [List.mem_append] at hm
      rcases hm with (hm | hm) | hm
      · exact ⟨(ib.2 hm).1, .inl (ib.2 hm).2⟩
      · split at hm
        · simp at hm
        · cases hm
      · exact ⟨(ir hm).1, .inr (ir hm).2⟩
end
end

end Verif.Comp
