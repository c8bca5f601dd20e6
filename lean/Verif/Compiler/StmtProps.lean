import Verif.Compiler.StmtLocal
import Verif.Compiler.ExprProps
/-
C27 (statements run as structured control flow prescribes), C28 (scopes are balanced), C29 (the initialiser of `for` runs once).
The statements are in `StmtSpec.lean` (`StmtCorrect`) and below (`ScopesBalanced`, `InitOnce`).
-/
namespace Verif.Comp
open Verif Verif.Vm

/-! ### C27 -/

/-- The code of a function body at position 0. -/
theorem fun_at {B : Base} {lvl : Nat} {b : Stm} {code : List SI} (ho : ScopeOk b) (hc : compFun B.S.fold B.isCall lvl b = some code) :
    ∃ c, compStm B.S.fold B.isCall lvl false false b = some c ∧ code = c ++ [.ext .fin] ∧ ∀ bt ct, At code 0 c bt ct := by
  simp only [compFun, Option.map_eq_some_iff] at hc
  obtain ⟨c, hc, rfl⟩ := hc
  refine ⟨c, hc, rfl, fun bt ct i x hx => ?_⟩
  have hm := open_stm b ho lvl false false c hc
  have hx' := List.mem_of_getElem? hx
  have hr : res bt ct (0 + i) x = x := by
    cases x with
    | ext y =>
      cases y with
      | brk => have := (hm.1 hx').1; simp at this
      | cont => have := (hm.2 hx').1; simp at this
      | _ => rfl
    | _ => rfl
  rw [hr, Nat.zero_add, List.getElem?_append_left (List.getElem?_eq_some_iff.mp hx).1]
  exact hx

/-- C27 for statements in `SafeStm` and `CleanStm`: every loop, branch, `switch`, `break`, `continue` and `return` of an accepted
function body does what the statements say, for every state and number of rounds. -/
theorem statement_correct_partial (B : Base) (halt : Nat) (b : Stm) (hs : SafeStm B b) (hcl : CleanStm B b) (lvl : Nat) (sc : List Nat)
    (code : List SI) (hl : sc.length + 1 ≤ lvl) (hc : compFun B.S.fold B.isCall lvl b = some code) (n : Nat)
    (s : B.S.St) :
    match runStm B n b s with
    | none => Runs (B.mach 10 halt) code n ⟨0, [], (s, sc)⟩
    | some o => Does (B.mach 10 halt) code ⟨0, [], (s, sc)⟩ (o.map fun p =>
        ⟨halt, match p.1 with | .ret vs => vs.reverse | _ => [], (B.closeAll sc p.2, [])⟩) := by
  obtain ⟨c, hcomp, rfl, hat⟩ := fun_at (safe_scopeOk b hs) hc
  have h := stm_sim (m := true) (halt := halt) (n := n) b hs (fun _ => hcl) lvl false false c hcomp 0 0 0 sc (hat 0 0) hl [] s (fun _ => rfl)
  have hacc := accepted_stm (n := n) b lvl false false c hcomp s
  have hfin : (c ++ [(.ext .fin : SI)])[0 + c.length]? = some (.ext .fin) := by simp
  rcases hr : runStm B n b s with _ | (⟨o, s'⟩ | _ | _)
  · rw [hr] at h; exact h
  · rw [hr] at h
    obtain ⟨stk, hj, hst⟩ := h
    have hstk := hj rfl
    subst hstk
    have ha := hacc o s' hr
    cases o with
    | normal => exact hst.trans (mstep hfin rfl)
    | brk => have := ha.2 rfl; simp at this
    | cont => have := ha.1 rfl; simp at this
    | ret vs =>
      have e : vs.reverse ++ ([] : List B.S.Val) = vs.reverse := List.append_nil _
      simp only [tgt, e] at hst
      exact hst
  · rw [hr] at h; exact h
  · rw [hr] at h; exact h

/-- C27 for statements in `SafeStm` only: the state is the one the statements give, and the values of `return` are on top of the
stack; other values may lie below them (see `switch_leaves_value_violated`). -/
theorem statement_effects_partial (B : Base) (halt : Nat) (b : Stm) (hs : SafeStm B b) (lvl : Nat) (sc : List Nat)
    (code : List SI) (hl : sc.length + 1 ≤ lvl) (hc : compFun B.S.fold B.isCall lvl b = some code) (n : Nat) (s : B.S.St) (stk : List B.S.Val) :
    match runStm B n b s with
    | none => Runs (B.mach 10 halt) code n ⟨0, stk, (s, sc)⟩
    | some (.ok p) => ∃ junk, Steps (B.mach 10 halt) code ⟨0, stk, (s, sc)⟩
        ⟨halt, match p.1 with | .ret vs => vs.reverse ++ junk | _ => [], (B.closeAll sc p.2, [])⟩
    | some .err => Does (B.mach 10 halt) code ⟨0, stk, (s, sc)⟩ .err
    | some .ub => Does (B.mach 10 halt) code ⟨0, stk, (s, sc)⟩ .ub := by
  obtain ⟨c, hcomp, rfl, hat⟩ := fun_at (safe_scopeOk b hs) hc
  have h := stm_sim (m := false) (halt := halt) (n := n) b hs (fun h => by cases h) lvl false false c hcomp 0 0 0 sc (hat 0 0) hl stk s (fun h => by cases h)
  have hacc := accepted_stm (n := n) b lvl false false c hcomp s
  have hfin : (c ++ [(.ext .fin : SI)])[0 + c.length]? = some (.ext .fin) := by simp
  rcases hr : runStm B n b s with _ | (⟨o, s'⟩ | _ | _)
  · rw [hr] at h; exact h
  · rw [hr] at h
    obtain ⟨stk, hj, hst⟩ := h
    have ha := hacc o s' hr
    cases o with
    | normal => exact ⟨[], hst.trans (mstep hfin rfl)⟩
    | brk => have := ha.2 rfl; simp at this
    | cont => have := ha.1 rfl; simp at this
    | ret vs => exact ⟨stk, hst⟩
  · rw [hr] at h; exact h
  · rw [hr] at h; exact h

/-! ### C28 -/

/-- The open scopes are in order at a point of a run that started with the scopes `sc` open: the function has returned and no scope
is open; or the scopes of the start are still open, below those opened since, and
* the array of scopes, which has 10 places, holds them all, and one more if a scope is to be opened here;
* if a scope is left here, it is one that was opened since;
* at the last instruction (`END_FUNCTION`) every scope opened since has been left. -/
def ScopesInOrder {B : Base} (code : List SI) (halt : Nat) (sc : List Nat) (c : Cfg B.S.Val B.SSt) : Prop :=
  (c.pc = halt ∧ c.st.2 = []) ∨
  (c.pc < code.length ∧ ∃ opened, c.st.2 = opened ++ sc ∧ c.st.2.length ≤ 10 ∧
    (∀ k, code[c.pc]? = some (.ext (.push k)) → c.st.2.length < 10) ∧
    (code[c.pc]? = some (.ext .pop) → opened ≠ []) ∧
    (c.pc + 1 = code.length → opened = []))

/-- C28 in full: at every point of every run of every function body that is accepted. -/
def ScopesBalanced (B : Base) (halt : Nat) : Prop :=
  ∀ (b : Stm) (lvl : Nat) (sc : List Nat) (code : List SI), sc.length + 1 ≤ lvl → sc.length ≤ 10 →
    compFun B.S.fold B.isCall lvl b = some code → code.length ≤ halt →
    ∀ (stk : List B.S.Val) (s : B.S.St) (c : Cfg B.S.Val B.SSt), Steps (B.mach 10 halt) code ⟨0, stk, (s, sc)⟩ c → ScopesInOrder code halt sc c

/-- A set of positions and scopes that no step leaves. -/
theorem steps_inv {B : Base} {halt : Nat} {P : List SI} {I : Cfg B.S.Val B.SSt → Prop}
    (hI : ∀ c c' i, I c → P[c.pc]? = some i → exec (B.mach 10 halt) i c = .ok c' → I c')
    {a b : Cfg (B.mach 10 halt).Val (B.mach 10 halt).St} (h : Steps (B.mach 10 halt) P a b) (ha : I a) : I b := by
  induction h with
  | refl _ => exact ha
  | step h e _ ih => exact ih (hI _ _ _ ha h e)

/-- C28 for function bodies without `break` or `continue` out of a block that declares variables, and whose `switch`es have a
`case` and a statement: on every path through loops, branches and `return`. -/
theorem scopes_balanced_partial (B : Base) (halt : Nat) (b : Stm) (hok : ScopeOk b) (lvl : Nat) (sc : List Nat) (code : List SI)
    (hl : sc.length + 1 ≤ lvl) (hs : sc.length ≤ 10) (hc : compFun B.S.fold B.isCall lvl b = some code) (hh : code.length ≤ halt)
    (stk : List B.S.Val) (s : B.S.St) (c : Cfg B.S.Val B.SSt) (hst : Steps (B.mach 10 halt) code ⟨0, stk, (s, sc)⟩ c) :
    ScopesInOrder code halt sc c := by
  obtain ⟨d, hd, rfl, hat⟩ := fun_at hok hc
  have hlen : (d ++ [(.ext .fin : SI)]).length = d.length + 1 := by simp
  have hfin : (d ++ [(.ext .fin : SI)])[d.length]? = some (.ext .fin) := by simp
  have hm := open_stm b hok lvl false false d hd
  let X : Nat → List Nat → Prop := fun q o => q = d.length ∧ o = sc
  have h0 : Enter (d ++ [(.ext .fin : SI)]) 0 d.length sc X 0 sc :=
    stm_enter b hok lvl false false d hd 0 d.length sc X 0 0 0 sc (hat 0 0) (Nat.le_refl _) (by omega) (List.suffix_refl _) hl hs
      (.inl ⟨by omega, rfl⟩) (fun h => by have := (hm.1 h).1; simp at this) (fun h => by have := (hm.2 h).1; simp at this)
  have inv : (c.pc = halt ∧ c.st.2 = []) ∨ Enter (d ++ [(.ext .fin : SI)]) 0 d.length sc X c.pc c.st.2 := by
    refine steps_inv (I := fun c => (c.pc = halt ∧ c.st.2 = []) ∨ Enter (d ++ [(.ext .fin : SI)]) 0 d.length sc X c.pc c.st.2) ?_ hst (.inr h0)
    rintro c c' i (⟨h1, _⟩ | h) hi e
    · exfalso
      have := (List.getElem?_eq_some_iff.mp hi).1
      omega
    · rcases h with ⟨h1, h2⟩ | h
      · rw [h1, hfin] at hi
        cases hi
        cases e
        exact .inl ⟨rfl, rfl⟩
      · rcases flow_exec (stay_closed.flow _ _ i h hi) e with h' | ⟨_, h1, h2⟩
        · exact .inr h'
        · exact .inl ⟨h1, h2⟩
  rcases inv with h | (⟨h1, h2⟩ | h)
  · exact .inl h
  · refine .inr ⟨by omega, [], by simpa using h2, by rw [h2]; exact hs, ?_, ?_, fun _ => rfl⟩
    · intro k hk; rw [h1, hfin] at hk; cases hk
    · intro hk; rw [h1, hfin] at hk; cases hk
  · obtain ⟨r1, r2, ⟨opened, ho⟩, r4⟩ := stay_closed.range _ _ h
    have hf := fun i => stay_closed.flow _ _ i h
    refine .inr ⟨by omega, opened, ho.symm, r4, fun k hk => ?_, fun hk hne => ?_, fun hk => ?_⟩
    · exact (hf _ hk).1
    · -- the scopes of the start cannot be left
      obtain ⟨k, o', e1, h2⟩ := hf _ hk
      subst hne
      rw [List.nil_append] at ho
      rw [← ho] at e1
      have bad : ∀ {q}, Enter (d ++ [(.ext .fin : SI)]) 0 d.length sc X q o' → False := by
        rintro q (⟨_, h⟩ | h)
        · rw [h] at e1; have := congrArg List.length e1; simp at this
        · have := (stay_closed.range _ _ h).2.2.1.length_le
          have h5 := congrArg List.length e1
          simp only [List.length_cons] at h5
          omega
      exact bad h2
    · omega

/-- The machine runs from `c` to `c'`, and is at the positions `lo` to `hi - 1` before it gets to `c'`. -/
inductive Within (S : Sem SIns) (P : List SI) (lo hi : Nat) : Cfg S.Val S.St → Cfg S.Val S.St → Prop
  | refl (c) : Within S P lo hi c c
  | step {c i c' c''} (h1 : lo ≤ c.pc) (h2 : c.pc < hi) (h : P[c.pc]? = some i) (e : exec S i c = .ok c') (rest : Within S P lo hi c' c'') :
      Within S P lo hi c c''

theorem within_inv {B : Base} {halt : Nat} {P : List SI} {lo hi : Nat} {I : Cfg B.S.Val B.SSt → Prop}
    (hI : ∀ c c' i, I c → lo ≤ c.pc → c.pc < hi → P[c.pc]? = some i → exec (B.mach 10 halt) i c = .ok c' → I c')
    {a b : Cfg (B.mach 10 halt).Val (B.mach 10 halt).St} (h : Within (B.mach 10 halt) P lo hi a b) (ha : I a) : I b := by
  induction h with
  | refl _ => exact ha
  | step h1 h2 h e _ ih => exact ih (hI _ _ _ ha h1 h2 h e)

/-- One block: if the machine is at a block that declares variables, it opens the scope; as long as it has not left the block and
has not returned, the scope is open below those of inner blocks, and innermost at the last instruction; when it gets behind the
block, exactly the scopes from before are open. -/
theorem block_scope_partial (B : Base) (halt k : Nat) (b : Stm) (hok : ScopeOk (.block k true b)) (lvl : Nat) (inL inS : Bool) (sc : List Nat)
    (code before after : List SI) (hl : sc.length + 1 ≤ lvl) (hc : compStm B.S.fold B.isCall lvl inL inS (.block k true b) = some code)
    (hh : (before ++ code ++ after).length ≤ halt) (stk : List B.S.Val) (s : B.S.St) (c : Cfg B.S.Val B.SSt)
    (hst : Within (B.mach 10 halt) (before ++ code ++ after) before.length (before.length + code.length) ⟨before.length, stk, (s, sc)⟩ c) :
    (c.pc = before.length ∧ c.st.2 = sc) ∨
    (before.length < c.pc ∧ c.pc < before.length + code.length ∧
      ∃ opened, c.st.2 = opened ++ k :: sc ∧ (c.pc + 1 = before.length + code.length → opened = [])) ∨
    (c.pc = before.length + code.length ∧ c.st.2 = sc) ∨ (c.pc = halt ∧ c.st.2 = []) := by
  simp only [ScopeOk] at hok
  simp only [compStm] at hc
  split at hc
  · cases hc
  rename_i hlv
  simp only [Option.map_eq_some_iff] at hc
  obtain ⟨cb, hb, rfl⟩ := hc
  have hj := hok.2 trivial
  have hm := open_stm b hok.1 (lvl + 1) inL inS cb hb
  have hlen : (inScope k true cb).length = cb.length + 2 := by simp [inScope]
  have hget : ∀ i, i < cb.length → (before ++ inScope k true cb ++ after)[before.length + 1 + i]? = cb[i]? := by
    intro i hi
    rw [List.append_assoc, List.getElem?_append_right (by omega), show before.length + 1 + i - before.length = i + 1 by omega]
    simp only [inScope, if_true, List.cons_append, List.getElem?_cons_succ, List.append_assoc]
    exact List.getElem?_append_left hi
  have hpush : (before ++ inScope k true cb ++ after)[before.length]? = some (.ext (.push k)) := by
    simp [inScope]
  have hpop : (before ++ inScope k true cb ++ after)[before.length + 1 + cb.length]? = some (.ext .pop) := by
    rw [List.append_assoc, List.getElem?_append_right (by omega), show before.length + 1 + cb.length - before.length = cb.length + 1 by omega]
    simp [inScope]
  simp only [List.length_append, hlen] at hh
  have hat : At (before ++ inScope k true cb ++ after) (before.length + 1) cb 0 0 := by
    intro i x hx
    have hi := (List.getElem?_eq_some_iff.mp hx).1
    rw [hget i hi, hx]
    have hx' := List.mem_of_getElem? hx
    cases x with
    | ext y =>
      cases y with
      | brk => have := (hm.1 hx').2; rw [hj] at this; cases this
      | cont => have := jumps_le b (hm.2 hx').2; rw [hj] at this; cases this
      | _ => rfl
    | _ => rfl
  rw [hlen] at hst ⊢
  generalize hP : before ++ inScope k true cb ++ after = P at *
  let X : Nat → List Nat → Prop := fun q o => q = before.length + 1 + cb.length ∧ o = k :: sc
  have h0 : Enter P (before.length + 1) (before.length + 1 + cb.length) (k :: sc) X (before.length + 1) (k :: sc) :=
    stm_enter b hok.1 (lvl + 1) inL inS cb hb _ _ _ X _ 0 0 _ hat (Nat.le_refl _) (Nat.le_refl _) (List.suffix_refl _)
      (by simp only [List.length_cons]; omega) (by simp only [List.length_cons]; omega) (.inl ⟨rfl, rfl⟩)
      (fun h => by have := (hm.1 h).2; rw [hj] at this; cases this) (fun h => by have := jumps_le b (hm.2 h).2; rw [hj] at this; cases this)
  have inv := within_inv (I := fun c => (c.pc = before.length ∧ c.st.2 = sc) ∨
      Enter P (before.length + 1) (before.length + 1 + cb.length) (k :: sc) X c.pc c.st.2 ∨
      (c.pc = before.length + (cb.length + 2) ∧ c.st.2 = sc) ∨ (c.pc = halt ∧ c.st.2 = [])) (fun c c' i h h1 h2 hi e => ?_) hst (.inl ⟨rfl, rfl⟩)
  · rcases inv with h | (⟨h1, h2⟩ | h) | h | h
    · exact .inl h
    · exact .inr (.inl ⟨by omega, by omega, [], by simpa using h2, fun _ => rfl⟩)
    · obtain ⟨r1, r2, ⟨o, r3⟩, -⟩ := stay_closed.range _ _ h
      exact .inr (.inl ⟨by omega, by omega, o, r3.symm, fun _ => by omega⟩)
    · exact .inr (.inr (.inl h))
    · exact .inr (.inr (.inr h))
  · rcases h with ⟨h3, h4⟩ | (⟨h3, h4⟩ | h) | ⟨h3, h4⟩ | ⟨h3, h4⟩
    · rw [h3, hpush] at hi
      cases hi
      obtain ⟨pc, stk, s, o⟩ := c
      simp only at h3 h4
      subst h3 h4
      simp only [exec, Base.mach, Base.exec] at e
      split at e
      · cases e
      · cases e; exact .inr (.inl h0)
    · rw [h3, hpop] at hi
      cases hi
      obtain ⟨pc, stk, s, o⟩ := c
      simp only at h3 h4
      subst h3 h4
      cases e
      exact .inr (.inr (.inl ⟨by simp only; omega, rfl⟩))
    · rcases flow_exec (stay_closed.flow _ _ i h hi) e with h' | ⟨_, h1, h2⟩
      · exact .inr (.inl h')
      · exact .inr (.inr (.inr ⟨h1, h2⟩))
    · omega
    · omega

/-! ### C29 -/

/-- C29 in full, for a `for` anywhere in a program (`before`, `after` = the rest of the code): `a` and `e` are the start and the end of
the code of the initialiser.
* In the initialiser the machine only goes forward, and not further than to its end.
* When the end has been reached, the machine does not get back to the start or the inside of the initialiser before it leaves the
  statement. -/
def InitOnce (B : Base) (halt : Nat) : Prop :=
  ∀ (ki : Nat) (vars each : Bool) (init : List Act) (cond : Option Sub) (post : List Act) (k : Nat) (b : Stm)
    (lvl : Nat) (inL inS : Bool) (code before after ci : List SI),
    compStm B.S.fold B.isCall lvl inL inS (.for ki vars each init cond post k b) = some code →
    compActs B.S.fold B.isCall false each init = some ci → (before ++ code ++ after).length ≤ halt →
    let P := before ++ code ++ after
    let a := before.length + (if vars then 1 else 0)
    let e := a + ci.length
    (∀ (c c' : Cfg B.S.Val B.SSt) (i : SI), a ≤ c.pc → c.pc < e → P[c.pc]? = some i → exec (B.mach 10 halt) i c = .ok c' →
      c.pc < c'.pc ∧ c'.pc ≤ e) ∧
    (∀ c c' : Cfg B.S.Val B.SSt, c.pc = e → Within (B.mach 10 halt) P before.length (before.length + code.length) c c' →
      ¬ (before.length ≤ c'.pc ∧ c'.pc < e))

/-- Where one step goes. -/
theorem step_pc {B : Base} {halt : Nat} {i : SI} {c c' : Cfg B.S.Val B.SSt} (hm : i ≠ .ext .brk ∧ i ≠ .ext .cont)
    (e : exec (B.mach 10 halt) i c = .ok c') :
    c'.pc = c.pc + 1 ∨ (∃ off, offs i = some off ∧ c'.pc = ((c.pc : Int) + off).toNat) ∨ ((i = .ext .ret ∨ i = .ext .fin) ∧ c'.pc = halt) := by
  have hf : Flow (fun q _ => q = c.pc + 1 ∨ ∃ off, offs i = some off ∧ q = ((c.pc : Int) + off).toNat) c.pc c.st.2 i := by
    cases i with
    | ext x =>
      cases x with
      | push k =>
        refine ⟨?_, .inl rfl⟩
        simp only [exec, Base.mach, Base.exec] at e
        split at e
        · cases e
        · omega
      | pop =>
        obtain ⟨pc, stk, s, o⟩ := c
        cases o with
        | nil => cases e
        | cons k o => exact ⟨k, o, rfl, .inl rfl⟩
      | jeCase off => exact ⟨.inl rfl, .inr ⟨off, rfl, rfl⟩⟩
      | jmpCase off => exact .inr ⟨off, rfl, rfl⟩
      | brk => exact (hm.1 rfl).elim
      | cont => exact (hm.2 rfl).elim
      | ret => trivial
      | fin => trivial
      | _ => exact .inl rfl
    | jmp off => exact .inr ⟨off, rfl, rfl⟩
    | jnt off => exact ⟨.inl rfl, .inr ⟨off, rfl, rfl⟩⟩
    | jt off => exact ⟨.inl rfl, .inr ⟨off, rfl, rfl⟩⟩
    | _ => exact .inl rfl
  rcases flow_exec hf e with h | h
  · exact h.elim .inl fun h => .inr (.inl h)
  · exact .inr (.inr ⟨h.1, h.2.1⟩)

/-- A `for` with a condition begins with the initialiser. -/
theorem loop_pre {ci hd body tail : List SI} {k : Nat} (h : Plain ci) : loopCode ci hd k body tail = ci ++ loopCode [] hd k body tail := by
  have hr : ∀ (b c : Nat) (d : List SI), resolve (some (ci.length + b)) (some (ci.length + c)) (ci ++ d) = ci ++ resolve (some b) (some c) d := by
    intro b c d
    apply List.ext_getElem?
    intro i
    have hm := plain_mark h
    unfold resolve
    rw [List.getElem?_mapIdx]
    rcases Nat.lt_or_ge i ci.length with hi | hi
    · rw [List.getElem?_append_left hi, List.getElem?_append_left hi]
      cases hx : ci[i]? with
      | none => rfl
      | some x =>
        have hx' := List.mem_of_getElem? hx
        simp only [Option.map_some]
        congr 1
        unfold resolveAt
        split
        · exact absurd hx' hm.1
        · exact absurd hx' hm.2
        · rfl
    · rw [List.getElem?_append_right hi, List.getElem?_append_right hi, List.getElem?_mapIdx]
      congr 1
      funext x
      unfold resolveAt
      split <;> (try simp only) <;> (try congr 1) <;> omega
  unfold loopCode
  simp only [List.nil_append, List.length_nil]
  rw [← hr]
  congr 1
  · simp only [List.length_append, List.length_cons, List.length_nil]; congr 1; omega
  · simp only [List.length_append, List.length_cons, List.length_nil]; congr 1; omega
  · simp only [List.append_assoc, List.length_append, List.length_cons, List.length_nil]
    have e : (-((((ci.length + (hd.length + (0 + 1 + body.length)) + 1 + tail.length : Nat)) : Int) - ci.length))
        = -(((hd.length + (0 + 1 + body.length) + 1 + tail.length : Nat) : Int) - (0 : Nat)) := by omega
    rw [e]

/-- A loop begins with the condition. -/
theorem loop_head {hd body tail : List SI} {k : Nat} {off : Int} (h : Plain hd) : ∃ tl, loopCode [] (hd ++ [.jnt off]) k body tail = hd ++ tl := by
  refine ⟨(loopCode [] (hd ++ [.jnt off]) k body tail).drop hd.length, ?_⟩
  have key : (loopCode [] (hd ++ [.jnt off]) k body tail).take hd.length = hd := by
    apply List.ext_getElem?
    intro i
    rw [List.getElem?_take]
    split
    · rename_i hi
      unfold loopCode resolve
      simp only [List.nil_append, List.append_assoc]
      rw [List.getElem?_mapIdx, List.getElem?_append_left hi, List.getElem?_eq_getElem hi]
      simp only [Option.map_some, Option.some.injEq]
      have hm := plain_mark h
      have hx' : hd[i] ∈ hd := List.getElem_mem hi
      generalize hd[i] = x at hx' ⊢
      unfold resolveAt
      split
      · exact absurd hx' hm.1
      · exact absurd hx' hm.2
      · rfl
    · rw [List.getElem?_eq_none (by omega)]
  have e := List.take_append_drop hd.length (loopCode [] (hd ++ [.jnt off]) k body tail)
  rw [key] at e
  exact e.symm

/-- Parts of the code of a `for`. -/
theorem for_parts {B : Base} {ki : Nat} {vars each : Bool} {init : List Act} {cond : Option Sub} {post : List Act} {k : Nat} {b : Stm}
    {lvl : Nat} {inL inS : Bool} {code ci : List SI} (hcond : cond = none → init = [])
    (h : compStm B.S.fold B.isCall lvl inL inS (.for ki vars each init cond post k b) = some code)
    (hci : compActs B.S.fold B.isCall false each init = some ci) :
    ∃ rest, code = (if vars then [.ext (.push ki)] else []) ++ ci ++ rest ∧ Loc rest ∧ Ins.ext .brk ∉ rest ∧ Ins.ext .cont ∉ rest ∧
      ∀ c, cond = some c → ∃ cc tl, compSub B.S.fold c [] = some cc ∧ rest = cc ++ tl := by
  simp only [compStm] at h
  split at h
  · cases h
  rename_i hlv
  simp only [Option.bind_eq_some_iff] at h
  obtain ⟨ci', hci', cb, hb, cp, hcp, h⟩ := h
  rw [hci] at hci'
  cases hci'
  have h1 := plain_acts init ci hci
  have h2 := loc_stm b _ true inS cb hb
  have h3 := loc_plain (plain_acts post cp hcp)
  have fin : ∀ loop : List SI, Loc loop → Ins.ext .brk ∉ loop → Ins.ext .cont ∉ loop → code = inScope ki vars (ci ++ loop) →
      (∀ c, cond = some c → ∃ cc tl, compSub B.S.fold c [] = some cc ∧ loop = cc ++ tl) →
      ∃ rest, code = (if vars then [.ext (.push ki)] else []) ++ ci ++ rest ∧ Loc rest ∧ Ins.ext .brk ∉ rest ∧ Ins.ext .cont ∉ rest ∧
        ∀ c, cond = some c → ∃ cc tl, compSub B.S.fold c [] = some cc ∧ rest = cc ++ tl := by
    intro loop hL hB hC e hcc
    cases vars with
    | false => exact ⟨loop, by simpa [inScope] using e, hL, hB, hC, hcc⟩
    | true =>
      refine ⟨loop ++ [.ext .pop], by simpa [inScope] using e, loc_append hL (loc_one rfl), by simpa using hB, by simpa using hC, fun c hc => ?_⟩
      obtain ⟨cc, tl, e1, e2⟩ := hcc c hc
      exact ⟨cc, tl ++ [.ext .pop], e1, by rw [e2]; simp⟩
  cases cond with
  | none =>
    have hi := hcond rfl
    subst hi
    cases hci
    cases h
    exact fin _ (loc_loop (hd := []) loc_nil h2 h3 (by simp)) loop_no_mark.1 loop_no_mark.2 rfl (fun c hc => by cases hc)
  | some cnd =>
    simp only [Option.map_eq_some_iff] at h
    obtain ⟨cc, hc, rfl⟩ := h
    rw [loop_pre h1] at fin ⊢
    refine fin _ (loc_loop loc_nil h2 h3 (head_ok hc (by simp only [List.length_append, List.length_cons, List.length_nil]; omega)))
      loop_no_mark.1 loop_no_mark.2 rfl (fun c e => ?_)
    cases e
    obtain ⟨tl, e⟩ := loop_head (hd := cc) (plain_sub hc).1 (off := (cb.length : Int) + cp.length + 5) (k := k) (body := cb) (tail := cp)
    exact ⟨cc, tl, hc, e⟩

/-- C29 if there is a condition, or no initialiser: in any program, for any body and any expressions. -/
theorem for_init_once_partial (B : Base) (halt ki : Nat) (vars each : Bool) (init : List Act) (cond : Option Sub) (post : List Act) (k : Nat) (b : Stm)
    (hcond : cond = none → init = []) (lvl : Nat) (inL inS : Bool) (code before after ci : List SI)
    (h : compStm B.S.fold B.isCall lvl inL inS (.for ki vars each init cond post k b) = some code)
    (hci : compActs B.S.fold B.isCall false each init = some ci) (hh : (before ++ code ++ after).length ≤ halt) :
    let P := before ++ code ++ after
    let a := before.length + (if vars then 1 else 0)
    let e := a + ci.length
    (∀ (c c' : Cfg B.S.Val B.SSt) (i : SI), a ≤ c.pc → c.pc < e → P[c.pc]? = some i → exec (B.mach 10 halt) i c = .ok c' →
      c.pc < c'.pc ∧ c'.pc ≤ e) ∧
    (∀ c c' : Cfg B.S.Val B.SSt, c.pc = e → Within (B.mach 10 halt) P before.length (before.length + code.length) c c' →
      ¬ (before.length ≤ c'.pc ∧ c'.pc < e)) := by
  obtain ⟨rest, rfl, hL, hB, hC, -⟩ := for_parts hcond h hci
  have hpl := plain_acts init ci hci
  generalize hpre : (if vars then [(.ext (.push ki) : SI)] else []) = pre at *
  have hpl2 : (if vars then 1 else 0) = pre.length := by rw [← hpre]; cases vars <;> rfl
  intro P a e
  have ha : a = before.length + pre.length := by show before.length + _ = _; rw [hpl2]
  have he : e = a + ci.length := rfl
  clear_value e a
  refine ⟨fun c c' i h1 h2 hi ex => ?_, fun c c' hc hw => ?_⟩
  · have hx : ci[c.pc - a]? = some i := by
      have hx : (before ++ (pre ++ ci ++ rest) ++ after)[c.pc]? = some i := hi
      rw [show before ++ (pre ++ ci ++ rest) ++ after = (before ++ pre) ++ (ci ++ (rest ++ after)) by simp,
        List.getElem?_append_right (by simp only [List.length_append]; omega), List.getElem?_append_left (by simp only [List.length_append]; omega)] at hx
      rw [← hx]
      congr 1
      simp only [List.length_append]
      omega
    have hmem := List.mem_of_getElem? hx
    have hp := hpl.plain i hmem
    rcases step_pc ⟨fun e => (plain_mark hpl).1 (e ▸ hmem), fun e => (plain_mark hpl).2 (e ▸ hmem)⟩ ex with h | ⟨off, ho, h⟩ | ⟨h | h, _⟩
    · omega
    · have ho' : i.off? = some off := by
        cases i with
        | ext y => cases y <;> first | exact ho | cases hp
        | _ => exact ho
      have := inR_get ci hpl.inR _ i off hx ho'
      omega
    · subst h; cases hp
    · subst h; cases hp
  · simp only [List.length_append] at hh hw
    have inv := within_inv (I := fun c => (e ≤ c.pc ∧ c.pc ≤ e + rest.length) ∨ c.pc = halt) (fun c c' i h h1 h2 hi ex => ?_) hw
      (.inl ⟨by omega, by omega⟩)
    · rintro ⟨h1, h2⟩
      rcases inv with h | h <;> omega
    · rcases h with ⟨h3, h4⟩ | h
      · have hlt : c.pc < e + rest.length := by omega
        have hx : rest[c.pc - e]? = some i := by
          have hx : (before ++ (pre ++ ci ++ rest) ++ after)[c.pc]? = some i := hi
          rw [show before ++ (pre ++ ci ++ rest) ++ after = (before ++ pre ++ ci) ++ (rest ++ after) by simp,
            List.getElem?_append_right (by simp only [List.length_append]; omega), List.getElem?_append_left (by simp only [List.length_append]; omega)] at hx
          rw [← hx]
          congr 1
          simp only [List.length_append]
          omega
        have hmem := List.mem_of_getElem? hx
        rcases step_pc ⟨fun e => hB (e ▸ hmem), fun e => hC (e ▸ hmem)⟩ ex with h | ⟨off, ho, h⟩ | ⟨_, h⟩
        · exact .inl ⟨by omega, by omega⟩
        · have := hL _ i off hx ho
          exact .inl ⟨by omega, by omega⟩
        · exact .inr h
      · omega

/-- The test comes right after the initialiser. -/
theorem for_test_after_init {B : Base} {ki : Nat} {vars each : Bool} {init : List Act} {c : Sub} {post : List Act} {k : Nat} {b : Stm}
    {lvl : Nat} {inL inS : Bool} {code ci cc : List SI}
    (h : compStm B.S.fold B.isCall lvl inL inS (.for ki vars each init (some c) post k b) = some code)
    (hci : compActs B.S.fold B.isCall false each init = some ci) (hcc : compSub B.S.fold c [] = some cc) :
    ∃ rest, code = (if vars then [.ext (.push ki)] else []) ++ ci ++ cc ++ rest := by
  obtain ⟨rest, e, -, -, -, hc⟩ := for_parts (fun h => by cases h) h hci
  obtain ⟨cc', tl, h1, h2⟩ := hc c rfl
  rw [hcc] at h1
  cases h1
  exact ⟨tl, by rw [e, h2]; simp⟩

/-! ### Where the code differs from the claims -/

/-- A literal as expression. -/
def klit (k : Const) : Sub := .plain (.opd (.lit k))

theorem comp_klit {X : Type} (fold : BOp → Const → Const → Option Const) (k : Const) : compSub (X := X) fold (klit k) [] = some [.loadK k] := by
  simp [klit, compSub, treeOf, compOpd, resplit_leaf, genTree]
  rfl

theorem eval_klit {X : Type} (S : Sem X) (k : Const) (s : S.St) : evalSub S (klit k) s = .ok (S.lit k, s) := by
  simp [klit, evalSub, evalEx, evalOpd]

/-- A call without arguments as expression. -/
def kcall (f : Nat) : Sub := .plain (.opd (.app f .nil))

theorem comp_kcall {X : Type} (fold : BOp → Const → Const → Option Const) (f : Nat) : compSub (X := X) fold (kcall f) [] = some [.app f 0] := by
  simp [kcall, compSub, treeOf, compOpd, compArgs, Args.length, resplit_leaf, genTree]
  rfl

theorem eval_kcall {X : Type} (S : Sem X) (f : Nat) (s : S.St) : evalSub S (kcall f) s = S.app f [] s := by
  simp [kcall, evalSub, evalEx, evalOpd, evalArgs, Out.bind]

/-- A machine that runs on does not stop. -/
theorem runs_steps {S : Sem SIns} {P : List SI} {a b : Cfg S.Val S.St} (h : Steps S P a b) : (∀ n, Runs S P n a) → ∀ n, Runs S P n b := by
  induction h with
  | refl _ => exact id
  | step h e _ ih =>
    intro hr
    refine ih fun n => ?_
    cases hr (n + 1) with
    | step h' e' rest =>
      rw [h] at h'
      cases h'
      rw [e] at e'
      cases e'
      exact rest

/-- `while(true){ { var y; continue; } }` -/
def leaky : Stm := .while (klit (.bool true)) 1 (.block 2 true .cont)

def leakyCode : List SI :=
  [.loadK (.bool true), .jnt 8, .ext (.push 1), .ext (.push 2), .jmp 2, .ext .pop, .ext .pop, .jmp (-7), .ext .pop, .ext .fin]

theorem leaky_code (B : Base) : compFun B.S.fold B.isCall 1 leaky = some leakyCode := by
  simp [leaky, compFun, compStm, comp_klit, loopCode, inScope]
  rfl

theorem true_test {B : Base} {P : List SI} {halt pc : Nat} {off : Int} {stk : List B.S.Val} {st : B.SSt} (h1 : P[pc]? = some (.loadK (.bool true)))
    (h2 : P[pc + 1]? = some (.jnt off)) : Steps (B.mach 10 halt) P ⟨pc, stk, st⟩ ⟨pc + 2, stk, st⟩ := by
  refine (mstep (c' := ⟨pc + 1, B.S.lit (.bool true) :: stk, st⟩) h1 rfl).trans (mstep h2 ?_)
  simp only [exec, Base.mach, B.S.truth_bool]
  rfl

theorem leaky_open (B : Base) (halt : Nat) (stk : List B.S.Val) (s : B.S.St) (o : List Nat) (h : o.length < 10) :
    Steps (B.mach 10 halt) leakyCode ⟨0, stk, (s, o)⟩ ⟨3, stk, (s, 1 :: o)⟩ :=
  (true_test rfl rfl).trans (step_push rfl h)

/-- One round leaves one scope open. -/
theorem leaky_round (B : Base) (halt : Nat) (stk : List B.S.Val) (s : B.S.St) (o : List Nat) (h : o.length + 2 ≤ 10) :
    Steps (B.mach 10 halt) leakyCode ⟨0, stk, (s, o)⟩ ⟨0, stk, (B.close 2 s, 1 :: o)⟩ :=
  (leaky_open B halt stk s o (by omega)).trans ((step_push (sc := 1 :: o) rfl (by simp only [List.length_cons]; omega)).trans
    ((step_jmp (t := 6) rfl rfl).trans ((step_pop rfl).trans (step_jmp (t := 0) rfl rfl))))

theorem leaky_rounds (B : Base) (halt : Nat) (s : B.S.St) : ∀ m, m ≤ 9 →
    ∃ s' o, o.length = m ∧ Steps (B.mach 10 halt) leakyCode ⟨0, [], (s, [])⟩ ⟨0, [], (s', o)⟩
  | 0, _ => ⟨s, [], rfl, .refl _⟩
  | m + 1, h => by
    obtain ⟨s', o, ho, hs⟩ := leaky_rounds B halt s m (by omega)
    exact ⟨_, _, by rw [List.length_cons, ho], hs.trans (leaky_round B halt [] s' o (by omega))⟩

/-- The tenth round writes behind the array of scopes, in every machine: `PUSH_SCOPE` with ten scopes open. -/
theorem leaky_overflow (B : Base) (halt : Nat) (s : B.S.St) : ∃ s' o, o.length = 10 ∧
    Steps (B.mach 10 halt) leakyCode ⟨0, [], (s, [])⟩ ⟨3, [], (s', o)⟩ := by
  obtain ⟨s', o, ho, hs⟩ := leaky_rounds B halt s 9 (Nat.le_refl _)
  exact ⟨s', 1 :: o, by rw [List.length_cons, ho], hs.trans (leaky_open B halt [] s' o (by omega))⟩

/-- C28 is false for every machine: `continue` (as `break`) out of a block that declares variables does not leave its scope. -/
theorem scopes_balanced_violated (B : Base) (halt : Nat) (hh : 10 ≤ halt) (s : B.S.St) : ¬ ScopesBalanced B halt := by
  intro H
  obtain ⟨s', o, ho, hs⟩ := leaky_overflow B halt s
  rcases H leaky 1 [] leakyCode (Nat.le_refl _) (by simp) (leaky_code B) hh [] s _ hs with ⟨h, _⟩ | ⟨_, _, _, _, h, _⟩
  · simp only at h; omega
  · have := h 2 rfl
    simp only at this
    omega

theorem rounds_none {O S : Type} (f : S → S) : ∀ m s, rounds (O := O) (fun s => some (.ok (none, f s))) m s = none
  | 0, _ => rfl
  | m + 1, s => by simp only [rounds, thenRes, andThen]; exact rounds_none f m _

theorem leaky_runs (B : Base) (n : Nat) (s : B.S.St) : runStm B n leaky s = none := by
  simp only [leaky, eval_klit, andThen, test, B.S.truth_bool, runStm, leave, thenRes, Option.map_some, Out.map, Outc.turn, if_true]
  exact rounds_none (fun s => B.close 1 (B.close 2 s)) n s

/-- C27 is false for every machine: that loop does not run on, it ends with undefined behaviour. -/
theorem continue_in_block_violated (B : Base) (halt : Nat) (hh : 10 ≤ halt) (s : B.S.St) : ¬ StmtCorrect B halt := by
  intro H
  have h := fun n => H leaky 1 [] leakyCode (Nat.le_refl _) (leaky_code B) hh n s
  simp only [leaky_runs] at h
  obtain ⟨s', o, ho, hs⟩ := leaky_overflow B halt s
  cases runs_steps hs h 1 with
  | step h' e _ =>
    cases h'
    simp only [exec, Base.mach, Base.exec] at e
    split at e
    · cases e
    · rename_i h; exact h (by omega)

/-- `switch(0){ default: if(true){ break; } break; }` -/
def onlyDefault : Stm := .switch (klit (.int 0)) (.cons none (.if1 (klit (.bool true)) .brk) true .nil)

/-- C27: a `break` in a `switch` without `case` is never given a target: it jumps to itself for ever. -/
theorem break_without_case_violated (B : Base) (halt : Nat) (hh : 10 ≤ halt) (s : B.S.St) :
    ¬ StmtCorrect B halt ∧ ∃ code, compFun B.S.fold B.isCall 1 onlyDefault = some code ∧
      runStm B 0 onlyDefault s = some (.ok (.normal, s)) ∧ ∀ n, Runs (B.mach 10 halt) code n ⟨0, [], (s, [])⟩ := by
  have hcode : compFun B.S.fold B.isCall 1 onlyDefault = some [.loadK (.bool true), .jnt 2, .ext .brk, .ext .fin] := by
    simp [onlyDefault, compFun, compStm, compCases, comp_klit, switchCode, Cases.isNil, defaults, caseCount]
  have hspec : ∀ n, runStm B n onlyDefault s = some (.ok (.normal, s)) := by
    intro n
    simp only [onlyDefault, runStm, eval_klit, andThen, pick, Out.map, defaultNo, Option.map_none, Option.or, runAt, test, B.S.truth_bool, thenRes, Outc.leaveSwitch]
  have hruns : ∀ n, Runs (B.mach 10 halt) [.loadK (.bool true), .jnt 2, .ext .brk, .ext .fin] n ⟨0, [], (s, [])⟩ := by
    intro n
    refine Runs.after (true_test (P := [.loadK (.bool true), .jnt 2, .ext .brk, .ext .fin]) rfl rfl) ?_
    induction n with
    | zero => exact .zero _
    | succ n ih => exact .step rfl rfl ih
  refine ⟨fun H => ?_, _, hcode, hspec 0, hruns⟩
  have h := H onlyDefault 1 [] _ (Nat.le_refl _) hcode (by simp only [List.length_cons, List.length_nil]; omega) 0 s
  rw [hspec 0] at h
  cases runs_steps h hruns 1 with
  | step h' _ _ =>
    have := (List.getElem?_eq_some_iff.mp h').1
    simp only [List.length_cons, List.length_nil] at this
    omega

/-- C27: the condition of a `switch` without clauses is not evaluated. If the call fails, the statement should fail; the machine goes
on. -/
theorem switch_condition_dropped_violated (B : Base) (halt f : Nat) (s : B.S.St) (hf : B.S.app f [] s = .err) :
    runStm B 0 (.switch (kcall f) .nil) s = some .err ∧ ∃ code, compFun B.S.fold B.isCall 1 (.switch (kcall f) .nil) = some code ∧
      Does (B.mach 10 halt) code ⟨0, [], (s, [])⟩ (.ok ⟨halt, [], (s, [])⟩) := by
  refine ⟨by simp only [runStm, eval_kcall, hf, andThen], [.ext .fin], ?_, mstep rfl rfl⟩
  simp [compFun, compStm, compCases, comp_kcall, switchCode, defaults]

/-- `switch(1){ case 2: x++; } return 5;` -/
def noMatch : Stm := .seq (.switch (klit (.int 1)) (.cons (some (.lit (.int 2))) (.acts false [.inc 0 0]) false .nil)) (.ret [klit (.int 5)])

/-- C27: a `switch` without `default` in which no label matches leaves its value on the stack; the function returns 5 and 1 instead
of 5. -/
theorem switch_leaves_value_violated (B : Base) (halt : Nat) (s : B.S.St)
    (he : B.eq (B.S.lit (.int 1)) (B.S.lit (.int 2)) s = .ok (false, s)) :
    runStm B 0 noMatch s = some (.ok (.ret [B.S.lit (.int 5)], s)) ∧ ∃ code, compFun B.S.fold B.isCall 1 noMatch = some code ∧
      Does (B.mach 10 halt) code ⟨0, [], (s, [])⟩ (.ok ⟨halt, [B.S.lit (.int 5), B.S.lit (.int 1)], (s, [])⟩) := by
  refine ⟨?_, [.loadK (.int 1), .loadK (.int 2), .ext (.jeCase 2), .jmp 3, .ext (.addr 0), .ext (.step 0 true), .loadK (.int 5), .ext .ret, .ext .fin], ?_, ?_⟩
  · simp only [noMatch, runStm, eval_klit, andThen, pick, Lab.val, Out.bind, he, if_neg Bool.false_ne_true, Out.map, Option.map_none, defaultNo,
      Option.or, thenRes, evalList]
  · simp [noMatch, compFun, compStm, compCases, comp_klit, switchCode, compActs, compAct, caseCode, caseCount, Cases.isNil, defaults, defaultOff, compList, Lab.ins]
    rfl
  · refine (mstep (c' := ⟨1, [B.S.lit (.int 1)], (s, [])⟩) rfl rfl).trans ((mstep (c' := ⟨2, [B.S.lit (.int 2), B.S.lit (.int 1)], (s, [])⟩) rfl rfl).trans
      ((mstep (c' := ⟨3, [B.S.lit (.int 1)], (s, [])⟩) rfl ?_).trans ((step_jmp (t := 6) rfl rfl).trans
      ((mstep (c' := ⟨7, [B.S.lit (.int 5), B.S.lit (.int 1)], (s, [])⟩) rfl rfl).trans (mstep rfl rfl)))))
    simp only [exec, Base.mach, Base.exec, he, Out.map]
    rfl

/-- `true ? f() : g(); return 5;` -/
def condCall (f g : Nat) : Stm :=
  .seq (.acts false [.eff (.tern (.opd (.lit (.bool true))) (kcall f) (kcall g))]) (.ret [klit (.int 5)])

/-- C27: only the last call of the statement is marked; the value of the call that is made stays on the stack and is returned. -/
theorem conditional_call_leaves_value_violated (B : Base) (halt f g : Nat) (hg : B.isCall g = true) (s s' : B.S.St) (v : B.S.Val)
    (hf : B.S.app f [] s = .ok (v, s')) :
    runStm B 0 (condCall f g) s = some (.ok (.ret [B.S.lit (.int 5)], s')) ∧ ∃ code, compFun B.S.fold B.isCall 1 (condCall f g) = some code ∧
      Does (B.mach 10 halt) code ⟨0, [], (s, [])⟩ (.ok ⟨halt, [B.S.lit (.int 5), v], (s', [])⟩) := by
  refine ⟨?_, [.loadK (.bool true), .jnt 3, .app f 0, .jmp 2, .ext (.callR g 0), .loadK (.int 5), .ext .ret, .ext .fin], ?_, ?_⟩
  · simp [condCall, runStm, runActs, runAct, evalSub, evalEx, evalOpd, eval_kcall, eval_klit, Out.bind, Out.map, thenRes, andThen, evalList, B.S.truth_bool, hf]
  · simp [condCall, compFun, compStm, comp_klit, compActs, compAct, compList, kcall, compSub, treeOf, compOpd, compArgs, Args.length, resplit_leaf, genTree, finish, link, logicTail,
      Ins.isMarkAnd, Ins.isMarkOr, resetLast, hg]
  · refine (true_test rfl rfl).trans ((mstep (c' := ⟨3, [v], (s', [])⟩) rfl ?_).trans ((step_jmp (t := 5) rfl rfl).trans
      ((mstep (c' := ⟨6, [B.S.lit (.int 5), v], (s', [])⟩) rfl rfl).trans (mstep rfl rfl))))
    simp [exec, Base.mach, Base.keep, pushRes, hf, Out.map]

/-- `for(x++;;){}` -/
def endlessFor : Stm := .for 1 false false [.inc 0 0] none [] 2 .nil

/-- C29 is false for every machine: a `for` without condition runs its initialiser in each round. -/
theorem for_without_condition_violated (B : Base) (halt : Nat) (hh : 10 ≤ halt) (s : B.S.St) : ¬ InitOnce B halt := by
  intro H
  have h1 : compStm B.S.fold B.isCall 1 false false endlessFor =
      some [.ext (.addr 0), .ext (.step 0 true), .ext (.push 2), .ext .pop, .jmp (-4), .ext .pop] := by
    simp [endlessFor, compStm, compActs, compAct, loopCode, inScope]
    rfl
  have := (H 1 false false [.inc 0 0] none [] 2 .nil 1 false false _ [] [] [.ext (.addr 0), .ext (.step 0 true)] h1
    (by simp [compActs, compAct]) (by simp only [List.length_append, List.length_cons, List.length_nil]; omega)).2
  refine this ⟨2, [], (s, [])⟩ ⟨0, [], (B.close 2 s, [])⟩ rfl ?_ ⟨by simp, by simp⟩
  refine .step (by simp) (by simp) rfl (c' := (⟨3, [], (s, [2])⟩ : Cfg B.S.Val B.SSt)) rfl ?_
  refine .step (by simp) (by simp) rfl (c' := (⟨4, [], (B.close 2 s, [])⟩ : Cfg B.S.Val B.SSt)) rfl ?_
  exact .step (by simp) (by simp) rfl (c' := (⟨0, [], (B.close 2 s, [])⟩ : Cfg B.S.Val B.SSt)) rfl (.refl _)

/-! ### The conditions of the theorems are met -/

/-- A small machine with one variable that holds a number. -/
def counter : Base where
  S := { Val := Const, St := BitVec 64, lit := id, reg := fun _ s => .int s, glb := fun _ _ => .err, ty := fun _ => .int 0,
         bin := fun op a b s => match op, a, b with
           | .lt, .int x, .int y => .ok (.bool (x < y), s)
           | .add, .int x, .int y => .ok (.int (x + y), s)
           | _, _, _ => .err
         un := fun _ _ _ => .err, inst := fun _ _ _ => .err, app := fun _ _ s => .ok (.int 7, s + 10)
         truth := fun v => match v with | .bool b => some b | _ => none
         truth_bool := fun _ => rfl, fold := fun _ _ _ => none, ext := fun x => x.elim }
  isCall := fun _ => true
  ptr := fun _ => .int 0
  store := fun _ _ v s => match v with | .int x => .ok (v, x) | _ => .ok (v, s)
  storeN := fun _ _ s => .ok s
  step := fun _ _ s => .ok (.int s, s + 1)
  eq := fun a b s => .ok (decide (a = b), s)
  itInit := fun _ _ s => .ok s
  itEnd := fun _ s => .ok (.bool true, s)
  itGet := fun n _ s => .ok (List.replicate n (.int 0), s)
  itGet_length := by intro n v s p h; cases h; simp
  itNext := fun _ s => .ok s
  close := fun _ s => s

/-- `for(var i = 0; i < 3; i++){ if(i < 1){ continue; } switch(i){ case 2: f(); break; default: break; } } do { { var y; i++; } } while(i < 5); return i;` -/
def sample : Stm :=
  .seq (.for 1 true true [.asg 0 0 (klit (.int 0))] (some (.plain (.bin .lt (.opd (.reg 0)) (.opd (.lit (.int 3)))))) [.inc 0 0] 2
    (.seq (.if1 (.plain (.bin .lt (.opd (.reg 0)) (.opd (.lit (.int 1))))) .cont)
      (.switch (.plain (.opd (.reg 0))) (.cons (some (.lit (.int 2))) (.acts false [.eff (kcall 0)]) true (.cons none .nil true .nil)))))
  (.seq (.doWhile 3 (.block 4 true (.acts false [.inc 0 0])) (.plain (.bin .lt (.opd (.reg 0)) (.opd (.lit (.int 5))))))
    (.ret [.plain (.opd (.reg 0))]))

theorem sample_safe : SafeStm counter sample := by
  simp [sample, SafeStm, SafeCases, GoodActs, GoodAct, GoodSub, klit, kcall, WfSub, WfEx, WfOpd, WfArgs, exTree, Grouped, rootOk, SafeSub, SafeEx, SafeOpd, SafeArgs,
    shapeEx, shapeOpd, PairOk, Cases.hasCase, emitsC, emits, jumps, counter]

theorem sample_clean : CleanStm counter sample := by
  simp [sample, CleanStm, CleanCases, ActsClean, lastActClean, isCallSub, kcall, defaultNo, counter]

example : ScopeOk sample := safe_scopeOk _ sample_safe

theorem sample_compiles : (compFun counter.S.fold counter.isCall 1 sample).isSome = true := by
  have e : ∀ k : BitVec 64, emitOp counter.S.fold .lt [(.loadR 0 : SI), .loadK (.int k)] = some [.opRK .lt 0 (.int k)] := fun _ => rfl
  simp [sample, compFun, compStm, compCases, compActs, compAct, comp_klit, comp_kcall, compSub, treeOf, compOpd, resplit_leaf, resplit_node, genTree, Cases.isNil,
    defaults, compList, followed, e]

/-- The values returned. -/
def returned (r : Option (Out (Outc Const × BitVec 64))) : Option (List Const) :=
  match r with
  | some (.ok (.ret vs, _)) => some vs
  | _ => none

/-- Three rounds of the `for` (the call in the last one adds 10), one of `do`; 14 is returned. -/
example : returned (runStm counter 5 sample (0 : BitVec 64)) = some [.int 14] := by decide +kernel

example (s : BitVec 64) : counter.eq (.int 1) (.int 2) s = .ok (false, s) := rfl
example (s : BitVec 64) : ∃ v s', counter.S.app 0 [] s = .ok (v, s') := ⟨_, _, rfl⟩

end Verif.Comp
