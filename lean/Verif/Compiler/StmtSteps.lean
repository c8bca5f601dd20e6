import Verif.Compiler.StmtLemmas
/-
Lemmas for C27: runs of the machine against results of statements; expressions and expression statements inside a program.
-/
namespace Verif.Comp
open Verif Verif.Vm

section
variable {B : Base} {cap halt : Nat}

/-! ### Runs -/

theorem Runs.after {S : Sem SIns} {P : List SI} {n : Nat} {a b : Cfg S.Val S.St} (h1 : Steps S P a b) (h2 : Runs S P n b) : Runs S P n a := by
  induction h1 with
  | refl _ => exact h2
  | step h e _ ih =>
    have ih := ih h2
    cases ih with
    | zero => exact .zero _
    | step h' e' rest =>
      -- one step more than needed
      exact .step h e (Runs.mono_aux (.step h' e' rest))
where
  Runs.mono_aux {S : Sem SIns} {P : List SI} {n : Nat} {c : Cfg S.Val S.St} (h : Runs S P (n + 1) c) : Runs S P n c := by
    induction n generalizing c with
    | zero => exact .zero _
    | succ n ih =>
      cases h with
      | step h e rest => exact .step h e (ih rest)

theorem Runs.mono {S : Sem SIns} {P : List SI} {n m : Nat} {c : Cfg S.Val S.St} (h : Runs S P n c) (hm : m ≤ n) : Runs S P m c := by
  induction m generalizing n c with
  | zero => exact .zero _
  | succ m ih =>
    cases h with
    | zero => omega
    | step h e rest => exact .step h e (ih rest (by omega))

/-- Nothing may lie on the operand stack if `m`. -/
def Junk {V : Type} (m : Bool) (stk : List V) : Prop := m = true → stk = []

/-- Where the machine is after an outcome. -/
def tgt (B : Base) (halt exit bt ct : Nat) (sc : List Nat) (stk : List B.S.Val) (s : B.S.St) : Outc B.S.Val → Cfg B.S.Val B.SSt
  | .normal => ⟨exit, stk, (s, sc)⟩
  | .brk => ⟨bt, stk, (s, sc)⟩
  | .cont => ⟨ct, stk, (s, sc)⟩
  | .ret vs => ⟨halt, vs.reverse ++ stk, (B.closeAll sc s, [])⟩

/-- The run of the machine from `c` agrees with the result of a statement. -/
def Sim (B : Base) (cap halt : Nat) (P : List SI) (n : Nat) (m : Bool) (exit bt ct : Nat) (sc : List Nat) (c : Cfg B.S.Val B.SSt) :
    B.Res → Prop
  | none => Runs (B.mach cap halt) P n c
  | some .err => Does (B.mach cap halt) P c .err
  | some .ub => Does (B.mach cap halt) P c .ub
  | some (.ok p) => ∃ stk, Junk m stk ∧ Steps (B.mach cap halt) P c (tgt B halt exit bt ct sc stk p.2 p.1)

/-- ... with the result of one round of a loop. -/
def RoundSim (B : Base) (cap halt : Nat) (P : List SI) (n : Nat) (m : Bool) (head exit bt ct : Nat) (sc : List Nat) (c : Cfg B.S.Val B.SSt) :
    Option (Out (Option (Outc B.S.Val) × B.S.St)) → Prop
  | none => Runs (B.mach cap halt) P n c
  | some .err => Does (B.mach cap halt) P c .err
  | some .ub => Does (B.mach cap halt) P c .ub
  | some (.ok (none, s)) => ∃ stk c1 i, Junk m stk ∧ Steps (B.mach cap halt) P c c1 ∧ P[c1.pc]? = some i ∧
      exec (B.mach cap halt) i c1 = .ok ⟨head, stk, (s, sc)⟩
  | some (.ok (some o, s)) => ∃ stk, Junk m stk ∧ Steps (B.mach cap halt) P c (tgt B halt exit bt ct sc stk s o)

variable {P : List SI} {n : Nat} {m : Bool} {exit bt ct : Nat} {sc : List Nat}

theorem Sim.after {c c' : Cfg B.S.Val B.SSt} {r : B.Res} (h1 : Steps (B.mach cap halt) P c c')
    (h2 : Sim B cap halt P n m exit bt ct sc c' r) : Sim B cap halt P n m exit bt ct sc c r := by
  rcases r with _ | (p | _ | _)
  · exact Runs.after h1 h2
  · obtain ⟨stk, hj, hs⟩ := h2; exact ⟨stk, hj, h1.trans hs⟩
  · exact Does.after (o := .err) h1 h2
  · exact Does.after (o := .ub) h1 h2

theorem RoundSim.after {head : Nat} {c c' : Cfg B.S.Val B.SSt} {r} (h1 : Steps (B.mach cap halt) P c c')
    (h2 : RoundSim B cap halt P n m head exit bt ct sc c' r) : RoundSim B cap halt P n m head exit bt ct sc c r := by
  rcases r with _ | (⟨_ | o, s⟩ | _ | _)
  · exact Runs.after h1 h2
  · obtain ⟨stk, c1, i, hj, hs, hi, he⟩ := h2; exact ⟨stk, c1, i, hj, h1.trans hs, hi, he⟩
  · obtain ⟨stk, hj, hs⟩ := h2; exact ⟨stk, hj, h1.trans hs⟩
  · exact Does.after (o := .err) h1 h2
  · exact Does.after (o := .ub) h1 h2

/-- After an operation of the machine. -/
theorem sim_does {α : Type} {c : Cfg B.S.Val B.SSt} {o : Out α} {g : α → Cfg B.S.Val B.SSt} {f : α → B.Res}
    (h : Does (B.mach cap halt) P c (o.map g)) (hf : ∀ a, o = .ok a → Sim B cap halt P n m exit bt ct sc (g a) (f a)) :
    Sim B cap halt P n m exit bt ct sc c (andThen o f) := by
  cases o with
  | ok a => exact Sim.after h (hf a rfl)
  | err => exact h
  | ub => exact h

theorem round_does {α : Type} {head : Nat} {c : Cfg B.S.Val B.SSt} {o : Out α} {g : α → Cfg B.S.Val B.SSt} {f}
    (h : Does (B.mach cap halt) P c (o.map g)) (hf : ∀ a, o = .ok a → RoundSim B cap halt P n m head exit bt ct sc (g a) (f a)) :
    RoundSim B cap halt P n m head exit bt ct sc c (andThen o f) := by
  cases o with
  | ok a => exact RoundSim.after h (hf a rfl)
  | err => exact h
  | ub => exact h

/-- After a statement. -/
theorem sim_then {mid bt' ct' : Nat} {sc' : List Nat} {c : Cfg B.S.Val B.SSt} {r : B.Res} {f}
    (h : Sim B cap halt P n m mid bt' ct' sc' c r)
    (hf : ∀ stk o s, Junk m stk → Sim B cap halt P n m exit bt ct sc (tgt B halt mid bt' ct' sc' stk s o) (f (o, s))) :
    Sim B cap halt P n m exit bt ct sc c (thenRes r f) := by
  rcases r with _ | (p | _ | _)
  · exact h
  · obtain ⟨stk, hj, hs⟩ := h; exact Sim.after hs (hf stk p.1 p.2 hj)
  · exact h
  · exact h

theorem round_then {head mid bt' ct' : Nat} {sc' : List Nat} {c : Cfg B.S.Val B.SSt} {r : B.Res} {f}
    (h : Sim B cap halt P n m mid bt' ct' sc' c r)
    (hf : ∀ stk o s, Junk m stk → RoundSim B cap halt P n m head exit bt ct sc (tgt B halt mid bt' ct' sc' stk s o) (f (o, s))) :
    RoundSim B cap halt P n m head exit bt ct sc c (thenRes r f) := by
  rcases r with _ | (p | _ | _)
  · exact h
  · obtain ⟨stk, hj, hs⟩ := h; exact RoundSim.after hs (hf stk p.1 p.2 hj)
  · exact h
  · exact h

/-- A loop. -/
theorem sim_rounds {head : Nat} {round : B.S.St → Option (Out (Option (Outc B.S.Val) × B.S.St))}
    (hr : ∀ stk s, Junk m stk → RoundSim B cap halt P n m head exit bt ct sc ⟨head, stk, (s, sc)⟩ (round s)) (k : Nat) (hk : k ≤ n)
    (stk : List B.S.Val) (s : B.S.St) (hj : Junk m stk) :
    Sim B cap halt P k m exit bt ct sc ⟨head, stk, (s, sc)⟩ (rounds round k s) := by
  induction k generalizing stk s with
  | zero => exact .zero _
  | succ k ih =>
    have h := hr stk s hj
    rw [rounds]
    rcases hrd : round s with _ | (⟨_ | o, s'⟩ | _ | _)
    · rw [hrd] at h; exact Runs.mono h hk
    · rw [hrd] at h
      obtain ⟨stk', c1, i, hj', hs, hi, he⟩ := h
      have ih := ih (by omega) stk' s' hj'
      show Sim B cap halt P (k + 1) m exit bt ct sc _ (rounds round k s')
      refine Sim.after hs ?_
      rcases hrr : rounds round k s' with _ | (p | _ | _)
      · rw [hrr] at ih; exact .step hi he ih
      · rw [hrr] at ih
        obtain ⟨stk2, hj2, hs2⟩ := ih
        exact ⟨stk2, hj2, .step hi he hs2⟩
      · rw [hrr] at ih; exact Does.after (o := .err) (.step hi he (.refl _)) ih
      · rw [hrr] at ih; exact Does.after (o := .ub) (.step hi he (.refl _)) ih
    · rw [hrd] at h; exact h
    · rw [hrd] at h; exact h
    · rw [hrd] at h; exact h

/-! ### Expressions -/

theorem at_lt {p : Nat} {c : List SI} (h : At P p c bt ct) (hc : c ≠ []) : p < P.length := by
  cases c with
  | nil => exact absurd rfl hc
  | cons x c =>
    have := (at_cons.mp h).1
    exact (List.getElem?_eq_some_iff.mp this).1

theorem good_code {e : Sub} {c : List SI} (hg : GoodSub B e) (h : compSub B.S.fold e [] = some c) :
    Correct (B.mach cap halt) c (evalSub (B.mach cap halt) e) ∧ c ≠ [] := by
  obtain ⟨c', e', G⟩ := sub_good (S := B.mach cap halt) e hg.1 (safeSub_mach e hg.2) [] c (.inl rfl) h
  rw [List.nil_append] at e'
  subst e'
  exact ⟨G.ok, G.shape.ne_nil⟩

/-- An expression inside a program. -/
theorem ev_at {e : Sub} {c : List SI} {p : Nat} (hg : GoodSub B e) (h : compSub B.S.fold e [] = some c) (ha : At P p c bt ct)
    (stk : List B.S.Val) (s : B.S.St) :
    Does (B.mach cap halt) P ⟨p, stk, (s, sc)⟩ ((evalSub B.S e s).map fun q => ⟨p + c.length, q.1 :: stk, (q.2, sc)⟩) := by
  obtain ⟨hc, hne⟩ := good_code (cap := cap) (halt := halt) hg h
  obtain ⟨hP, hl⟩ := at_noExt ha (compSub_noExt e [] c noExt_nil h) (Nat.le_of_lt (at_lt ha hne))
  have := hc (P.take p) (P.drop (p + c.length)) stk (s, sc)
  rw [← hP, hl, evalSub_mach] at this
  cases he : evalSub B.S e s with
  | ok q => rw [he] at this; exact this
  | err => rw [he] at this; exact this
  | ub => rw [he] at this; exact this

/-! ### The last call of an expression statement -/

/-- Beyond the end of the program nothing happens. -/
theorem Steps.stuck {S : Sem SIns} {Q : List SI} {a b : Cfg S.Val S.St} (h : Steps S Q a b) (ha : Q.length ≤ a.pc) : b = a := by
  cases h with
  | refl _ => rfl
  | step h' _ _ => have := (List.getElem?_eq_some_iff.mp h').1; omega

section Transfer
variable {Q : List SI} {d f k : Nat}

/-- Only the last instruction of `Q` differs. -/
structure Swap (P Q : List SI) (d f k : Nat) : Prop where
  len : Q.length = d + 1
  same : ∀ i, i < d → P[i]? = Q[i]?
  old : Q[d]? = some (.app f k)
  new : P[d]? = some (.ext (.callR f k))

theorem swap_in (W : Swap P Q d f k) {a b : Cfg (B.mach cap halt).Val (B.mach cap halt).St} (h : Steps (B.mach cap halt) Q a b) (hb : b.pc < Q.length) :
    Steps (B.mach cap halt) P a b := by
  induction h with
  | refl _ => exact .refl _
  | step h e rest ih =>
    rename_i x i x' x''
    have hx : x.pc < Q.length := (List.getElem?_eq_some_iff.mp h).1
    have hl := W.len
    by_cases hd : x.pc < d
    · exact .step (by rw [W.same _ hd]; exact h) e (ih hb)
    · exfalso
      have hxd : x.pc = d := by omega
      have hi : i = .app f k := by rw [hxd, W.old] at h; exact (Option.some.inj h).symm
      subst hi
      simp only [exec] at e
      split at e
      · cases e
      · cases ha : B.S.app f (x.stk.take k).reverse x.st.1 with
        | ok q =>
          simp only [Base.mach, Base.keep, pushRes, ha, Out.map] at e
          cases e
          have := Steps.stuck rest (by simp only; omega)
          subst this
          simp only at hb
          omega
        | err => simp only [Base.mach, Base.keep, pushRes, ha, Out.map] at e; cases e
        | ub => simp only [Base.mach, Base.keep, pushRes, ha, Out.map] at e; cases e

theorem swap_out (W : Swap P Q d f k) {a b : Cfg (B.mach cap halt).Val (B.mach cap halt).St} (h : Steps (B.mach cap halt) Q a b) (hb : b.pc = Q.length) :
    ∃ stk, Steps (B.mach cap halt) P a ⟨b.pc, stk, b.st⟩ := by
  induction h with
  | refl _ => exact ⟨_, .refl _⟩
  | step h e rest ih =>
    rename_i x i x' x''
    have hx : x.pc < Q.length := (List.getElem?_eq_some_iff.mp h).1
    have hl := W.len
    by_cases hd : x.pc < d
    · obtain ⟨stk, hs⟩ := ih hb
      exact ⟨stk, .step (by rw [W.same _ hd]; exact h) e hs⟩
    · have hxd : x.pc = d := by omega
      have hi : i = .app f k := by rw [hxd, W.old] at h; exact (Option.some.inj h).symm
      subst hi
      simp only [exec] at e
      split at e
      · cases e
      · rename_i hk
        cases ha : B.S.app f (x.stk.take k).reverse x.st.1 with
        | ok q =>
          simp only [Base.mach, Base.keep, pushRes, ha, Out.map] at e
          cases e
          have := Steps.stuck rest (by simp only; omega)
          subst this
          refine ⟨[], .step (i := .ext (.callR f k)) (by rw [hxd]; exact W.new) (c' := ⟨x.pc + 1, [], (q.2, x.st.2)⟩) ?_ (.refl _)⟩
          simp only [exec, Base.exec, if_neg hk, ha, Out.map]
        | err => simp only [Base.mach, Base.keep, pushRes, ha, Out.map] at e; cases e
        | ub => simp only [Base.mach, Base.keep, pushRes, ha, Out.map] at e; cases e

theorem swap_fail (W : Swap P Q d f k) {a b : Cfg B.S.Val B.SSt} {i : SI} (h : Steps (B.mach cap halt) Q a b) (hi : Q[b.pc]? = some i) :
    Steps (B.mach cap halt) P a b ∧
      ((exec (B.mach cap halt) i b = .err → ∃ j, P[b.pc]? = some j ∧ exec (B.mach cap halt) j b = .err) ∧
       (exec (B.mach cap halt) i b = .ub → ∃ j, P[b.pc]? = some j ∧ exec (B.mach cap halt) j b = .ub)) := by
  have hb : b.pc < Q.length := (List.getElem?_eq_some_iff.mp hi).1
  refine ⟨swap_in W h hb, ?_⟩
  have hl := W.len
  by_cases hd : b.pc < d
  · have : P[b.pc]? = some i := by rw [W.same _ hd]; exact hi
    exact ⟨fun h => ⟨i, this, h⟩, fun h => ⟨i, this, h⟩⟩
  · have hxd : b.pc = d := by omega
    have hi : i = .app f k := by rw [hxd, W.old] at hi; exact (Option.some.inj hi).symm
    subst hi
    have key : ∀ o : Out (Cfg B.S.Val B.SSt), (∀ c, o ≠ .ok c) → exec (B.mach cap halt) (.app f k) b = o →
        exec (B.mach cap halt) (.ext (.callR f k)) b = o := by
      intro o ho he
      simp only [exec] at he
      simp only [exec, Base.exec]
      split at he
      · rename_i hk; rw [if_pos hk]; exact he
      · rename_i hk
        rw [if_neg hk]
        cases ha : B.S.app f (b.stk.take k).reverse b.st.1 with
        | ok q =>
          simp only [Base.keep, pushRes, ha, Out.map] at he
          exact absurd he.symm (ho _)
        | err => simp only [Base.keep, pushRes, ha, Out.map] at he ⊢; exact he
        | ub => simp only [Base.keep, pushRes, ha, Out.map] at he ⊢; exact he
    have hP : P[b.pc]? = some (.ext (.callR f k)) := by rw [hxd]; exact W.new
    exact ⟨fun h => ⟨_, hP, key _ (by simp) h⟩, fun h => ⟨_, hP, key _ (by simp) h⟩⟩

end Transfer

end
end Verif.Comp
