import Verif.Compiler.StmtActs
/-
Lemmas for C27: jumps, loops, the table of a `switch`, and which outcomes a statement can have.
-/
namespace Verif.Comp
open Verif Verif.Vm

section
variable {B : Base} {cap halt : Nat} {P : List SI} {n : Nat} {m : Bool} {head exit bt ct : Nat} {sc : List Nat}

theorem mstep {c c' : Cfg B.S.Val B.SSt} {i : SI} (h : P[c.pc]? = some i) (e : exec (B.mach cap halt) i c = .ok c') :
    Steps (B.mach cap halt) P c c' := .step h e (.refl _)

theorem step_jmp {pc t : Nat} {off : Int} {stk : List B.S.Val} {st : B.SSt} (h : P[pc]? = some (.jmp off)) (ht : (pc : Int) + off = t) :
    Steps (B.mach cap halt) P ⟨pc, stk, st⟩ ⟨t, stk, st⟩ :=
  mstep h (by simp only [exec, jump, ht]; rfl)

theorem sim_jnt {pc t : Nat} {off : Int} {v : B.S.Val} {stk : List B.S.Val} {s : B.S.St} {f} (h : P[pc]? = some (.jnt off))
    (ht : (pc : Int) + off = t) (h1 : Sim B cap halt P n m exit bt ct sc ⟨pc + 1, stk, (s, sc)⟩ (f true))
    (h2 : Sim B cap halt P n m exit bt ct sc ⟨t, stk, (s, sc)⟩ (f false)) :
    Sim B cap halt P n m exit bt ct sc ⟨pc, v :: stk, (s, sc)⟩ (test B v f) := by
  unfold test
  cases hv : B.S.truth v with
  | none => exact ⟨_, _, .refl _, h, by simp only [exec, hv]⟩
  | some b =>
    cases b with
    | true => exact Sim.after (c' := ⟨pc + 1, stk, (s, sc)⟩) (mstep h (by simp only [exec, hv, if_true])) h1
    | false =>
      exact Sim.after (c' := ⟨t, stk, (s, sc)⟩) (mstep h (by simp [exec, hv, jump, ht])) h2

theorem round_jnt {pc t : Nat} {off : Int} {v : B.S.Val} {stk : List B.S.Val} {s : B.S.St} {f} (h : P[pc]? = some (.jnt off))
    (ht : (pc : Int) + off = t) (h1 : RoundSim B cap halt P n m head exit bt ct sc ⟨pc + 1, stk, (s, sc)⟩ (f true))
    (h2 : RoundSim B cap halt P n m head exit bt ct sc ⟨t, stk, (s, sc)⟩ (f false)) :
    RoundSim B cap halt P n m head exit bt ct sc ⟨pc, v :: stk, (s, sc)⟩ (test B v f) := by
  unfold test
  cases hv : B.S.truth v with
  | none => exact ⟨_, _, .refl _, h, by simp only [exec, hv]⟩
  | some b =>
    cases b with
    | true => exact RoundSim.after (c' := ⟨pc + 1, stk, (s, sc)⟩) (mstep h (by simp only [exec, hv, if_true])) h1
    | false => exact RoundSim.after (c' := ⟨t, stk, (s, sc)⟩) (mstep h (by simp [exec, hv, jump, ht])) h2

theorem round_jt {pc t : Nat} {off : Int} {v : B.S.Val} {stk : List B.S.Val} {s : B.S.St} {f} (h : P[pc]? = some (.jt off))
    (ht : (pc : Int) + off = t) (h1 : RoundSim B cap halt P n m head exit bt ct sc ⟨t, stk, (s, sc)⟩ (f true))
    (h2 : RoundSim B cap halt P n m head exit bt ct sc ⟨pc + 1, stk, (s, sc)⟩ (f false)) :
    RoundSim B cap halt P n m head exit bt ct sc ⟨pc, v :: stk, (s, sc)⟩ (test B v f) := by
  unfold test
  cases hv : B.S.truth v with
  | none => exact ⟨_, _, .refl _, h, by simp only [exec, hv]⟩
  | some b =>
    cases b with
    | true => exact RoundSim.after (c' := ⟨t, stk, (s, sc)⟩) (mstep h (by simp [exec, hv, jump, ht])) h1
    | false => exact RoundSim.after (c' := ⟨pc + 1, stk, (s, sc)⟩) (mstep h (by simp [exec, hv])) h2

theorem step_push {pc k : Nat} {stk : List B.S.Val} {s : B.S.St} (h : P[pc]? = some (.ext (.push k))) (hc : sc.length < cap) :
    Steps (B.mach cap halt) P ⟨pc, stk, (s, sc)⟩ ⟨pc + 1, stk, (s, k :: sc)⟩ :=
  mstep h (by simp only [exec, Base.exec]; rw [if_neg (by omega)])

theorem step_pop {pc k : Nat} {stk : List B.S.Val} {s : B.S.St} (h : P[pc]? = some (.ext .pop)) :
    Steps (B.mach cap halt) P ⟨pc, stk, (s, k :: sc)⟩ ⟨pc + 1, stk, (B.close k s, sc)⟩ :=
  mstep h rfl

/-- Running a statement inside the scope `k`, which is left however the statement ends. -/
theorem sim_leave {k pc : Nat} {bt' ct' : Nat} {stk : List B.S.Val} {s : B.S.St} {r : B.Res} (hpush : P[pc]? = some (.ext (.push k)))
    (hpop : P[exit]? = some (.ext .pop)) (hc : sc.length < cap)
    (hr : ∀ o s', r = some (.ok (o, s')) → o ≠ .brk ∧ o ≠ .cont)
    (h : Sim B cap halt P n m exit bt' ct' (k :: sc) ⟨pc + 1, stk, (s, k :: sc)⟩ r) :
    Sim B cap halt P n m (exit + 1) bt ct sc ⟨pc, stk, (s, sc)⟩ (leave B k true r) := by
  refine Sim.after (step_push hpush hc) ?_
  rcases r with _ | (⟨o, s'⟩ | _ | _)
  · exact h
  · obtain ⟨stk', hj, hs⟩ := h
    refine ⟨stk', hj, hs.trans ?_⟩
    have hr := hr o s' rfl
    cases o with
    | normal => exact step_pop hpop
    | brk => exact absurd rfl hr.1
    | cont => exact absurd rfl hr.2
    | ret vs => exact .refl _
  · exact h
  · exact h

/-- The end of a body and what follows it up to the jump back. `endp` = position of the `POP_SCOPE` a normal end and `continue` go to,
`bt'` = that of the one `break` goes to. -/
theorem round_body {k pc endp bt' : Nat} {stk : List B.S.Val} {s : B.S.St} {r : B.Res} {tl : B.S.St → Out (Option (Outc B.S.Val) × B.S.St)}
    (hpush : P[pc]? = some (.ext (.push k))) (hc : sc.length < cap)
    (hpop : P[endp]? = some (.ext .pop)) (hpop2 : P[bt']? = some (.ext .pop)) (hex : exit = bt' + 1)
    (h : Sim B cap halt P n m endp bt' endp (k :: sc) ⟨pc + 1, stk, (s, k :: sc)⟩ r)
    (htl : ∀ stk s, Junk m stk → RoundSim B cap halt P n m head exit bt ct sc ⟨endp + 1, stk, (s, sc)⟩ (some (tl s))) :
    RoundSim B cap halt P n m head exit bt ct sc ⟨pc, stk, (s, sc)⟩ (thenRes r fun q =>
      match q.1.turn with
      | some o => some (.ok (some o, B.close k q.2))
      | none => some (tl (B.close k q.2))) := by
  refine RoundSim.after (step_push hpush hc) (round_then h ?_)
  intro stk' o s' hj
  cases o with
  | normal => exact RoundSim.after (step_pop hpop) (htl _ _ hj)
  | cont => exact RoundSim.after (step_pop hpop) (htl _ _ hj)
  | brk => subst hex; exact ⟨stk', hj, step_pop hpop2⟩
  | ret vs => exact ⟨stk', hj, .refl _⟩

/-- A jump back after an expression statement. -/
theorem round_back {pc pc' : Nat} {off : Int} {stk : List B.S.Val} {s : B.S.St} {o : Out B.S.St}
    (h : ActSim B cap halt P pc' sc (Junk m) ⟨pc, stk, (s, sc)⟩ o) (hj : P[pc']? = some (.jmp off)) (ht : (pc' : Int) + off = head) :
    RoundSim B cap halt P n m head exit bt ct sc ⟨pc, stk, (s, sc)⟩ (some (o.map fun s => (none, s))) := by
  cases o with
  | ok s' =>
    obtain ⟨stk', hk, hs⟩ := h
    exact ⟨stk', _, _, hk, hs, hj, by simp only [exec, jump, ht]; rfl⟩
  | err => exact h
  | ub => exact h

/-- The parts of the code of a loop inside a program. -/
theorem loop_at {p k : Nat} {pre hd body tail : List SI} (h : At P p (loopCode pre hd k body tail) bt ct) :
    ∃ bt' ct', ct' = p + pre.length + hd.length + 1 + body.length ∧ bt' = ct' + 1 + tail.length + 1 ∧
      p + (loopCode pre hd k body tail).length = bt' + 1 ∧
      At P p pre bt' ct' ∧ At P (p + pre.length) hd bt' ct' ∧ P[p + pre.length + hd.length]? = some (.ext (.push k)) ∧
      At P (p + pre.length + hd.length + 1) body bt' ct' ∧ P[ct']? = some (.ext .pop) ∧ At P (ct' + 1) tail bt' ct' ∧
      (∃ off, P[ct' + 1 + tail.length]? = some (.jmp off) ∧ ((ct' + 1 + tail.length : Nat) : Int) + off = (p + pre.length : Nat)) ∧
      P[bt']? = some (.ext .pop) := by
  unfold loopCode at h
  have h := at_resolve h
  generalize hb : p + _ = bt' at h
  generalize hcc : p + _ = ct' at h
  have e1 : ct' = p + pre.length + hd.length + 1 + body.length := by
    rw [← hcc]; simp only [List.length_append, List.length_cons, List.length_nil]; omega
  have e2 : bt' = ct' + 1 + tail.length + 1 := by
    rw [← hb, e1]; simp only [List.length_append, List.length_cons, List.length_nil]; omega
  refine ⟨bt', ct', e1, e2, ?_, ?_⟩
  · rw [e2, e1]; simp only [loopCode, resolve_length, List.length_append, List.length_cons, List.length_nil]; omega
  · simp only [at_append, at_cons, List.length_append, List.length_cons, List.length_nil] at h
    obtain ⟨⟨⟨⟨⟨⟨h1, h2⟩, h3, -⟩, h4⟩, h5, -⟩, h6⟩, h7, h8, -⟩ := h
    simp only [Nat.zero_add] at *
    refine ⟨h1, h2, by rw [Nat.add_assoc]; exact h3, ?_, ?_, ?_, ?_, ?_⟩
    · rw [show p + pre.length + hd.length + 1 = p + (pre.length + hd.length + 1) by omega]; exact h4
    · rw [e1, show p + pre.length + hd.length + 1 + body.length = p + (pre.length + hd.length + 1 + body.length) by omega]; exact h5
    · rw [show ct' + 1 = p + (pre.length + hd.length + 1 + body.length + 1) by omega]; exact h6
    · have e3 : p + (pre.length + hd.length + 1 + body.length + 1 + tail.length) = ct' + 1 + tail.length := by omega
      rw [e3] at h7
      exact ⟨_, h7, by omega⟩
    · rw [e2, e1, show p + pre.length + hd.length + 1 + body.length + 1 + tail.length + 1 =
          p + (pre.length + hd.length + 1 + body.length + 1 + tail.length) + 1 by omega]; exact h8

/-! ### Outcomes -/

theorem thenRes_ok {α β : Type} {r : Option (Out α)} {f : α → Option (Out β)} {x : β} (h : thenRes r f = some (.ok x)) :
    ∃ a, r = some (.ok a) ∧ f a = some (.ok x) := by
  rcases r with _ | (a | _ | _)
  · cases h
  · exact ⟨a, rfl, h⟩
  · cases h
  · cases h

theorem andThen_ok {α β : Type} {r : Out α} {f : α → Option (Out β)} {x : β} (h : andThen r f = some (.ok x)) :
    ∃ a, r = .ok a ∧ f a = some (.ok x) := by
  rcases r with a | _ | _
  · exact ⟨a, rfl, h⟩
  · cases h
  · cases h

theorem test_ok {β : Type} {v : B.S.Val} {f : Bool → Option (Out β)} {x : β} (h : test B v f = some (.ok x)) :
    ∃ b, f b = some (.ok x) := by
  unfold test at h
  cases hv : B.S.truth v with
  | none => rw [hv] at h; cases h
  | some b => rw [hv] at h; exact ⟨b, h⟩

theorem rounds_ok {O S : Type} {Q : O → Prop} {round : S → Option (Out (Option O × S))}
    (hr : ∀ s o s', round s = some (.ok (some o, s')) → Q o) (k : Nat) (s : S) (o : O) (s' : S)
    (h : rounds round k s = some (.ok (o, s'))) : Q o := by
  induction k generalizing s with
  | zero => cases h
  | succ k ih =>
    rw [rounds] at h
    obtain ⟨⟨o', s1⟩, h1, h2⟩ := thenRes_ok h
    cases o' with
    | none => exact ih _ h2
    | some o' => cases h2; exact hr _ _ _ h1

/-- Does not leave a loop or `switch` around the statement. -/
def Outc.stays {V : Type} : Outc V → Prop
  | .brk => False
  | .cont => False
  | _ => True

theorem turn_stays {V : Type} {q : Outc V} {o : Outc V} (h : q.turn = some o) : o.stays := by
  cases q <;> cases h <;> trivial

theorem leave_ok {k : Nat} {vars : Bool} {r : B.Res} {o : Outc B.S.Val} {s : B.S.St} (h : leave B k vars r = some (.ok (o, s))) :
    ∃ s', r = some (.ok (o, s')) := by
  rcases r with _ | (⟨o', s'⟩ | _ | _)
  · cases h
  · cases h; exact ⟨s', rfl⟩
  · cases h
  · cases h

theorem while_stays {c : Sub} {k : Nat} {b : Stm} {s : B.S.St} {o s'} (h : runStm B n (.while c k b) s = some (.ok (o, s'))) : o.stays := by
  rw [runStm] at h
  refine rounds_ok (Q := Outc.stays) ?_ n s o s' h
  intro s o s' h
  obtain ⟨q, _, h⟩ := andThen_ok h
  obtain ⟨bb, h⟩ := test_ok h
  cases bb with
  | true => obtain ⟨w, _, h⟩ := thenRes_ok h; simp only [Option.some.injEq, Out.ok.injEq, Prod.mk.injEq] at h; exact turn_stays h.1
  | false => cases h; trivial

theorem do_stays {c : Sub} {k : Nat} {b : Stm} {s : B.S.St} {o s'} (h : runStm B n (.doWhile k b c) s = some (.ok (o, s'))) : o.stays := by
  rw [runStm] at h
  refine rounds_ok (Q := Outc.stays) ?_ n s o s' h
  intro s o s' h
  obtain ⟨w, _, h⟩ := thenRes_ok h
  split at h
  · rename_i ht; cases h; exact turn_stays ht
  · obtain ⟨q, _, h⟩ := andThen_ok h
    obtain ⟨bb, h⟩ := test_ok h
    cases bb <;> cases h
    trivial

theorem for_stays {ki vars each init cond post k} {b : Stm} {s : B.S.St} {o s'}
    (h : runStm B n (.for ki vars each init cond post k b) s = some (.ok (o, s'))) : o.stays := by
  rw [runStm] at h
  obtain ⟨s1, h⟩ := leave_ok h
  obtain ⟨s2, _, h⟩ := andThen_ok h
  refine rounds_ok (Q := Outc.stays) ?_ n s2 o s1 h
  intro s o s' h
  have key : ∀ s, (thenRes (runStm B n b s) fun q =>
            match q.1.turn with
            | some o => some (.ok (some o, B.close k q.2))
            | none => some ((runActs B post (B.close k q.2)).map fun s => (none, s))) = some (.ok (some o, s')) → o.stays := by
    intro s h
    obtain ⟨w, _, h⟩ := thenRes_ok h
    split at h
    · rename_i ht; cases h; exact turn_stays ht
    · cases hp : runActs B post (B.close k w.2) <;> rw [hp] at h <;> cases h
  cases cond with
  | none => exact key _ h
  | some c =>
    obtain ⟨q, _, h⟩ := andThen_ok h
    obtain ⟨bb, h⟩ := test_ok h
    cases bb with
    | true => exact key _ h
    | false => cases h; trivial

theorem forIn_stays {ki it rs c k} {b : Stm} {s : B.S.St} {o s'} (h : runStm B n (.forIn ki it rs c k b) s = some (.ok (o, s'))) : o.stays := by
  rw [runStm] at h
  obtain ⟨s1, h⟩ := leave_ok h
  obtain ⟨s2, _, h⟩ := andThen_ok h
  obtain ⟨s3, _, h⟩ := andThen_ok h
  refine rounds_ok (Q := Outc.stays) ?_ n s3 o s1 h
  intro s o s' h
  obtain ⟨q, _, h⟩ := andThen_ok h
  obtain ⟨bb, h⟩ := test_ok h
  cases bb with
  | true => cases h; trivial
  | false =>
    obtain ⟨w, _, h⟩ := andThen_ok h
    obtain ⟨w1, _, h⟩ := andThen_ok h
    obtain ⟨w2, _, h⟩ := thenRes_ok h
    split at h
    · rename_i ht; cases h; exact turn_stays ht
    · cases hp : B.itNext (B.S.reg it (B.close k w2.2)) (B.close k w2.2) <;> rw [hp] at h <;> cases h

mutual
/-- A statement without `break` and `continue` that leave it does not end with one. -/
theorem jumps_stm : (b : Stm) → (sw : Bool) → jumps sw b = false → (s : B.S.St) → (o : Outc B.S.Val) → (s' : B.S.St) →
    runStm B n b s = some (.ok (o, s')) → o ≠ .cont ∧ (sw = false → o ≠ .brk)
  | .nil, sw, _, s, o, s', h => by cases h; exact ⟨by simp, by simp⟩
  | .seq a b, sw, hj, s, o, s', h => by
    simp only [jumps, Bool.or_eq_false_iff] at hj
    simp only [runStm] at h
    obtain ⟨⟨o1, s1⟩, h1, h2⟩ := thenRes_ok h
    have ia := jumps_stm a sw hj.1 s o1 s1 h1
    cases o1 with
    | normal => exact jumps_stm b sw hj.2 s1 o s' h2
    | brk => cases h2; exact ia
    | cont => cases h2; exact ia
    | ret vs => cases h2; exact ia
  | .acts e l, sw, _, s, o, s', h => by
    simp only [runStm] at h
    cases hr : runActs B l s <;> rw [hr] at h <;> cases h
    exact ⟨by simp, by simp⟩
  | .block k vars b, sw, hj, s, o, s', h => by
    simp only [jumps] at hj
    simp only [runStm] at h
    obtain ⟨s1, h⟩ := leave_ok h
    exact jumps_stm b sw hj s o s1 h
  | .if1 c a, sw, hj, s, o, s', h => by
    simp only [jumps] at hj
    simp only [runStm] at h
    obtain ⟨q, _, h⟩ := andThen_ok h
    obtain ⟨bb, h⟩ := test_ok h
    cases bb with
    | true => exact jumps_stm a sw hj _ o s' h
    | false => cases h; exact ⟨by simp, by simp⟩
  | .if2 c a b, sw, hj, s, o, s', h => by
    simp only [jumps, Bool.or_eq_false_iff] at hj
    simp only [runStm] at h
    obtain ⟨q, _, h⟩ := andThen_ok h
    obtain ⟨bb, h⟩ := test_ok h
    cases bb with
    | true => exact jumps_stm a sw hj.1 _ o s' h
    | false => exact jumps_stm b sw hj.2 _ o s' h
  | .while c k b, sw, hj, s, o, s', h => by
    have := while_stays h
    cases o <;> first | exact absurd this id | exact ⟨by simp, by simp⟩
  | .doWhile k b c, sw, hj, s, o, s', h => by
    have := do_stays h
    cases o <;> first | exact absurd this id | exact ⟨by simp, by simp⟩
  | .for ki vars each init cond post k b, sw, hj, s, o, s', h => by
    have := for_stays h
    cases o <;> first | exact absurd this id | exact ⟨by simp, by simp⟩
  | .forIn ki it rs c k b, sw, hj, s, o, s', h => by
    have := forIn_stays h
    cases o <;> first | exact absurd this id | exact ⟨by simp, by simp⟩
  | .switch e cs, sw, hj, s, o, s', h => by
    simp only [jumps] at hj
    simp only [runStm] at h
    obtain ⟨q, _, h⟩ := andThen_ok h
    obtain ⟨q1, _, h⟩ := andThen_ok h
    split at h
    · cases h; exact ⟨by simp, by simp⟩
    · obtain ⟨⟨o1, s1⟩, h1, h2⟩ := thenRes_ok h
      have := jumps_cases cs hj _ _ o1 s1 h1
      cases o1 with
      | normal => cases h2; exact ⟨by simp [Outc.leaveSwitch], by simp [Outc.leaveSwitch]⟩
      | brk => cases h2; exact ⟨by simp [Outc.leaveSwitch], by simp [Outc.leaveSwitch]⟩
      | cont => exact absurd rfl this
      | ret vs => cases h2; exact ⟨by simp [Outc.leaveSwitch], by simp [Outc.leaveSwitch]⟩
  | .brk, sw, hj, s, o, s', h => by
    simp only [jumps, Bool.not_eq_false'] at hj
    cases h
    exact ⟨by simp, fun h => by rw [hj] at h; cases h⟩
  | .cont, sw, hj, s, o, s', h => by cases hj
  | .ret es, sw, _, s, o, s', h => by
    simp only [runStm] at h
    cases hr : evalList B es s <;> rw [hr] at h <;> cases h
    exact ⟨by simp, by simp⟩
theorem jumps_cases : (cs : Cases) → jumpsC cs = false → (j : Nat) → (s : B.S.St) → (o : Outc B.S.Val) → (s' : B.S.St) →
    runAt B n j cs s = some (.ok (o, s')) → o ≠ .cont
  | .nil, _, j, s, o, s', h => by simp only [runAt] at h; cases h; simp
  | .cons l b brk rest, hj, 0, s, o, s', h => by
    simp only [jumpsC, Bool.or_eq_false_iff] at hj
    simp only [runAt] at h
    obtain ⟨⟨o1, s1⟩, h1, h2⟩ := thenRes_ok h
    have ia := jumps_stm b true hj.1 s o1 s1 h1
    cases o1 with
    | normal =>
      simp only at h2
      split at h2
      · cases h2; simp
      · exact jumps_cases rest hj.2 0 s1 o s' h2
    | brk => cases h2; exact ia.1
    | cont => exact absurd rfl ia.1
    | ret vs => cases h2; exact ia.1
  | .cons l b brk rest, hj, j + 1, s, o, s', h => by
    simp only [jumpsC, Bool.or_eq_false_iff] at hj
    simp only [runAt] at h
    exact jumps_cases rest hj.2 j s o s' h
end

mutual
/-- `break` and `continue` are only accepted inside a loop or `switch`. -/
theorem accepted_stm : (b : Stm) → (lvl : Nat) → (inL inS : Bool) → (c : List SI) →
    compStm B.S.fold B.isCall lvl inL inS b = some c → (s : B.S.St) → (o : Outc B.S.Val) → (s' : B.S.St) →
    runStm B n b s = some (.ok (o, s')) → (o = .cont → inL = true) ∧ (o = .brk → (inL || inS) = true)
  | .nil, lvl, inL, inS, c, _, s, o, s', h => by cases h; exact ⟨by simp, by simp⟩
  | .seq a b, lvl, inL, inS, c, hc, s, o, s', h => by
    simp only [compStm, Option.bind_eq_some_iff, Option.map_eq_some_iff] at hc
    obtain ⟨ca, ha, cb, hb, _⟩ := hc
    simp only [runStm] at h
    obtain ⟨⟨o1, s1⟩, h1, h2⟩ := thenRes_ok h
    have ia := accepted_stm a lvl inL inS ca ha s o1 s1 h1
    cases o1 with
    | normal => exact accepted_stm b lvl inL inS cb hb s1 o s' h2
    | brk => cases h2; exact ia
    | cont => cases h2; exact ia
    | ret vs => cases h2; exact ia
  | .acts e l, lvl, inL, inS, c, _, s, o, s', h => by
    simp only [runStm] at h
    cases hr : runActs B l s <;> rw [hr] at h <;> cases h
    exact ⟨by simp, by simp⟩
  | .block k vars b, lvl, inL, inS, c, hc, s, o, s', h => by
    simp only [compStm] at hc
    split at hc
    · cases hc
    · simp only [Option.map_eq_some_iff] at hc
      obtain ⟨cb, hb, _⟩ := hc
      simp only [runStm] at h
      obtain ⟨s1, h⟩ := leave_ok h
      exact accepted_stm b _ inL inS cb hb s o s1 h
  | .if1 c a, lvl, inL, inS, code, hc, s, o, s', h => by
    simp only [compStm, Option.bind_eq_some_iff, Option.map_eq_some_iff] at hc
    obtain ⟨cc, _, ca, ha, _⟩ := hc
    simp only [runStm] at h
    obtain ⟨q, _, h⟩ := andThen_ok h
    obtain ⟨bb, h⟩ := test_ok h
    cases bb with
    | true => exact accepted_stm a lvl inL inS ca ha _ o s' h
    | false => cases h; exact ⟨by simp, by simp⟩
  | .if2 c a b, lvl, inL, inS, code, hc, s, o, s', h => by
    simp only [compStm, Option.bind_eq_some_iff, Option.map_eq_some_iff] at hc
    obtain ⟨cc, _, ca, ha, cb, hb, _⟩ := hc
    simp only [runStm] at h
    obtain ⟨q, _, h⟩ := andThen_ok h
    obtain ⟨bb, h⟩ := test_ok h
    cases bb with
    | true => exact accepted_stm a lvl inL inS ca ha _ o s' h
    | false => exact accepted_stm b lvl inL inS cb hb _ o s' h
  | .while c k b, lvl, inL, inS, code, _, s, o, s', h => by
    have := while_stays h
    cases o <;> first | exact absurd this id | exact ⟨by simp, by simp⟩
  | .doWhile k b c, lvl, inL, inS, code, _, s, o, s', h => by
    have := do_stays h
    cases o <;> first | exact absurd this id | exact ⟨by simp, by simp⟩
  | .for ki vars each init cond post k b, lvl, inL, inS, code, _, s, o, s', h => by
    have := for_stays h
    cases o <;> first | exact absurd this id | exact ⟨by simp, by simp⟩
  | .forIn ki it rs c k b, lvl, inL, inS, code, _, s, o, s', h => by
    have := forIn_stays h
    cases o <;> first | exact absurd this id | exact ⟨by simp, by simp⟩
  | .switch e cs, lvl, inL, inS, code, hc, s, o, s', h => by
    simp only [compStm, Option.bind_eq_some_iff] at hc
    obtain ⟨ce, _, ⟨tab, bodies⟩, hcs, _⟩ := hc
    simp only [runStm] at h
    obtain ⟨q, _, h⟩ := andThen_ok h
    obtain ⟨q1, _, h⟩ := andThen_ok h
    split at h
    · cases h; exact ⟨by simp, by simp⟩
    · obtain ⟨⟨o1, s1⟩, h1, h2⟩ := thenRes_ok h
      have := accepted_cases cs lvl inL 0 tab bodies hcs _ _ o1 s1 h1
      cases o1 with
      | normal => cases h2; exact ⟨by simp [Outc.leaveSwitch], by simp [Outc.leaveSwitch]⟩
      | brk => cases h2; exact ⟨by simp [Outc.leaveSwitch], by simp [Outc.leaveSwitch]⟩
      | cont => cases h2; exact ⟨fun _ => this rfl, by simp [Outc.leaveSwitch]⟩
      | ret vs => cases h2; exact ⟨by simp [Outc.leaveSwitch], by simp [Outc.leaveSwitch]⟩
  | .brk, lvl, inL, inS, c, hc, s, o, s', h => by
    simp only [compStm] at hc
    cases h
    split at hc
    · rename_i h; exact ⟨by simp, fun _ => h⟩
    · cases hc
  | .cont, lvl, inL, inS, c, hc, s, o, s', h => by
    simp only [compStm] at hc
    cases h
    split at hc
    · rename_i h; exact ⟨fun _ => h, by simp⟩
    · cases hc
  | .ret es, lvl, inL, inS, c, _, s, o, s', h => by
    simp only [runStm] at h
    cases hr : evalList B es s <;> rw [hr] at h <;> cases h
    exact ⟨by simp, by simp⟩
theorem accepted_cases : (cs : Cases) → (lvl : Nat) → (inL : Bool) → (off : Nat) → (tab : List (Option Lab × Nat)) → (bodies : List SI) →
    compCases B.S.fold B.isCall lvl inL off cs = some (tab, bodies) → (j : Nat) → (s : B.S.St) → (o : Outc B.S.Val) → (s' : B.S.St) →
    runAt B n j cs s = some (.ok (o, s')) → o = .cont → inL = true
  | .nil, lvl, inL, off, tab, bodies, _, j, s, o, s', h => by simp only [runAt] at h; cases h; simp
  | .cons l b brk rest, lvl, inL, off, tab, bodies, hc, j, s, o, s', h => by
    simp only [compCases] at hc
    split at hc
    · cases hc
    · simp only [Option.bind_eq_some_iff, Option.map_eq_some_iff] at hc
      obtain ⟨cb, hb, ⟨tab', bodies'⟩, hrest, _⟩ := hc
      cases j with
      | zero =>
        simp only [runAt] at h
        obtain ⟨⟨o1, s1⟩, h1, h2⟩ := thenRes_ok h
        have ia := accepted_stm b lvl inL true cb hb s o1 s1 h1
        cases o1 with
        | normal =>
          simp only at h2
          split at h2
          · cases h2; simp
          · exact accepted_cases rest lvl inL _ tab' bodies' hrest 0 s1 o s' h2
        | brk => cases h2; simp
        | cont => cases h2; exact ia.1
        | ret vs => cases h2; simp
      | succ j =>
        simp only [runAt] at h
        exact accepted_cases rest lvl inL _ tab' bodies' hrest j s o s' h
end

end
end Verif.Comp
