import Verif.Compiler.StmtDepth
import Verif.Compiler.StmtProps
/-
C30: the room a function asks for when it is entered covers every push of its body.
-/
namespace Verif.Comp
open Verif Verif.Vm

/-- The operators applied in a piece of code take as many operands as their kind says. -/
def OperandsFit (kind : Nat → AppKind) (code : List SI) : Prop :=
  ∀ f n, (.app f n : SI) ∈ code ∨ (.ext (.callR f n) : SI) ∈ code → (kind f).Takes n

/-- C30 in full: at every point of every run of every function body that is accepted, there are no more elements on the operand stack
than the function has asked for. -/
def StackSuffices (B : Base) (halt : Nat) : Prop :=
  ∀ (kind : Nat → AppKind) (b : Stm) (lvl : Nat) (sc : List Nat) (code : List SI), compFun B.S.fold B.isCall lvl b = some code →
    code.length ≤ halt → OperandsFit kind code →
    ∀ (s : B.S.St) (c : Cfg B.S.Val B.SSt), Steps (B.mach 10 halt) code ⟨0, [], (s, sc)⟩ c →
      (c.stk.length : Int) ≤ reserve (fun f n => (kind f).weight n) code

/-- What is asked for an operator covers the one element it leaves. -/
theorem weight_covers (k : AppKind) (n : Nat) (h : k.Takes n) : 1 - (n : Int) ≤ k.weight n := by
  cases k <;> simp only [AppKind.Takes] at h <;> simp only [AppKind.weight] <;> omega

/-! ### The sum is at least the number of elements -/

theorem needScan_acc (w : Nat → Nat → Int) : (code : List SI) → (sum acc : Int) → acc ≤ (needScan w sum acc code).2
  | [], _, _ => Int.le_refl _
  | i :: rest, sum, acc => by
    have h := needScan_acc w rest (if restarts i then 0 else sum + need w i) (max acc (sum + need w i))
    simp only [needScan]
    omega

theorem seq_need {w : Nat → Nat → Int} {i : SI} {d d' : Int} (hw : ∀ f n, i = .app f n → 1 - (n : Int) ≤ w f n) (h : SeqOk d d' i) :
    d' ≤ if restarts i then 0 else d + need w i := by
  cases i with
  | app f n =>
    have := hw f n rfl
    simp only [SeqOk] at h
    simp only [restarts, need, Bool.false_eq_true, if_false]
    omega
  | ext x =>
    cases x with
    | store o rst => cases rst <;> simp [SeqOk] at h <;> simp [restarts, need, needExt] <;> omega
    | step o rst => cases rst <;> simp [SeqOk] at h <;> simp [restarts, need, needExt] <;> omega
    | _ => simp only [SeqOk] at h; simp only [restarts, need, needExt, Bool.false_eq_true, if_false, if_true]; omega
  | _ => simp only [SeqOk] at h; simp only [restarts, need, Bool.false_eq_true, if_false]; omega

theorem scan_bound {w : Nat → Nat → Int} : (code : List SI) → (D : Nat → Int) → (sum acc : Int) →
    (∀ i ∈ code, ∀ f n, i = .app f n → 1 - (n : Int) ≤ w f n) → (∀ (q : Nat) (i : SI), code[q]? = some i → SeqOk (D q) (D (q + 1)) i) →
    D 0 ≤ sum → D 0 ≤ acc → 0 ≤ acc → ∀ t, t ≤ code.length → D t ≤ (needScan w sum acc code).2
  | [], D, sum, acc, _, _, _, ha, _, t, ht => by
    rw [Nat.le_zero.mp ht]
    exact ha
  | i :: rest, D, sum, acc, hw, hs, h0, ha, hp, t, ht => by
    have h1 := seq_need (hw i (by simp)) (hs 0 i rfl)
    cases t with
    | zero => exact Int.le_trans ha (needScan_acc w _ _ _)
    | succ t =>
      refine scan_bound rest (fun q => D (q + 1)) _ _ (fun j hj => hw j (List.mem_cons_of_mem _ hj)) (fun q j hq => hs (q + 1) j (by simpa using hq))
        ?_ ?_ ?_ t (by simpa using ht)
      · split at h1 <;> rename_i hr
        · rw [if_pos hr]; exact h1
        · rw [if_neg hr]; simp only [Nat.zero_add] at h1 ⊢; omega
      · split at h1
        · simp only [Nat.zero_add] at h1 ⊢; omega
        · simp only [Nat.zero_add] at h1 ⊢; omega
      · omega

/-! ### A step keeps the annotation -/

theorem map_ok {α β : Type} {o : Out α} {f : α → β} {b : β} : o.map f = .ok b ↔ ∃ a, o = .ok a ∧ f a = b := by
  cases o <;> simp [Out.map]

theorem pushRes_length {S : Sem SIns} {c c' : Cfg S.Val S.St} {stk : List S.Val} {o : Out (S.Val × S.St)} (e : pushRes S c stk o = .ok c') :
    c'.pc = c.pc + 1 ∧ c'.stk.length = stk.length + 1 := by
  unfold pushRes at e
  cases o with
  | ok p => cases e; exact ⟨rfl, rfl⟩
  | err => cases e
  | ub => cases e

theorem step_depth {B : Base} {halt : Nat} {code : List SI} {k : Int} {D : Nat → Int} (a : An code 0 k D) {i : SI} {c c' : Cfg B.S.Val B.SSt}
    (hi : code[c.pc]? = some i) (hl : (c.stk.length : Int) = D c.pc) (e : exec (B.mach 10 halt) i c = .ok c') :
    (c'.pc = halt ∧ c'.stk.length ≤ c.stk.length) ∨ (c'.pc ≤ code.length ∧ (c'.stk.length : Int) = D c'.pc) := by
  obtain ⟨pc, stk, st⟩ := c
  have hs := a.seq pc i hi
  have hj := a.jmp pc i
  have hlt : pc < code.length := (List.getElem?_eq_some_iff.mp hi).1
  have target : ∀ off, offs i = some off → ((pc : Int) + off).toNat ≤ code.length ∧ D ((pc : Int) + off).toNat = jumpDepth (D pc) i := by
    intro off ho
    rcases hj off hi ho with ⟨t, et, hle, hd⟩ | h
    · rw [et]; exact ⟨hle, hd⟩
    · exact h.1.elim
  have next : c'.pc = pc + 1 → (c'.stk.length : Int) = D (pc + 1) →
      (c'.pc = halt ∧ c'.stk.length ≤ stk.length) ∨ (c'.pc ≤ code.length ∧ (c'.stk.length : Int) = D c'.pc) :=
    fun h1 h2 => .inr (by rw [h1]; exact ⟨hlt, h2⟩)
  simp only at hl
  cases i with
  | loadK _ | loadR _ | loadG _ | loadT _ | opRR _ _ _ | opRK _ _ _ | opKR _ _ _ =>
    simp only [SeqOk] at hs
    obtain ⟨h1, h2⟩ := pushRes_length e
    exact next h1 (by simp only at h2; omega)
  | op _ =>
    simp only [SeqOk] at hs
    match stk, e, hl, next with
    | _ :: _ :: stk, e, hl, next =>
      simp only [List.length_cons] at hl
      obtain ⟨h1, h2⟩ := pushRes_length e
      exact next h1 (by simp only at h2; omega)
  | opR _ _ | inst _ | un _ =>
    simp only [SeqOk] at hs
    match stk, e, hl, next with
    | _ :: stk, e, hl, next =>
      simp only [List.length_cons] at hl
      obtain ⟨h1, h2⟩ := pushRes_length e
      exact next h1 (by simp only at h2; omega)
  | jmp off =>
    cases e
    have := target off rfl
    simp only [jumpDepth] at this
    exact .inr (by simp only [jump]; exact ⟨this.1, by omega⟩)
  | jnt off | jt off =>
    simp only [SeqOk] at hs
    match stk, e, hl, next with
    | v :: stk, e, hl, next =>
      simp only [List.length_cons] at hl
      have ht := target off rfl
      simp only [jumpDepth] at ht
      simp only [exec] at e
      split at e
      · cases e
      · cases e
        split
        all_goals refine .inr ?_
        all_goals (simp only [jump]; exact ⟨by omega, by omega⟩)
  | markAnd | markOr => cases e
  | app f n =>
    simp only [SeqOk] at hs
    simp only [exec] at e
    split at e
    · cases e
    · obtain ⟨h1, h2⟩ := pushRes_length e
      refine next h1 ?_
      rw [h2, List.length_drop]
      omega
  | ext x =>
    have e : B.exec 10 halt x ⟨pc, stk, st⟩ = .ok c' := e
    cases x with
    | addr r =>
      cases e
      simp only [SeqOk] at hs
      exact next rfl (by simp only [List.length_cons]; omega)
    | store o rst =>
      match stk, e, hl, next with
      | p :: v :: rest, e, hl, next =>
        simp only [Base.exec, map_ok] at e
        obtain ⟨q, _, rfl⟩ := e
        refine next rfl ?_
        simp only [List.length_cons] at hl
        cases rst <;> simp [SeqOk] at hs <;> simp <;> omega
    | storeN n =>
      simp only [Base.exec] at e
      split at e
      · cases e
      · rw [map_ok] at e
        obtain ⟨q, _, rfl⟩ := e
        exact next rfl hs.symm
    | step o rst =>
      match stk, e, hl, next with
      | p :: rest, e, hl, next =>
        simp only [Base.exec, map_ok] at e
        obtain ⟨q, _, rfl⟩ := e
        refine next rfl ?_
        simp only [List.length_cons] at hl
        cases rst <;> simp [SeqOk] at hs <;> simp <;> omega
    | callR f n =>
      simp only [Base.exec] at e
      split at e
      · cases e
      · rw [map_ok] at e
        obtain ⟨q, _, rfl⟩ := e
        exact next rfl hs.symm
    | reset => cases e; exact next rfl hs.symm
    | push k =>
      simp only [Base.exec] at e
      split at e <;> cases e
      simp only [SeqOk] at hs
      exact next rfl (by simp only; omega)
    | pop =>
      simp only [Base.exec] at e
      split at e <;> cases e
      simp only [SeqOk] at hs
      exact next rfl (by simp only; omega)
    | jeCase off =>
      match stk, e, hl, next with
      | b :: v :: rest, e, hl, next =>
        simp only [Base.exec, map_ok] at e
        obtain ⟨q, _, rfl⟩ := e
        simp only [List.length_cons] at hl
        have ht := target off rfl
        simp only [jumpDepth] at ht
        simp only [SeqOk] at hs
        split
        · exact .inr ⟨ht.1, ht.2.symm⟩
        · exact .inr ⟨hlt, by simp only [List.length_cons]; omega⟩
    | jmpCase off =>
      cases e
      exact .inr ⟨(target off rfl).1, (target off rfl).2.symm⟩
    | brk => cases e; exact .inr ⟨Nat.le_of_lt hlt, hl⟩
    | cont => cases e; exact .inr ⟨Nat.le_of_lt hlt, hl⟩
    | itInit =>
      match stk, e, hl, next with
      | p :: v :: rest, e, hl, next =>
        simp only [Base.exec, map_ok] at e
        obtain ⟨q, _, rfl⟩ := e
        exact next rfl hs.symm
    | member =>
      match stk, e, hl, next with
      | v :: rest, e, hl, next =>
        cases e
        simp only [SeqOk] at hs
        simp only [List.length_cons] at hl
        exact next rfl (by simp only [List.length_cons]; omega)
    | itEnd =>
      match stk, e, hl, next with
      | p :: v :: rest, e, hl, next =>
        simp only [Base.exec, map_ok] at e
        obtain ⟨q, _, rfl⟩ := e
        simp only [SeqOk] at hs
        simp only [List.length_cons] at hl
        exact next rfl (by simp only [List.length_cons]; omega)
    | itGet n =>
      match stk, e, hl, next with
      | p :: v :: rest, e, hl, next =>
        simp only [Base.exec, map_ok] at e
        obtain ⟨q, hq, rfl⟩ := e
        have := B.itGet_length _ _ _ _ hq
        simp only [SeqOk] at hs
        simp only [List.length_cons] at hl
        exact next rfl (by simp only [List.length_append]; omega)
    | itNext =>
      match stk, e, hl, next with
      | p :: v :: rest, e, hl, next =>
        simp only [Base.exec, map_ok] at e
        obtain ⟨q, _, rfl⟩ := e
        exact next rfl hs.symm
    | ret => cases e; exact .inl ⟨rfl, Nat.le_refl _⟩
    | fin => cases e; exact .inl ⟨rfl, Nat.zero_le _⟩

/-! ### The property -/

/-- C30 for function bodies in which every statement leaves the stack empty: each `switch` has a `default` and a `case`, each expression
statement ends in an assignment, a step or a call, or in nothing that calls; and initialisers of declarations are assignments. -/
theorem stack_need_partial (B : Base) (halt : Nat) (kind : Nat → AppKind) (b : Stm) (hs : SafeStm B b) (hc : CleanStm B b) (hd : DeclStm b)
    (lvl : Nat) (sc : List Nat) (code : List SI) (h : compFun B.S.fold B.isCall lvl b = some code) (hh : code.length ≤ halt)
    (hk : OperandsFit kind code) (s : B.S.St) (c : Cfg B.S.Val B.SSt) (hst : Steps (B.mach 10 halt) code ⟨0, [], (s, sc)⟩ c) :
    (c.stk.length : Int) ≤ reserve (fun f n => (kind f).weight n) code := by
  simp only [compFun, Option.map_eq_some_iff] at h
  obtain ⟨d, hd', rfl⟩ := h
  have hz := hasZ_append (stm_depth b hs hc hd lvl false false d hd') (hasA_one (i := .ext .fin) (d := 0) (k := 0) (Int.le_refl _) rfl)
  obtain ⟨D, a⟩ := hz
  let w : Nat → Nat → Int := fun f n => (kind f).weight n
  have hres : (needScan w 0 0 (d ++ [(.ext .fin : SI)])).2 ≤ reserve w (d ++ [.ext .fin]) := by
    simp only [reserve]
    split <;> omega
  have hb : ∀ t, t ≤ (d ++ [(.ext .fin : SI)]).length → D t ≤ reserve w (d ++ [.ext .fin]) := fun t ht =>
    Int.le_trans (scan_bound _ D 0 0 (fun i hi f n e => weight_covers _ _ (hk f n (.inl (e ▸ hi)))) a.seq (by rw [a.start]; omega) (by rw [a.start]; omega)
      (Int.le_refl _) t ht) hres
  have inv : (c.pc = halt ∧ (c.stk.length : Int) ≤ reserve w (d ++ [.ext .fin])) ∨
      ((c.stk.length : Int) = D c.pc ∧ (c.stk.length : Int) ≤ reserve w (d ++ [.ext .fin])) := by
    refine steps_inv (I := fun c => (c.pc = halt ∧ (c.stk.length : Int) ≤ reserve w (d ++ [.ext .fin])) ∨
      ((c.stk.length : Int) = D c.pc ∧ (c.stk.length : Int) ≤ reserve w (d ++ [.ext .fin]))) ?_ hst (.inr ⟨by rw [a.start]; rfl, ?_⟩)
    · rintro c c' i (⟨h1, _⟩ | ⟨h1, h2⟩) hi e
      · have := (List.getElem?_eq_some_iff.mp hi).1
        omega
      · rcases step_depth a hi h1 e with ⟨h3, h4⟩ | ⟨h3, h4⟩
        · exact .inl ⟨h3, by omega⟩
        · exact .inr ⟨h4, by rw [h4]; exact hb _ h3⟩
    · have := hb 0 (Nat.zero_le _)
      rw [a.start] at this
      exact this
  rcases inv with h | h
  · exact h.2
  · exact h.2

/-- `switch(1){ case 2: x++; }` -/
def oneSwitch : Stm := .switch (klit (.int 1)) (.cons (some (.lit (.int 2))) (.acts false [.inc 0 0]) false .nil)

/-- The code of that `switch`. -/
def oneSwitchCode : List SI := [.loadK (.int 1), .loadK (.int 2), .ext (.jeCase 2), .jmp 3, .ext (.addr 0), .ext (.step 0 true)]

theorem oneSwitch_code (B : Base) (lvl : Nat) (inL inS : Bool) : compStm B.S.fold B.isCall lvl inL inS oneSwitch = some oneSwitchCode := by
  simp [oneSwitch, oneSwitchCode, compStm, compCases, comp_klit, switchCode, compActs, compAct, caseCode, caseCount, Cases.isNil, defaults, defaultOff, Lab.ins]
  rfl

/-- No label matches: the value stays on the stack. -/
theorem oneSwitch_run {B : Base} {halt : Nat} {code : List SI} {p : Nat} {stk : List B.S.Val} {s : B.S.St} {sc : List Nat}
    (h : ∀ q, q < 6 → code[p + q]? = oneSwitchCode[q]?) (he : B.eq (B.S.lit (.int 1)) (B.S.lit (.int 2)) s = .ok (false, s)) :
    Steps (B.mach 10 halt) code ⟨p, stk, (s, sc)⟩ ⟨p + 2, B.S.lit (.int 2) :: B.S.lit (.int 1) :: stk, (s, sc)⟩ ∧
    Steps (B.mach 10 halt) code ⟨p, stk, (s, sc)⟩ ⟨p + 6, B.S.lit (.int 1) :: stk, (s, sc)⟩ := by
  have h2 : Steps (B.mach 10 halt) code ⟨p, stk, (s, sc)⟩ ⟨p + 2, B.S.lit (.int 2) :: B.S.lit (.int 1) :: stk, (s, sc)⟩ :=
    (mstep (c' := ⟨p + 1, B.S.lit (.int 1) :: stk, (s, sc)⟩) (h 0 (by omega)) rfl).trans (mstep (h 1 (by omega)) rfl)
  refine ⟨h2, h2.trans ((mstep (c' := ⟨p + 3, B.S.lit (.int 1) :: stk, (s, sc)⟩) (h 2 (by omega)) ?_).trans (step_jmp (t := p + 6) (h 3 (by omega)) ?_))⟩
  · simp only [exec, Base.mach, Base.exec, he, Out.map]
    rfl
  · omega

/-- `while(true){ switch(1){ case 2: x++; } }` -/
def growing : Stm := .while (klit (.bool true)) 1 oneSwitch

def growingCode : List SI := [.loadK (.bool true), .jnt 11, .ext (.push 1)] ++ oneSwitchCode ++ [.ext .pop, .jmp (-10), .ext .pop, .ext .fin]

theorem growing_code (B : Base) : compFun B.S.fold B.isCall 1 growing = some growingCode := by
  simp [growing, compFun, compStm, comp_klit, oneSwitch_code, loopCode]
  rfl

theorem growing_rounds (B : Base) (halt : Nat) (he : ∀ s, B.eq (B.S.lit (.int 1)) (B.S.lit (.int 2)) s = .ok (false, s)) (s : B.S.St) :
    ∀ m, ∃ s' stk, stk.length = m ∧ Steps (B.mach 10 halt) growingCode ⟨0, [], (s, [])⟩ ⟨0, stk, (s', [])⟩
  | 0 => ⟨s, [], rfl, .refl _⟩
  | m + 1 => by
    obtain ⟨s', stk, hl, hs⟩ := growing_rounds B halt he s m
    refine ⟨_, _, by rw [List.length_cons, hl], hs.trans ((true_test rfl rfl).trans ((step_push rfl (by simp)).trans
      ((oneSwitch_run (p := 3) (fun q hq => ?_) (he s')).2.trans ((step_pop rfl).trans (step_jmp (t := 0) rfl rfl)))))⟩
    match q, hq with
    | 0, _ | 1, _ | 2, _ | 3, _ | 4, _ | 5, _ => rfl

/-- C30 is false, and by any amount: a `switch` without `default` in a loop leaves one element on the stack in each round in which no
label matches; the function has asked for two. -/
theorem stack_need_violated (B : Base) (halt : Nat) (hh : 20 ≤ halt) (s : B.S.St)
    (he : ∀ s, B.eq (B.S.lit (.int 1)) (B.S.lit (.int 2)) s = .ok (false, s)) :
    ¬ StackSuffices B halt ∧ ∃ code, compFun B.S.fold B.isCall 1 growing = some code ∧
      (∀ w, reserve w code = 2) ∧ ∀ m, ∃ c, c.stk.length = m ∧ Steps (B.mach 10 halt) code ⟨0, [], (s, [])⟩ c := by
  have h2 : ∀ w, reserve w growingCode = 2 := fun w => rfl
  have h3 : ∀ m, ∃ c, c.stk.length = m ∧ Steps (B.mach 10 halt) growingCode ⟨0, [], (s, [])⟩ c := by
    intro m
    obtain ⟨s', stk, hl, hs⟩ := growing_rounds B halt he s m
    exact ⟨⟨0, stk, (s', [])⟩, hl, hs⟩
  refine ⟨fun H => ?_, growingCode, growing_code B, h2, h3⟩
  obtain ⟨c, hl, hs⟩ := h3 3
  have := H (fun _ => .call) growing 1 [] growingCode (growing_code B) (by simp only [growingCode, oneSwitchCode, List.length_append, List.length_cons, List.length_nil]; omega)
    (fun _ _ _ => trivial) s c hs
  rw [h2, hl] at this
  omega

/-- C30 without a loop: two such statements in a row. -/
theorem stack_need_twice_violated (B : Base) (halt : Nat) (s : B.S.St)
    (he : B.eq (B.S.lit (.int 1)) (B.S.lit (.int 2)) s = .ok (false, s)) :
    ∃ code, compFun B.S.fold B.isCall 1 (.seq oneSwitch oneSwitch) = some code ∧
      (∀ w, reserve w code = 2) ∧ ∃ c, c.stk.length = 3 ∧ Steps (B.mach 10 halt) code ⟨0, [], (s, [])⟩ c := by
  refine ⟨oneSwitchCode ++ oneSwitchCode ++ [.ext .fin], by simp only [compFun, compStm, oneSwitch_code]; rfl, fun w => rfl, _, ?_,
    (oneSwitch_run (p := 0) (fun q hq => ?_) he).2.trans (oneSwitch_run (p := 6) (fun q hq => ?_) he).1⟩
  · rfl
  · match q, hq with
    | 0, _ | 1, _ | 2, _ | 3, _ | 4, _ | 5, _ => rfl
  · match q, hq with
    | 0, _ | 1, _ | 2, _ | 3, _ | 4, _ | 5, _ => rfl

/-! ### The conditions of the theorems are met -/

theorem sample_decl : DeclStm sample := by
  simp [sample, DeclStm, DeclCases]

/-- `sample` asks for room for the two elements that its `switch` and its assignments need. -/
example : ∃ code, compFun counter.S.fold counter.isCall 1 sample = some code ∧ OperandsFit (fun _ => .call) code ∧
    SafeStm counter sample ∧ CleanStm counter sample ∧ DeclStm sample := by
  obtain ⟨code, h⟩ := Option.isSome_iff_exists.mp sample_compiles
  exact ⟨code, h, fun _ _ _ => trivial, sample_safe, sample_clean, sample_decl⟩

example (s : BitVec 64) : counter.eq (counter.S.lit (.int 1)) (counter.S.lit (.int 2)) s = .ok (false, s) := rfl

end Verif.Comp
