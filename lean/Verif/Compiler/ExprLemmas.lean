import Verif.Compiler.ExprSpec
/-
Lemmas for C26: running code fragments, jump linking, the peephole optimiser.
-/
namespace Verif.Comp
open Verif Verif.Vm

section
variable {X : Type} {S : Sem X}

/-! ### Runs -/

theorem Steps.trans {P : List (Ins X)} {a b c : Cfg S.Val S.St} (h1 : Steps S P a b) (h2 : Steps S P b c) : Steps S P a c := by
  induction h1 with
  | refl _ => exact h2
  | step h e _ ih => exact .step h e (ih h2)

theorem Does.after {P : List (Ins X)} {a b : Cfg S.Val S.St} {o} (h1 : Steps S P a b) (h2 : Does S P b o) : Does S P a o := by
  cases o with
  | ok c => exact h1.trans h2
  | err => obtain ⟨c, i, h, hi, he⟩ := h2; exact ⟨c, i, h1.trans h, hi, he⟩
  | ub => obtain ⟨c, i, h, hi, he⟩ := h2; exact ⟨c, i, h1.trans h, hi, he⟩

/-- One instruction. -/
theorem Does.one {P : List (Ins X)} {c : Cfg S.Val S.St} {i : Ins X} {o} (h : P[c.pc]? = some i) (e : exec S i c = o) :
    Does S P c o := by
  cases o with
  | ok c' => exact .step h e (.refl _)
  | err => exact ⟨c, i, .refl _, h, e⟩
  | ub => exact ⟨c, i, .refl _, h, e⟩

/-- A run of one part followed by another. -/
theorem Does.bind {P : List (Ins X)} {c : Cfg S.Val S.St} {α : Type} {e : Out α} {f : α → Cfg S.Val S.St}
    {g : α → Out (Cfg S.Val S.St)} (h : Does S P c (e.map f)) (hg : ∀ x, e = .ok x → Does S P (f x) (g x)) :
    Does S P c (e.bind g) := by
  cases e with
  | ok x => exact Does.after h (hg x rfl)
  | err => exact h
  | ub => exact h

theorem getElem_mid (pre : List (Ins X)) (i : Ins X) (post : List (Ins X)) : (pre ++ i :: post)[pre.length]? = some i := by
  simp

theorem map_map {α β γ : Type} (o : Out α) (f : α → β) (g : β → γ) : (o.map f).map g = o.map fun x => g (f x) := by
  cases o <;> rfl

theorem map_bind {α β γ : Type} (o : Out α) (f : α → Out β) (g : β → γ) :
    (o.bind f).map g = o.bind fun x => (f x).map g := by
  cases o <;> rfl

/-! ### Fragments without open jumps -/

def NoMark (c : List (Ins X)) : Prop := ∀ i ∈ c, i.isMarkOr = false ∧ i.isMarkAnd = false

theorem link_length (h : Bool) (c : List (Ins X)) : (link h c).length = c.length := by
  induction c with
  | nil => rfl
  | cons i c ih => cases i <;> simp [link, ih]

theorem link_noMark (h : Bool) (c z : List (Ins X)) (hc : NoMark c) : link h (c ++ z) = c ++ link h z := by
  induction c with
  | nil => rfl
  | cons i c ih =>
    have hi := hc i (List.mem_cons_self ..)
    have := ih (fun j hj => hc j (List.mem_cons_of_mem _ hj))
    cases i <;> simp_all [link, Ins.isMarkOr, Ins.isMarkAnd]

/-- Linking a suffix does not depend on what stands before it. -/
theorem link_append (h : Bool) (a z : List (Ins X)) : ∃ a', link h (a ++ z) = a' ++ link h z ∧ a'.length = a.length := by
  induction a with
  | nil => exact ⟨[], rfl, rfl⟩
  | cons i a ih =>
    obtain ⟨a', e, hl⟩ := ih
    cases i <;> simp only [List.cons_append, link, e] <;> exact ⟨_ :: a', rfl, by simp [hl]⟩

theorem link_marks (h : Bool) (c : List (Ins X)) : NoMark (link h c) := by
  induction c with
  | nil => intro i hi; simp [link] at hi
  | cons i c ih =>
    intro j hj
    cases i <;> simp only [link, List.mem_cons] at hj <;> rcases hj with rfl | hj <;>
      first
        | exact ih j hj
        | exact ⟨rfl, rfl⟩
        | (split <;> exact ⟨rfl, rfl⟩)

theorem noMark_append {a b : List (Ins X)} (ha : NoMark a) (hb : NoMark b) : NoMark (a ++ b) := by
  intro i hi
  rcases List.mem_append.mp hi with h | h
  · exact ha i h
  · exact hb i h

theorem noMark_any {c : List (Ins X)} (hc : NoMark c) : c.any Ins.isMarkAnd = false ∧ c.any Ins.isMarkOr = false := by
  constructor
  · rw [List.any_eq_false]; intro i hi; simp [(hc i hi).2]
  · rw [List.any_eq_false]; intro i hi; simp [(hc i hi).1]

theorem finish_noMark (c : List (Ins X)) (hc : NoMark c) : finish c = c := by
  unfold finish
  rw [(noMark_any hc).1, (noMark_any hc).2]
  show link false (c ++ []) = c
  rw [link_noMark _ _ _ hc]
  simp [link]

/-- Position of the next `||` jump behind a fragment without one. -/
theorem nextOr_append (c z : List (Ins X)) (h : c.any Ins.isMarkOr = false) :
    (c ++ z).findIdx? Ins.isMarkOr = (z.findIdx? Ins.isMarkOr).map (· + c.length) := by
  induction c with
  | nil => simp
  | cons i c ih =>
    simp only [List.any_cons, Bool.or_eq_false_iff] at h
    rw [List.cons_append, List.findIdx?_cons, h.1, ih h.2]
    cases z.findIdx? Ins.isMarkOr <;> simp; omega

/-! ### Shapes of code -/

/-- The code has the shape. -/
def HasShape (c : List (Ins X)) : Shape → Prop
  | .const k => c = [.loadK k]
  | .reg r => c = [.loadR r] ∧ r < 128
  | .type t => c = [.loadT t]
  | .joinK => ∃ a i k, c = a ++ [i, .loadK k] ∧ i.const? = none ∧ i.reg? = none
  | .joinR => ∃ a i r, c = a ++ [i, .loadR r] ∧ i.const? = none ∧ i.reg? = none
  | .other => ∃ a i, c = a ++ [i] ∧ i.const? = none ∧ i.reg? = none

theorem HasShape.ne_nil {c : List (Ins X)} {s} (h : HasShape c s) : c ≠ [] := by
  cases s <;> simp only [HasShape] at h
  · rw [h]; simp
  · rw [h.1]; simp
  · rw [h]; simp
  · obtain ⟨a, i, k, rfl, -⟩ := h; simp
  · obtain ⟨a, i, k, rfl, -⟩ := h; simp
  · obtain ⟨a, i, rfl, -⟩ := h; simp

/-- The vector is empty or does not end in a constant. -/
def EndsOpen (acc : List (Ins X)) : Prop := acc = [] ∨ ∃ a i, acc = a ++ [i] ∧ i.const? = none

/-- The two last instructions of the vector are never both constants. -/
theorem HasShape.noTwo {c : List (Ins X)} {s} (h : HasShape c s) (acc : List (Ins X)) (ha : EndsOpen acc) :
    twoLastConst (acc ++ c) = false := by
  have key1 : ∀ (a : List (Ins X)) i j, i.const? = none → twoLastConst (a ++ [i, j]) = false := by
    intro a i j hi; simp [twoLastConst, Ins.isConst, hi]
  have key2 : ∀ (a : List (Ins X)) j, j.const? = none → twoLastConst (a ++ [j]) = false := by
    intro a j hj
    unfold twoLastConst
    rw [List.reverse_append]
    cases ha : a.reverse with
    | nil => simp
    | cons x xs => simp [Ins.isConst, hj]
  have key3 : ∀ j, twoLastConst (acc ++ [j]) = false := by
    intro j
    rcases ha with rfl | ⟨a, i, rfl, hi⟩
    · simp [twoLastConst]
    · rw [List.append_assoc]; exact key1 a i j hi
  cases s <;> simp only [HasShape] at h
  · rw [h]; exact key3 _
  · rw [h.1]; exact key3 _
  · rw [h]; exact key3 _
  · obtain ⟨a, i, k, rfl, hi, -⟩ := h; rw [← List.append_assoc]; exact key1 _ _ _ hi
  · obtain ⟨a, i, k, rfl, hi, -⟩ := h; rw [← List.append_assoc]; exact key1 _ _ _ hi
  · obtain ⟨a, i, rfl, hi, -⟩ := h; rw [← List.append_assoc]; exact key2 _ _ hi

theorem emitOp_two (fold : BOp → Const → Const → Option Const) (op : BOp) (a : List (Ins X)) (i j : Ins X) :
    emitOp fold op (a ++ [i, j]) = optimize fold op a i j := by
  simp [emitOp]

/-! ### Correct code for the instruction forms -/

theorem correct_cast {c c' : List (Ins X)} {e e' : S.St → Out (S.Val × S.St)} (h : Correct S c e) (hc : c = c') (he : ∀ s, e s = e' s) :
    Correct S c' e' := by
  subst hc
  intro pre post stk s
  rw [← he]; exact h pre post stk s

/-- A single instruction that pushes a result. -/
theorem correct_one (i : Ins X) (ev : S.St → Out (S.Val × S.St))
    (h : ∀ pc stk s, exec S i ⟨pc, stk, s⟩ = (ev s).map fun p => ⟨pc + 1, p.1 :: stk, p.2⟩) : Correct S [i] ev := by
  intro pre post stk s
  refine Does.one (i := i) ?_ (h _ _ _)
  show (pre ++ [i] ++ post)[pre.length]? = some i
  rw [List.append_assoc]; exact getElem_mid pre i post

/-- Code followed by an instruction that replaces the topmost value. -/
theorem correct_then (c : List (Ins X)) (i : Ins X) (ev : S.St → Out (S.Val × S.St)) (f : S.Val → S.St → Out (S.Val × S.St))
    (hc : Correct S c ev) (h : ∀ pc v stk s, exec S i ⟨pc, v :: stk, s⟩ = (f v s).map fun p => ⟨pc + 1, p.1 :: stk, p.2⟩) :
    Correct S (c ++ [i]) (fun s => (ev s).bind fun p => f p.1 p.2) := by
  intro pre post stk s
  rw [map_bind]
  have hc' := hc pre ([i] ++ post) stk s
  rw [show pre ++ c ++ ([i] ++ post) = pre ++ (c ++ [i]) ++ post by simp] at hc'
  refine Does.bind hc' ?_
  intro p _
  refine Does.one (i := i) ?_ ?_
  · show (pre ++ (c ++ [i]) ++ post)[pre.length + c.length]? = some i
    rw [show pre ++ (c ++ [i]) ++ post = (pre ++ c) ++ i :: post by simp, ← List.length_append]
    exact getElem_mid _ _ _
  · rw [h]; simp only [List.length_append, List.length_singleton, Nat.add_assoc]

/-- Two operand codes followed by the plain operator. -/
theorem correct_op (cl cr : List (Ins X)) (op : BOp) (el er : S.St → Out (S.Val × S.St))
    (hl : Correct S cl el) (hr : Correct S cr er) :
    Correct S (cl ++ cr ++ [.op op]) (fun s => (el s).bind fun p => (er p.2).bind fun q => S.bin op p.1 q.1 q.2) := by
  intro pre post stk s
  rw [map_bind]
  have hl' := hl pre (cr ++ [.op op] ++ post) stk s
  rw [show pre ++ cl ++ (cr ++ [.op op] ++ post) = pre ++ (cl ++ cr ++ [.op op]) ++ post by simp] at hl'
  refine Does.bind hl' ?_
  intro p _
  rw [map_bind]
  have hr' := hr (pre ++ cl) ([.op op] ++ post) (p.1 :: stk) p.2
  rw [show pre ++ cl ++ cr ++ ([.op op] ++ post) = pre ++ (cl ++ cr ++ [.op op]) ++ post by simp, List.length_append] at hr'
  refine Does.bind hr' ?_
  intro q _
  refine Does.one (i := .op op) ?_ ?_
  · show (pre ++ (cl ++ cr ++ [.op op]) ++ post)[pre.length + cl.length + cr.length]? = some (.op op)
    rw [show pre ++ (cl ++ cr ++ [.op op]) ++ post = (pre ++ cl ++ cr) ++ .op op :: post by simp, ← List.length_append,
      ← List.length_append]
    exact getElem_mid _ _ _
  · simp only [exec, pushRes, List.length_append, List.length_singleton, Nat.add_assoc]

theorem low8_reg (r : Nat) (h : r < 128) : low8 r = r := by unfold low8; omega
theorem unpack_pack (r : Nat) (h : r < 128) : unpack (pack r) = r := by unfold unpack pack; omega

/-- What a shape says about the value. -/
def ShapeVal (ev : S.St → Out (S.Val × S.St)) : Shape → Prop
  | .const k => ∀ s, ev s = .ok (S.lit k, s)
  | .reg r => ∀ s, ev s = .ok (S.reg r s, s)
  | _ => True

/-- Shape of an ordinary operation on two operands. -/
def opShape (fold : BOp → Const → Const → Option Const) (op : BOp) (sl sr : Shape) : Shape :=
  match sl, sr with
  | .const a, .const b => match fold op a b with | some k => .const k | none => .other
  | _, _ => .other

theorem noMark_single {i : Ins X} (h : i.isMarkOr = false ∧ i.isMarkAnd = false) : NoMark [i] := by
  intro j hj
  rw [List.mem_singleton.mp hj]; exact h

/-- The last instruction of code whose shape is no constant and no variable. -/
theorem last_open {c : List (Ins X)} {s} (h : HasShape c s) (hs : s = .other ∨ ∃ t, s = .type t) :
    ∃ a i, c = a ++ [i] ∧ i.const? = none ∧ i.reg? = none := by
  rcases hs with rfl | ⟨t, rfl⟩
  · exact h
  · exact ⟨[], _, h, rfl, rfl⟩

/-- An ordinary operator: what the optimiser emits is correct and has the shape the specification predicts. -/
theorem emit_correct (op : BOp) (hop : op ≠ .inst) (acc cl cr out : List (Ins X)) (sl sr : Shape)
    (el er : S.St → Out (S.Val × S.St)) (hsl : HasShape cl sl) (hsr : HasShape cr sr) (vl : ShapeVal el sl)
    (vr : ShapeVal er sr) (hl : Correct S cl el)
    (hr : Correct S cr er) (hml : NoMark cl) (hmr : NoMark cr) (hp : PairOk S op sl sr)
    (h : emitOp S.fold op (acc ++ cl ++ cr) = some out) :
    ∃ c, out = acc ++ c ∧ NoMark c ∧ HasShape c (opShape S.fold op sl sr) ∧
      ShapeVal (fun s => (el s).bind fun p => (er p.2).bind fun q => S.bin op p.1 q.1 q.2) (opShape S.fold op sl sr) ∧
      Correct S c (fun s => (el s).bind fun p => (er p.2).bind fun q => S.bin op p.1 q.1 q.2) := by
  -- the plain form
  have plain : ∀ (a : List (Ins X)) i j, acc ++ cl ++ cr = a ++ [i, j] →
      optimize S.fold op a i j = some (a ++ [i, j, .op op]) → opShape S.fold op sl sr = .other →
      ∃ c, out = acc ++ c ∧ NoMark c ∧ HasShape c (opShape S.fold op sl sr) ∧
      ShapeVal (fun s => (el s).bind fun p => (er p.2).bind fun q => S.bin op p.1 q.1 q.2) (opShape S.fold op sl sr) ∧
      Correct S c (fun s => (el s).bind fun p => (er p.2).bind fun q => S.bin op p.1 q.1 q.2) := by
    intro a i j e ho hs
    rw [e, emitOp_two, ho] at h
    refine ⟨cl ++ cr ++ [.op op], ?_, noMark_append (noMark_append hml hmr) (noMark_single ⟨rfl, rfl⟩), ?_, ?_,
      correct_op _ _ _ _ _ hl hr⟩
    · have : out = a ++ [i, j] ++ [.op op] := by rw [← Option.some.inj h]; simp
      rw [this, ← e]; simp
    · rw [hs]; exact ⟨cl ++ cr, _, rfl, rfl, rfl⟩
    · rw [hs]; trivial
  -- the form with the second operand in the instruction
  have viaR : ∀ (a : List (Ins X)) i r, cl = a ++ [i] → cr = [.loadR r] → r < 128 → i.const? = none → i.reg? = none →
      (∀ s, er s = .ok (S.reg r s, s)) → opShape S.fold op sl sr = .other →
      ∃ c, out = acc ++ c ∧ NoMark c ∧ HasShape c (opShape S.fold op sl sr) ∧
      ShapeVal (fun s => (el s).bind fun p => (er p.2).bind fun q => S.bin op p.1 q.1 q.2) (opShape S.fold op sl sr) ∧
      Correct S c (fun s => (el s).bind fun p => (er p.2).bind fun q => S.bin op p.1 q.1 q.2) := by
    intro a i r e1 e2 hr128 hi hi' hev hs
    have e : acc ++ cl ++ cr = (acc ++ a) ++ [i, .loadR r] := by rw [e1, e2]; simp
    rw [e, emitOp_two] at h
    have ho : optimize S.fold op (acc ++ a) i (.loadR r) = some (acc ++ a ++ [i, .opR op (low8 r)]) := by
      unfold optimize
      rw [if_neg hop, hi, hi']
      simp only [Ins.const?, Ins.reg?, if_pos hr128]
    rw [ho] at h
    refine ⟨cl ++ [.opR op (low8 r)], ?_, noMark_append hml (noMark_single ⟨rfl, rfl⟩), ?_, ?_, ?_⟩
    · rw [← Option.some.inj h, e1]; simp
    · rw [hs]; exact ⟨cl, _, rfl, rfl, rfl⟩
    · rw [hs]; trivial
    · refine correct_cast (correct_then cl (.opR op (low8 r)) el (fun v s => S.bin op v (S.reg r s) s) hl ?_) rfl ?_
      · intro pc v stk s
        simp only [exec, pushRes, low8_reg r hr128]
      · intro s
        cases el s with
        | ok p => simp only [Out.bind, hev]
        | err => rfl
        | ub => rfl
  -- the forms with both operands in the instruction
  have both : ∀ (i : Ins X), out = acc ++ [i] → i.isMarkOr = false ∧ i.isMarkAnd = false → i.const? = none → i.reg? = none →
      opShape S.fold op sl sr = .other →
      (∀ pc stk s, exec S i ⟨pc, stk, s⟩ = ((el s).bind fun p => (er p.2).bind fun q => S.bin op p.1 q.1 q.2).map
        fun p => ⟨pc + 1, p.1 :: stk, p.2⟩) →
      ∃ c, out = acc ++ c ∧ NoMark c ∧ HasShape c (opShape S.fold op sl sr) ∧
      ShapeVal (fun s => (el s).bind fun p => (er p.2).bind fun q => S.bin op p.1 q.1 q.2) (opShape S.fold op sl sr) ∧
      Correct S c (fun s => (el s).bind fun p => (er p.2).bind fun q => S.bin op p.1 q.1 q.2) := by
    intro i e hm hc hr' hs hex
    refine ⟨[i], e, noMark_single hm, ?_, ?_, correct_one i _ hex⟩
    · rw [hs]; exact ⟨[], i, rfl, hc, hr'⟩
    · rw [hs]; trivial
  -- the right operand ends in an instruction that is no constant and no variable
  have rOther : ∀ b j, cr = b ++ [j] → j.const? = none → j.reg? = none → opShape S.fold op sl sr = .other →
      ∃ c, out = acc ++ c ∧ NoMark c ∧ HasShape c (opShape S.fold op sl sr) ∧
      ShapeVal (fun s => (el s).bind fun p => (er p.2).bind fun q => S.bin op p.1 q.1 q.2) (opShape S.fold op sl sr) ∧
      Correct S c (fun s => (el s).bind fun p => (er p.2).bind fun q => S.bin op p.1 q.1 q.2) := by
    intro b j e hj hj' hs
    obtain ⟨a, i, e'⟩ : ∃ a i, acc ++ cl ++ b = a ++ [i] := by
      have : acc ++ cl ++ b ≠ [] := by
        have := hsl.ne_nil
        simp [this]
      exact ⟨_, _, (List.dropLast_concat_getLast this).symm⟩
    refine plain a i j ?_ ?_ hs
    · rw [e, ← List.append_assoc, e']; simp
    · unfold optimize
      rw [if_neg hop, hj, hj']
      cases i.const? <;> cases i.reg? <;> rfl
  cases sr with
  | joinR => cases sl <;> exact hp.elim
  | other =>
    obtain ⟨b, j, e, h1, h2⟩ := hsr
    exact rOther b j e h1 h2 (by cases sl <;> rfl)
  | type t => exact rOther [] (.loadT t) hsr rfl rfl (by cases sl <;> rfl)
  | joinK =>
    obtain ⟨b, j, k, e, h1, h2⟩ := hsr
    refine plain (acc ++ cl ++ b) j (.loadK k) (by rw [e]; simp) ?_ (by cases sl <;> rfl)
    unfold optimize
    rw [if_neg hop, h1, h2]
    rfl
  | const k2 =>
    have hev := vr
    have ecr : cr = [.loadK k2] := hsr
    have rest : ∀ a i, cl = a ++ [i] → i.const? = none → i.reg? = none → opShape S.fold op sl (.const k2) = .other →
        optimize S.fold op (acc ++ a) i (.loadK k2) = some (acc ++ a ++ [i, .loadK k2, .op op]) := by
      intro a i e h1 h2 _
      unfold optimize
      rw [if_neg hop, h1, h2]
      rfl
    cases sl with
    | joinK => exact hp.elim
    | joinR => exact hp.elim
    | other =>
      obtain ⟨a, i, e, h1, h2⟩ := hsl
      exact plain (acc ++ a) i (.loadK k2) (by rw [e, ecr]; simp) (rest a i e h1 h2 rfl) rfl
    | type t =>
      have e : cl = [.loadT t] := hsl
      exact plain acc (.loadT t) (.loadK k2) (by rw [e, ecr]; simp)
        (by have := rest [] (.loadT t) e rfl rfl rfl; simpa using this) rfl
    | reg r1 =>
      obtain ⟨e, h128⟩ := hsl
      rw [e, ecr, List.append_assoc] at h
      rw [show ([.loadR r1] ++ [.loadK k2] : List (Ins X)) = [.loadR r1, .loadK k2] from rfl, emitOp_two] at h
      have ho : optimize S.fold op acc (.loadR r1) (.loadK k2) = some (acc ++ [.opRK op (low8 r1) k2]) := by
        unfold optimize
        rw [if_neg hop]
        simp only [Ins.const?, Ins.reg?, if_pos h128]
      rw [ho] at h
      refine both (.opRK op (low8 r1) k2) (Option.some.inj h).symm ⟨rfl, rfl⟩ rfl rfl rfl ?_
      intro pc stk s
      have vl' : el s = _ := vl s
      have vr' : er s = _ := vr s
      simp only [exec, pushRes, low8_reg r1 h128, vl', Out.bind, vr']
    | const k1 =>
      have e : cl = [.loadK k1] := hsl
      rw [e, ecr, List.append_assoc] at h
      rw [show ([.loadK k1] ++ [.loadK k2] : List (Ins X)) = [.loadK k1, .loadK k2] from rfl, emitOp_two] at h
      have ho : optimize S.fold op acc (.loadK k1) (.loadK k2) = (S.fold op k1 k2).map fun k => acc ++ [.loadK k] := by
        unfold optimize
        rw [if_neg hop]
        rfl
      rw [ho] at h
      cases hk : S.fold op k1 k2 with
      | none => rw [hk] at h; cases h
      | some k =>
        rw [hk] at h
        have hsh : opShape S.fold op (.const k1) (.const k2) = .const k := by simp only [opShape, hk]
        have hval : ∀ s, ((el s).bind fun p => (er p.2).bind fun q => S.bin op p.1 q.1 q.2) = .ok (S.lit k, s) := by
          intro s
          have vl' : el s = _ := vl s
          have vr' : er s = _ := vr s
          simp only [vl', Out.bind, vr', hp k hk s]
        refine ⟨[.loadK k], (Option.some.inj h).symm, noMark_single ⟨rfl, rfl⟩, by rw [hsh]; rfl, by rw [hsh]; exact hval, ?_⟩
        refine correct_one _ _ ?_
        intro pc stk s
        rw [hval s]
        rfl
  | reg r2 =>
    obtain ⟨ecr, h128⟩ := hsr
    cases sl with
    | joinK => exact hp.elim
    | joinR => exact hp.elim
    | other =>
      obtain ⟨a, i, e, h1, h2⟩ := hsl
      exact viaR a i r2 e ecr h128 h1 h2 vr rfl
    | type t => exact viaR [] (.loadT t) r2 hsl ecr h128 rfl rfl vr rfl
    | reg r1 =>
      obtain ⟨e, h128'⟩ := hsl
      rw [e, ecr, List.append_assoc] at h
      rw [show ([.loadR r1] ++ [.loadR r2] : List (Ins X)) = [.loadR r1, .loadR r2] from rfl, emitOp_two] at h
      have ho : optimize S.fold op acc (.loadR r1) (.loadR r2) = some (acc ++ [.opRR op (low8 r1) (pack r2)]) := by
        unfold optimize
        rw [if_neg hop]
        simp only [Ins.const?, Ins.reg?, if_pos h128, if_pos h128']
      rw [ho] at h
      refine both (.opRR op (low8 r1) (pack r2)) (Option.some.inj h).symm ⟨rfl, rfl⟩ rfl rfl rfl ?_
      intro pc stk s
      have vl' : el s = _ := vl s
      have vr' : er s = _ := vr s
      simp only [exec, pushRes, low8_reg r1 h128', unpack_pack r2 h128, vl', Out.bind, vr']
    | const k1 =>
      have e : cl = [.loadK k1] := hsl
      rw [e, ecr, List.append_assoc] at h
      rw [show ([.loadK k1] ++ [.loadR r2] : List (Ins X)) = [.loadK k1, .loadR r2] from rfl, emitOp_two] at h
      have ho : optimize S.fold op acc (.loadK k1) (.loadR r2) = some (acc ++ [.opKR op (low8 r2) k1]) := by
        unfold optimize
        rw [if_neg hop]
        simp only [Ins.const?, Ins.reg?, if_pos h128]
      rw [ho] at h
      refine both (.opKR op (low8 r2) k1) (Option.some.inj h).symm ⟨rfl, rfl⟩ rfl rfl rfl ?_
      intro pc stk s
      have vl' : el s = _ := vl s
      have vr' : er s = _ := vr s
      simp only [exec, pushRes, low8_reg r2 h128, vl', Out.bind, vr']

end
end Verif.Comp
