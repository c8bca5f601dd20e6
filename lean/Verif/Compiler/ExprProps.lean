import Verif.Compiler.ExprProof
import Verif.Compiler.ExprVm
import Verif.Compiler.FoldProps
/-
C26: the code of an expression computes the value of the expression. Specification: `ExprSpec.lean`.
-/
namespace Verif.Comp
open Verif Verif.Vm

section
variable {X : Type} {S : Sem X}

/-- **C26** for every machine, every nesting and every operator, except where the peephole optimiser reaches into a join
(`SafeSub`). What is missing for the full claim `ExprCorrect` is refuted below. -/
theorem expression_correct_partial (t : Sub) (code : List (Ins X)) (hw : WfSub t) (hs : SafeSub S t)
    (h : compSub S.fold t [] = some code) : Correct S code (evalSub S t) := by
  obtain ⟨c, e, G⟩ := sub_good t hw hs [] code (.inl rfl) h
  rw [List.nil_append] at e
  rw [e]
  exact G.ok

/-- Read out for one execution: from the first instruction of the code, with any stack and any state, the machine gets behind
the code with exactly one more value on the stack, the value of the expression. -/
theorem expression_value_partial (t : Sub) (code : List (Ins X)) (hw : WfSub t) (hs : SafeSub S t)
    (h : compSub S.fold t [] = some code) (stk : List S.Val) (s s' : S.St) (v : S.Val) (hv : evalSub S t s = .ok (v, s')) :
    Steps S code ⟨0, stk, s⟩ ⟨code.length, v :: stk, s'⟩ := by
  have := expression_correct_partial t code hw hs h [] [] stk s
  rw [hv] at this
  simp only [List.nil_append, List.append_nil, List.length_nil, Nat.zero_add] at this
  exact this

/-- ... and if the rules of the language give an error, the machine stops with it. -/
theorem expression_error_partial (t : Sub) (code : List (Ins X)) (hw : WfSub t) (hs : SafeSub S t)
    (h : compSub S.fold t [] = some code) (stk : List S.Val) (s : S.St) (hv : evalSub S t s = .err) :
    ∃ c i, Steps S code ⟨0, stk, s⟩ c ∧ code[c.pc]? = some i ∧ exec S i c = .err := by
  have := expression_correct_partial t code hw hs h [] [] stk s
  rw [hv] at this
  simp only [List.nil_append, List.append_nil, List.length_nil] at this
  exact this

/-! ### Expressions without joins below an ordinary operator -/

/-- Neither a ternary nor `&&` / `||` at the top. -/
def TopPlain : Sub → Prop
  | .plain (.bin op _ _) => op ≠ .land ∧ op ≠ .lor
  | .plain (.opd _) => True
  | .tern _ _ _ => False

mutual
/-- Parentheses without prefix operator contain neither a ternary nor `&&` / `||` at their top. -/
def FlatEx : Ex → Prop
  | .opd o => FlatOpd o
  | .bin _ l r => FlatEx l ∧ FlatEx r
def FlatOpd : Opd → Prop
  | .app _ args => FlatArgs args
  | .par u t => FlatSub t ∧ (u = none → TopPlain t)
  | _ => True
def FlatSub : Sub → Prop
  | .plain e => FlatEx e
  | .tern c a b => FlatEx c ∧ FlatSub a ∧ FlatSub b
def FlatArgs : Args → Prop
  | .nil => True
  | .cons t rest => FlatSub t ∧ FlatArgs rest
end

/-- Folding gives the run-time value for all constants (C25). -/
def FoldOk (S : Sem X) : Prop := ∀ op a b k, S.fold op a b = some k → ∀ s, S.bin op (S.lit a) (S.lit b) s = .ok (S.lit k, s)

theorem pairOk_flat (hf : FoldOk S) (op : BOp) (a b : Shape) (ha : a ≠ .joinK ∧ a ≠ .joinR) (hb : b ≠ .joinK ∧ b ≠ .joinR) :
    PairOk S op a b := by
  cases a <;> cases b <;> first | trivial | exact (ha.1 rfl).elim | exact (ha.2 rfl).elim | exact (hb.1 rfl).elim | exact (hb.2 rfl).elim | (intro k hk; exact hf op _ _ k hk)

mutual
theorem flat_shape : (e : Ex) → FlatEx e → TopPlain (.plain e) → shapeEx S e ≠ .joinK ∧ shapeEx S e ≠ .joinR
  | .opd o, h, _ => by
    rw [shapeEx]; rw [FlatEx] at h; exact flat_shape_opd o h
  | .bin op l r, _, h => by
    have h' : op ≠ .land ∧ op ≠ .lor := h
    rw [shapeEx, if_neg (by rintro (rfl | rfl); exact h'.1 rfl; exact h'.2 rfl)]
    split
    · simp
    · split
      · split <;> simp
      · simp
theorem flat_shape_opd : (o : Opd) → FlatOpd o → shapeOpd S o ≠ .joinK ∧ shapeOpd S o ≠ .joinR
  | .lit k, _ => by simp [shapeOpd]
  | .reg r, _ => by rw [shapeOpd]; split <;> simp
  | .glb x, _ => by simp [shapeOpd]
  | .ty t, _ => by simp [shapeOpd]
  | .app f a, _ => by simp [shapeOpd]
  | .par none (.plain e), h => by
    simp only [FlatOpd, FlatSub] at h
    rw [shapeOpd, shapeSub]
    exact flat_shape e h.1 (h.2 trivial)
  | .par none (.tern _ _ _), h => by
    simp only [FlatOpd] at h
    exact (h.2 trivial).elim
  | .par (some _) t, _ => by simp [shapeOpd]
end

mutual
theorem flat_safe_ex (hf : FoldOk S) : (e : Ex) → FlatEx e → Grouped (exTree e) → WfEx e → SafeEx S e
  | .opd o, h, _, w => by
    rw [FlatEx] at h; rw [SafeEx]; rw [WfEx] at w; exact flat_safe_opd hf o h w
  | .bin op l r, h, hg, w => by
    rw [FlatEx] at h
    rw [exTree] at hg
    rw [SafeEx]
    have wl : WfEx l := by
      by_cases h3 : op = .inst
      · subst h3; rw [WfEx] at w; exact w.1
      · exact (wf_bin op h3 l r w).1
    have wr : WfEx r := by
      by_cases h3 : op = .inst
      · subst h3
        rw [WfEx] at w
        obtain ⟨-, t, rfl⟩ := w
        simp only [WfEx, WfOpd]
      · exact (wf_bin op h3 l r w).2
    refine ⟨flat_safe_ex hf l h.1 hg.2.2.1 wl, flat_safe_ex hf r h.2 hg.2.2.2 wr, ?_⟩
    by_cases h1 : op = .land
    · exact .inl h1
    by_cases h2 : op = .lor
    · exact .inr (.inl h2)
    have key : ∀ e : Ex, AllOps (fun o => 2 ≤ group o) (exTree e) → TopPlain (.plain e) := by
      intro e he
      cases e with
      | opd o => trivial
      | bin o a b =>
        rw [exTree] at he
        have h2 : 2 ≤ group o := he.1
        exact ⟨by rintro rfl; exact absurd h2 (by decide), by rintro rfl; exact absurd h2 (by decide)⟩
    have g2 := group_normal op h1 h2
    refine .inr (.inr (.inr (pairOk_flat hf op _ _ (flat_shape l h.1 (key l ?_)) (flat_shape r h.2 (key r ?_)))))
    · exact allOps_mono (fun o h => by have h' : group op ≤ group o := h; show 2 ≤ group o; omega) _ (grouped_left hg)
    · exact allOps_mono (fun o h => by have h' : group op + 1 ≤ group o := h; show 2 ≤ group o; omega) _ (grouped_right hg)
theorem flat_safe_opd (hf : FoldOk S) : (o : Opd) → FlatOpd o → WfOpd o → SafeOpd S o
  | .lit k, _, _ => by simp [SafeOpd]
  | .reg r, _, _ => by simp [SafeOpd]
  | .glb x, _, _ => by simp [SafeOpd]
  | .ty t, _, _ => by simp [SafeOpd]
  | .app f a, h, w => by
    rw [FlatOpd] at h; rw [WfOpd] at w; rw [SafeOpd]; exact flat_safe_args hf a h w
  | .par u t, h, w => by
    rw [FlatOpd] at h; rw [WfOpd] at w; rw [SafeOpd]; exact flat_safe_sub hf t h.1 w
theorem flat_safe_sub (hf : FoldOk S) : (t : Sub) → FlatSub t → WfSub t → SafeSub S t
  | .plain e, h, w => by
    rw [FlatSub] at h; rw [WfSub] at w; rw [SafeSub]; exact flat_safe_ex hf e h w.1 w.2
  | .tern c a b, h, w => by
    rw [FlatSub] at h; rw [WfSub] at w; rw [SafeSub]
    exact ⟨flat_safe_ex hf c h.1 w.1.1 w.1.2, flat_safe_sub hf a h.2.1 w.2.1, flat_safe_sub hf b h.2.2 w.2.2⟩
theorem flat_safe_args (hf : FoldOk S) : (a : Args) → FlatArgs a → WfArgs a → SafeArgs S a
  | .nil, _, _ => by rw [SafeArgs]; trivial
  | .cons t rest, h, w => by
    rw [FlatArgs] at h; rw [WfArgs] at w; rw [SafeArgs]
    exact ⟨flat_safe_sub hf t h.1 w.1, flat_safe_args hf rest h.2 w.2⟩
end

/-- If folding agrees with the run-time operators, every expression whose plain parentheses contain no ternary and no `&&` / `||` at
their top is compiled correctly; ternaries, `&&`, `||` at the top of the expression, of arguments and of branches are allowed. -/
theorem flat_expression_correct (hf : FoldOk S) (t : Sub) (code : List (Ins X)) (hw : WfSub t) (hs : FlatSub t)
    (h : compSub S.fold t [] = some code) : Correct S code (evalSub S t) :=
  expression_correct_partial t code hw (flat_safe_sub hf t hs hw) h

/-! ### Acceptance -/

theorem emitOp_accepts {fold : BOp → Const → Const → Option Const} (hf : ∀ op a b, fold op a b ≠ none) (op : BOp) (code : List (Ins X)) :
    emitOp fold op code ≠ none := by
  unfold emitOp
  split
  · unfold optimize
    split
    · simp
    · split <;> first | (simp; done) | (simp only [ne_eq, Option.map_eq_none_iff]; exact hf _ _ _)
  · simp

theorem genTree_accepts {fold : BOp → Const → Const → Option Const} (hf : ∀ op a b, fold op a b ≠ none) :
    (t : Tree (List (Ins X))) → (code : List (Ins X)) → genTree fold t code ≠ none
  | .leaf c, code => by simp [genTree]
  | .node op l r, code => by
    rw [genTree]
    cases hl : genTree fold l code with
    | none => exact absurd hl (genTree_accepts hf l code)
    | some code1 =>
      simp only [Option.bind_some]
      split
      · exact genTree_accepts hf r _
      · split
        · exact genTree_accepts hf r _
        · cases hr : genTree fold r code1 with
          | none => exact absurd hr (genTree_accepts hf r code1)
          | some code2 => exact emitOp_accepts hf op code2

mutual
theorem treeOf_accepts {fold : BOp → Const → Const → Option Const} (hf : ∀ op a b, fold op a b ≠ none) :
    (e : Ex) → treeOf (X := X) fold e ≠ none
  | .opd o => by
    rw [treeOf]; simp only [ne_eq, Option.map_eq_none_iff]; exact compOpd_accepts hf o
  | .bin op l r => by
    rw [treeOf]
    cases hl : treeOf (X := X) fold l with
    | none => exact absurd hl (treeOf_accepts hf l)
    | some tl =>
      cases hr : treeOf (X := X) fold r with
      | none => exact absurd hr (treeOf_accepts hf r)
      | some tr => simp
theorem compOpd_accepts {fold : BOp → Const → Const → Option Const} (hf : ∀ op a b, fold op a b ≠ none) :
    (o : Opd) → compOpd (X := X) fold o ≠ none
  | .lit k => by simp [compOpd]
  | .reg r => by simp [compOpd]
  | .glb x => by simp [compOpd]
  | .ty t => by simp [compOpd]
  | .app f a => by
    rw [compOpd]; simp only [ne_eq, Option.map_eq_none_iff]; exact compArgs_accepts hf a
  | .par u t => by
    rw [compOpd]; simp only [ne_eq, Option.map_eq_none_iff]; exact compSub_accepts hf t []
/-- The compiler rejects no expression unless folding two literals is an error. -/
theorem compSub_accepts {fold : BOp → Const → Const → Option Const} (hf : ∀ op a b, fold op a b ≠ none) :
    (t : Sub) → (code : List (Ins X)) → compSub (X := X) fold t code ≠ none
  | .plain e, code => by
    rw [compSub]
    cases hl : treeOf (X := X) fold e with
    | none => exact absurd hl (treeOf_accepts hf e)
    | some tl => simp only [Option.bind_some, ne_eq, Option.map_eq_none_iff]; exact genTree_accepts hf _ _
  | .tern c a b, code => by
    rw [compSub]
    cases hl : treeOf (X := X) fold c with
    | none => exact absurd hl (treeOf_accepts hf c)
    | some tl =>
      simp only [Option.bind_some]
      cases hg : genTree fold (resplit tl) code with
      | none => exact absurd hg (genTree_accepts hf _ _)
      | some cc =>
        simp only [Option.bind_some]
        cases ha : compSub (X := X) fold a (code ++ finish (cc.drop code.length) ++ [.jnt 0]) with
        | none => exact absurd ha (compSub_accepts hf a _)
        | some ca =>
          simp only [Option.bind_some]
          cases hb : compSub (X := X) fold b (ca ++ [.jmp 0]) with
          | none => exact absurd hb (compSub_accepts hf b _)
          | some cb => simp
theorem compArgs_accepts {fold : BOp → Const → Const → Option Const} (hf : ∀ op a b, fold op a b ≠ none) :
    (a : Args) → compArgs (X := X) fold a ≠ none
  | .nil => by simp [compArgs]
  | .cons t rest => by
    rw [compArgs]
    cases ha : compSub (X := X) fold t [] with
    | none => exact absurd ha (compSub_accepts hf t [])
    | some c =>
      simp only [Option.bind_some, ne_eq, Option.map_eq_none_iff]
      exact compArgs_accepts hf rest
end

/-! ### Refutation of the full claim -/

/-- Execution is deterministic up to the end of the program. -/
theorem steps_unique {P : List (Ins X)} {a b c : Cfg S.Val S.St} (h1 : Steps S P a b) (h2 : Steps S P a c) (hb : P[b.pc]? = none)
    (hc : P[c.pc]? = none) : b = c := by
  induction h1 with
  | refl a =>
    cases h2 with
    | refl _ => rfl
    | step h e _ => rw [hb] at h; cases h
  | step h e _ ih =>
    cases h2 with
    | refl _ => rw [hc] at h; cases h
    | step h' e' r' =>
      rw [h] at h'
      cases h'
      rw [e] at e'
      cases e'
      exact ih r' hb

/-- A program that ends with another stack than the specification says. -/
theorem not_correct (code : List (Ins X)) (ev : S.St → Out (S.Val × S.St)) (s s' s'' : S.St) (v : S.Val) (stk : List S.Val)
    (hev : ev s = .ok (v, s')) (hrun : Steps S code ⟨0, [], s⟩ ⟨code.length, stk, s''⟩) (hne : stk ≠ [v]) : ¬ Correct S code ev := by
  intro h
  have h1 := h [] [] [] s
  rw [hev] at h1
  simp only [List.nil_append, List.append_nil, List.length_nil, Nat.zero_add] at h1
  have h2 : Steps S code ⟨0, [], s⟩ ⟨code.length, [v], s'⟩ := h1
  have := steps_unique hrun h2 (by simp) (by simp)
  injection this with _ h3 _
  exact hne h3

end

/-! The witnesses run on the virtual machine (`ExprVm.lean`), whatever floating point unit, heap and host. -/

theorem resplit_leaf {α : Type} (x : α) : resplit (.leaf x) = .leaf x := resplit_grouped _ trivial
theorem resplit_node {α : Type} (op : BOp) (x y : α) : resplit (.node op (.leaf x) (.leaf y)) = .node op (.leaf x) (.leaf y) :=
  resplit_grouped _ ⟨trivial, trivial, trivial, trivial⟩

/-- Locals: true, 10, 20, 1. -/
def locals : Nat → Stk
  | 0 => mkBool true
  | 1 => mkInt 10
  | 2 => mkInt 20
  | 3 => mkInt 1
  | 4 => mkBool false
  | _ => mkUndefined

abbrev lv (r : Nat) : Ex := .opd (.reg r)

/-- The witness programs. -/
def ternLeft : Sub := .plain (.bin .add (.opd (.par none (.tern (lv 0) (.plain (lv 1)) (.plain (lv 2))))) (lv 3))
def ternRight : Sub := .plain (.bin .add (lv 3) (.opd (.par none (.tern (lv 0) (.plain (lv 1)) (.plain (lv 2))))))
def orEqual : Sub := .plain (.bin .eq (.opd (.par none (.plain (.bin .lor (lv 4) (lv 0))))) (.opd (.lit (.bool false))))

theorem add_10_1 (h : Host) (s : Nat → Stk) : (vmSem h).bin .add (mkInt 10) (mkInt 1) s = .ok (mkInt 11, s) := by
  have e : runBin h.F h.m .add (mkInt 10) (mkInt 1) = .val (mkInt 11) := by
    unfold runBin arith
    exact (if_pos (by decide)).trans (by decide)
  show h.run (runBin h.F h.m .add (mkInt 10) (mkInt 1)) s = _
  rw [e]; rfl
theorem add_1_10 (h : Host) (s : Nat → Stk) : (vmSem h).bin .add (mkInt 1) (mkInt 10) s = .ok (mkInt 11, s) := by
  have e : runBin h.F h.m .add (mkInt 1) (mkInt 10) = .val (mkInt 11) := by
    unfold runBin arith
    exact (if_pos (by decide)).trans (by decide)
  show h.run (runBin h.F h.m .add (mkInt 1) (mkInt 10)) s = _
  rw [e]; rfl
theorem add_1_20 (h : Host) (s : Nat → Stk) : (vmSem h).bin .add (mkInt 1) (mkInt 20) s = .ok (mkInt 21, s) := by
  have e : runBin h.F h.m .add (mkInt 1) (mkInt 20) = .val (mkInt 21) := by
    unfold runBin arith
    exact (if_pos (by decide)).trans (by decide)
  show h.run (runBin h.F h.m .add (mkInt 1) (mkInt 20)) s = _
  rw [e]; rfl
theorem true_eq_false (h : Host) (s : Nat → Stk) : (vmSem h).bin .eq (mkBool true) (mkBool false) s = .ok (mkBool false, s) := by
  have e : runBin h.F h.m .eq (mkBool true) (mkBool false) = .val (mkBool false) := by
    unfold runBin Vm.compare
    rfl
  show h.run (runBin h.F h.m .eq (mkBool true) (mkBool false)) s = _
  rw [e]; rfl
theorem truth_true (h : Host) : (vmSem h).truth (mkBool true) = some true := (vmSem h).truth_bool true
theorem truth_false (h : Host) : (vmSem h).truth (mkBool false) = some false := (vmSem h).truth_bool false
theorem ne_11 : ([mkInt 10] : List Stk) ≠ [mkInt 11] := by decide
theorem ne_11' : ([mkInt 10, mkInt 1] : List Stk) ≠ [mkInt 11] := by decide
theorem ne_false : ([mkBool true] : List Stk) ≠ [mkBool false] := by decide

/-- `(c ? x : y) + z` with `c` true, `x` = 10, `z` = 1: the result is 10. -/
theorem ternary_left_violated (h : Host) : ¬ ExprCorrect (vmSem h) := by
  intro H
  refine not_correct (S := vmSem h) _ (evalSub (vmSem h) ternLeft) locals locals locals (mkInt 11) [mkInt 10] ?_ ?_ ne_11
    (H ternLeft [.loadR 0, .jnt 3, .loadR 1, .jmp 2, .opRR .add 2 (3 * 65536)] ?_ ?_)
  · have e : (vmSem h).truth ((vmSem h).reg 0 locals) = some true := truth_true h
    simp [ternLeft, evalSub, evalEx, evalOpd, Out.bind, e]
    exact add_10_1 h locals
  · refine .step rfl (c' := ⟨1, [mkBool true], locals⟩) rfl (.step rfl (c' := ⟨2, [], locals⟩) ?_
      (.step rfl (c' := ⟨3, [mkInt 10], locals⟩) rfl (.step rfl (c' := ⟨5, [mkInt 10], locals⟩) rfl (.refl _))))
    simp only [exec, truth_true]
    rfl
  · simp [ternLeft, WfSub, WfEx, WfOpd, exTree, Grouped, rootOk]
  · simp [ternLeft, compSub, treeOf, compOpd, resplit_leaf, resplit_node, genTree]
    exact ⟨_, rfl, rfl⟩

/-- `z + (c ? x : y)`, same values: two values are left on the stack, 10 on top (instead of 11). -/
theorem ternary_right_violated (h : Host) : ¬ ExprCorrect (vmSem h) := by
  intro H
  refine not_correct (S := vmSem h) _ (evalSub (vmSem h) ternRight) locals locals locals (mkInt 11) [mkInt 10, mkInt 1] ?_ ?_ ne_11'
    (H ternRight [.loadR 3, .loadR 0, .jnt 3, .loadR 1, .jmp 2, .opR .add 2] ?_ ?_)
  · have e : (vmSem h).truth ((vmSem h).reg 0 locals) = some true := truth_true h
    simp [ternRight, evalSub, evalEx, evalOpd, Out.bind, e]
    exact add_1_10 h locals
  · refine .step rfl (c' := ⟨1, [mkInt 1], locals⟩) rfl (.step rfl (c' := ⟨2, [mkBool true, mkInt 1], locals⟩) rfl
      (.step rfl (c' := ⟨3, [mkInt 1], locals⟩) ?_ (.step rfl (c' := ⟨4, [mkInt 10, mkInt 1], locals⟩) rfl
      (.step rfl (c' := ⟨6, [mkInt 10, mkInt 1], locals⟩) rfl (.refl _)))))
    simp only [exec, truth_true]
    rfl
  · simp [ternRight, WfSub, WfEx, WfOpd, exTree, Grouped, rootOk]
  · simp [ternRight, compSub, treeOf, compOpd, resplit_leaf, resplit_node, genTree]
    exact ⟨_, rfl, rfl⟩

/-- `(a || b) == false` with `a` false and `b` true: the result is `true`, the comparison is never executed. -/
theorem logic_equal_violated (h : Host) : ¬ ExprCorrect (vmSem h) := by
  intro H
  refine not_correct (S := vmSem h) _ (evalSub (vmSem h) orEqual) locals locals locals (mkBool false) [mkBool true] ?_ ?_ ne_false
    (H orEqual [.loadR 4, .jt 3, .loadR 0, .jmp 2, .loadK (.bool false)] ?_ ?_)
  · have e : (vmSem h).truth ((vmSem h).reg 4 locals) = some false := truth_false h
    simp [orEqual, evalSub, evalEx, evalOpd, Out.bind, e]
    exact true_eq_false h locals
  · refine .step rfl (c' := ⟨1, [mkBool false], locals⟩) rfl (.step rfl (c' := ⟨2, [], locals⟩) ?_
      (.step rfl (c' := ⟨3, [mkBool true], locals⟩) rfl (.step rfl (c' := ⟨5, [mkBool true], locals⟩) rfl (.refl _))))
    simp only [exec, truth_false]
    rfl
  · simp [orEqual, WfSub, WfEx, WfOpd, exTree, Grouped, rootOk]
  · have e : twoLastConst [(.loadR 4 : Ins Empty)] = false := rfl
    simp [orEqual, compSub, treeOf, compOpd, resplit_node, genTree, e]
    exact ⟨_, rfl, rfl⟩

/-- Only a sum with a string is folded to a string. -/
theorem fold_no_text (F : FloatOps) (m : Mem) (num : V → List UInt8) (op : BOp) (a b : Const)
    (hc : op = .add → (a.isStr || b.isStr) = false) (t : List UInt8) : fold F m num op a b ≠ .ok (.text t) := by
  intro h
  have he : ∀ e : Eff, effRes e ≠ .ok (.text t) := by intro e; cases e <;> simp [effRes]
  have hA : ∀ o, foldArith F o a b ≠ .ok (.text t) := by
    intro o; unfold foldArith; split <;> first | exact he _ | simp
  have hD : ∀ f, foldDiv F f a b ≠ .ok (.text t) := by
    intro f; unfold foldDiv; split
    · simp
    · split <;> simp
  have hB : ∀ o, foldBit o a b ≠ .ok (.text t) := by
    intro o; unfold foldBit; split <;> first | exact he _ | simp
  have hL : ∀ o, foldLogic o a b ≠ .ok (.text t) := by
    intro o; unfold foldLogic; split <;> simp
  have hC : ∀ o, foldCmp F m o a b ≠ .ok (.text t) := by
    intro o; unfold foldCmp; split <;> simp
  have hI : foldIn m a b ≠ .ok (.text t) := by unfold foldIn; split <;> simp
  cases op
  case add => rw [fold, if_neg (by rw [hc rfl]; simp)] at h; exact hA _ h
  all_goals first | exact hA _ h | exact hD _ h | exact hB _ h | exact hL .and h | exact hL .or h | exact hC _ h | exact hI h | cases h

/-- On the virtual machine the constant/constant clause of `PairOk` is C25: it holds for the literals `FoldSafe` describes. (A sum of
literals with a string is left out: at run time the operator makes a new string object.) -/
theorem vm_const_pair (h : Host) (op : BOp) (a b : Const) (wa : a.wf h.m) (wb : b.wf h.m) (hs : FoldSafe h.F h.m op a b)
    (hc : op = .add → (a.isStr || b.isStr) = false) : PairOk (vmSem h) op (.const a) (.const b) := by
  intro k hk s
  have hk' : foldConst h op a b = some k := hk
  unfold foldConst at hk'
  have key : ∀ v : V, fold h.F h.m h.num op a b = .ok (.val v) → runBin h.F h.m op (litStk a) (litStk b) = .val (enc v) := by
    intro v hv
    have := fold_transparent_partial h.F h.m h.num op a b a.isStr b.isStr _ wa wb hs hv
    have ea : held a.isStr a.asV = litStk a := by cases a <;> rfl
    have eb : held b.isStr b.asV = litStk b := by cases b <;> rfl
    rw [ea, eb] at this
    exact this
  show h.run (runBin h.F h.m op (litStk a) (litStk b)) s = _
  split at hk'
  · rename_i w hw; cases hk'; rw [key _ hw]; rfl
  · rename_i w hw; cases hk'; rw [key _ hw]; rfl
  · rename_i w hw; cases hk'; rw [key _ hw]; rfl
  · rename_i w hw; exact absurd hw (fold_no_text h.F h.m h.num op a b hc w)
  · cases hk'

/-! ### Concrete cases -/

/-- `x + y * 3 < 10 && !(c || d) ? f(x) : (y)`: hypotheses of the theorems. -/
def demo : Sub :=
  .tern (.bin .land (.bin .lt (.bin .add (lv 1) (.bin .mul (lv 2) (.opd (.lit (.int 3))))) (.opd (.lit (.int 10))))
      (.opd (.par (some .not) (.plain (.bin .lor (lv 0) (lv 4))))))
    (.plain (.opd (.app 7 (.cons (.plain (lv 1)) .nil)))) (.plain (.opd (.par none (.plain (lv 2)))))

example : WfSub demo := by
  simp [demo, WfSub, WfEx, WfOpd, WfArgs, exTree, Grouped, rootOk]
  decide
example : FlatSub demo := by
  simp [demo, FlatSub, FlatEx, FlatOpd, FlatArgs, TopPlain]
example (h : Host) : SafeSub (vmSem h) demo := by
  simp [demo, SafeSub, SafeEx, SafeOpd, SafeArgs, shapeEx, shapeOpd, shapeSub, PairOk]
/-- Code of `a || b && c ? x : y + 3`. -/
example (h : Host) : compSub (X := Empty) (vmSem h).fold
    (.tern (.bin .lor (lv 4) (.bin .land (lv 0) (lv 0))) (.plain (lv 1)) (.plain (.bin .add (lv 2) (.opd (.lit (.int 3)))))) [] =
    some [.loadR 4, .jt 5, .loadR 0, .jnt 5, .loadR 0, .jmp 4, .loadK (.bool true), .jmp 2, .loadK (.bool false), .jnt 3, .loadR 1,
      .jmp 2, .opRK .add 2 (.int 3)] := by
  have r : ∀ x y z : List (Ins Empty), resplit (.node .lor (.leaf x) (.node .land (.leaf y) (.leaf z))) =
      .node .lor (.leaf x) (.node .land (.leaf y) (.leaf z)) := fun x y z =>
    resplit_grouped _ (by simp [Grouped, rootOk]; decide)
  have e : twoLastConst [(.loadR 4 : Ins Empty)] = false := rfl
  have e' : twoLastConst [(.loadR 4 : Ins Empty), .markOr, .loadR 0] = false := rfl
  simp [compSub, treeOf, compOpd, resplit_leaf, resplit_node, r, genTree, e, e']
  rfl

/-- A machine for which folding and execution agree. -/
def sumMachine : Sem Empty where
  Val := Const
  St := Unit
  lit := id
  reg := fun r _ => .int (BitVec.ofNat 64 r)
  glb := fun _ _ => .err
  ty := fun t => .int (BitVec.ofNat 64 t)
  bin := fun op a b s => match op, a, b with | .add, .int x, .int y => .ok (.int (x + y), s) | _, _, _ => .err
  un := fun _ _ _ => .err
  inst := fun _ _ _ => .err
  app := fun _ _ _ => .err
  truth := fun v => match v with | .bool b => some b | _ => none
  truth_bool := fun _ => rfl
  fold := fun op a b => match op, a, b with | .add, .int x, .int y => some (.int (x + y)) | _, _, _ => none
  ext := fun x => x.elim

example : FoldOk sumMachine := by
  intro op a b k h s
  unfold sumMachine at h ⊢
  dsimp only at h ⊢
  split at h
  · cases h; rfl
  · cases h

/-- A register is stored as the low byte of its number. -/
theorem low8_byte (r : Nat) : low8 r = (BitVec.ofNat 8 r).toNat := by rw [BitVec.toNat_ofNat]; rfl

end Verif.Comp
