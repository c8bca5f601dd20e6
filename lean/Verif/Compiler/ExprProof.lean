import Verif.Compiler.ExprLogic
/-
C26: the code of an expression computes the value of the expression.
-/
namespace Verif.Comp
open Verif Verif.Vm

section
variable {X : Type} {S : Sem X}

/-! ### Groups inside a grouped tree -/

def AllOps {α : Type u} (p : BOp → Prop) : Tree α → Prop
  | .leaf _ => True
  | .node op l r => p op ∧ AllOps p l ∧ AllOps p r

theorem grouped_allOps {α : Type u} (n : Nat) (t : Tree α) (h : Grouped t) (hr : rootOk (fun o => n ≤ group o) t) :
    AllOps (fun o => n ≤ group o) t := by
  induction t with
  | leaf _ => trivial
  | node op l r ihl ihr =>
    obtain ⟨h1, h2, h3, h4⟩ := h
    have hn : n ≤ group op := hr
    refine ⟨hn, ihl h3 ?_, ihr h4 ?_⟩
    · cases l with
      | leaf _ => trivial
      | node o _ _ =>
        have h1' : weakness o ≤ weakness op := h1
        rw [weakness_group, weakness_group] at h1'
        have := group_le o; have := group_le op
        show n ≤ group o
        omega
    · cases r with
      | leaf _ => trivial
      | node o _ _ =>
        have h2' : weakness o < weakness op := h2
        rw [weakness_group, weakness_group] at h2'
        have := group_le o; have := group_le op
        show n ≤ group o
        omega

/-- Left operand of an operator of group `g`: groups at least `g`. -/
theorem grouped_left {α : Type u} {op : BOp} {l r : Tree α} (h : Grouped (.node op l r)) : AllOps (fun o => group op ≤ group o) l := by
  obtain ⟨h1, h2, h3, h4⟩ := h
  refine grouped_allOps _ l h3 ?_
  cases l with
  | leaf _ => trivial
  | node o _ _ =>
    have h1' : weakness o ≤ weakness op := h1
    rw [weakness_group, weakness_group] at h1'
    have := group_le o; have := group_le op
    show group op ≤ group o
    omega

/-- Right operand: groups above `g`. -/
theorem grouped_right {α : Type u} {op : BOp} {l r : Tree α} (h : Grouped (.node op l r)) : AllOps (fun o => group op + 1 ≤ group o) r := by
  obtain ⟨h1, h2, h3, h4⟩ := h
  refine grouped_allOps _ r h4 ?_
  cases r with
  | leaf _ => trivial
  | node o _ _ =>
    have h1' : weakness o < weakness op := h2
    rw [weakness_group, weakness_group] at h1'
    have := group_le o; have := group_le op
    show group op + 1 ≤ group o
    omega

theorem allOps_mono {α : Type u} {p q : BOp → Prop} (hpq : ∀ o, p o → q o) (t : Tree α) (h : AllOps p t) : AllOps q t := by
  induction t with
  | leaf _ => trivial
  | node op l r ihl ihr => exact ⟨hpq _ h.1, ihl h.2.1, ihr h.2.2⟩

theorem flattenTokens_eq {α : Type u} (t : Tree α) : resplit.flattenTokens t = flatten t := by
  induction t with
  | leaf _ => rfl
  | node op l r ihl ihr => simp only [resplit.flattenTokens, flatten, ihl, ihr]

theorem resplit_grouped {α : Type u} (t : Tree α) (h : Grouped t) : resplit t = t := by
  unfold resplit
  rw [flattenTokens_eq]
  exact (parse_unique t h).symm

theorem treeOf_bin {fold : BOp → Const → Const → Option Const} {op : BOp} {l r : Ex} {t : Tree (List (Ins X))}
    (h : treeOf fold (.bin op l r) = some t) :
    ∃ tl tr, treeOf fold l = some tl ∧ treeOf fold r = some tr ∧ t = .node op tl tr := by
  rw [treeOf] at h
  cases hl : treeOf (X := X) fold l with
  | none => rw [hl] at h; cases h
  | some tl =>
    cases hr : treeOf (X := X) fold r with
    | none => rw [hl, hr] at h; cases h
    | some tr => rw [hl, hr] at h; exact ⟨tl, tr, rfl, rfl, (Option.some.inj h).symm⟩

theorem treeOf_root {fold : BOp → Const → Const → Option Const} (e : Ex) (t : Tree (List (Ins X))) (h : treeOf fold e = some t)
    (p : BOp → Prop) (hp : rootOk p (exTree e)) : rootOk p t := by
  cases e with
  | opd o =>
    rw [treeOf] at h
    cases hc : compOpd (X := X) fold o with
    | none => rw [hc] at h; cases h
    | some c => rw [hc] at h; rw [← Option.some.inj h]; trivial
  | bin op l r =>
    obtain ⟨tl, tr, -, -, rfl⟩ := treeOf_bin h
    rw [exTree] at hp
    exact hp

theorem treeOf_grouped {fold : BOp → Const → Const → Option Const} : (e : Ex) → (t : Tree (List (Ins X))) → treeOf fold e = some t →
    Grouped (exTree e) → Grouped t
  | .opd o, t, h, _ => by
    rw [treeOf] at h
    cases hc : compOpd (X := X) fold o with
    | none => rw [hc] at h; cases h
    | some c => rw [hc] at h; rw [← Option.some.inj h]; trivial
  | .bin op l r, t, h, hg => by
    obtain ⟨tl, tr, hl, hr, rfl⟩ := treeOf_bin h
    rw [exTree] at hg
    obtain ⟨h1, h2, h3, h4⟩ := hg
    exact ⟨treeOf_root l tl hl _ h1, treeOf_root r tr hr _ h2, treeOf_grouped l tl hl h3, treeOf_grouped r tr hr h4⟩

/-! ### The induction -/

/-- Code of a complete operand. -/
structure Good (S : Sem X) (c : List (Ins X)) (sh : Shape) (ev : S.St → Out (S.Val × S.St)) : Prop where
  marks : NoMark c
  shape : HasShape c sh
  val : ShapeVal ev sh
  ok : Correct S c ev

/-- Code of an expression whose logical jumps are still open. -/
structure ExGood (S : Sem X) (e : Ex) (c : List (Ins X)) : Prop where
  frag : Frag S c (evalEx S e)
  normal : AllOps (fun o => 2 ≤ group o) (exTree e) → Good S c (shapeEx S e) (evalEx S e)
  noOr : AllOps (fun o => 1 ≤ group o) (exTree e) → hasOr c = false
  logic : (∃ l r, e = .bin .land l r ∨ e = .bin .lor l r) → hasAnd c = true ∨ hasOr c = true
  noTwo : ∀ acc, EndsOpen acc → twoLastConst (acc ++ c) = false

theorem endsOpen_snoc (a : List (Ins X)) (i : Ins X) (h : i.const? = none) : EndsOpen (a ++ [i]) := .inr ⟨a, i, rfl, h⟩

theorem noMark_hasOr {c : List (Ins X)} (h : NoMark c) : hasOr c = false := (noMark_any h).2

/-- An expression with complete code is also a fragment. -/
theorem exGood_of_good {e : Ex} {c : List (Ins X)} (h : Good S c (shapeEx S e) (evalEx S e))
    (hn : ¬ ∃ l r, e = .bin .land l r ∨ e = .bin .lor l r) : ExGood S e c where
  frag := frag_of_correct h.marks h.ok
  normal := fun _ => h
  noOr := fun _ => noMark_hasOr h.marks
  logic := fun h' => (hn h').elim
  noTwo := fun acc ha => h.shape.noTwo acc ha

theorem eval_bin (op : BOp) (h1 : op ≠ .land) (h2 : op ≠ .lor) (h3 : op ≠ .inst) (l r : Ex) (s : S.St) :
    evalEx S (.bin op l r) s = (evalEx S l s).bind fun p => (evalEx S r p.2).bind fun q => S.bin op p.1 q.1 q.2 := by
  cases op <;> first | contradiction | (simp only [evalEx])

theorem wf_bin (op : BOp) (h3 : op ≠ .inst) (l r : Ex) (h : WfEx (.bin op l r)) : WfEx l ∧ WfEx r := by
  cases op <;> first | contradiction | (simpa only [WfEx] using h)

theorem safe_bin (op : BOp) (h1 : op ≠ .land) (h2 : op ≠ .lor) (h3 : op ≠ .inst) (l r : Ex) (h : SafeEx S (.bin op l r)) :
    SafeEx S l ∧ SafeEx S r ∧ PairOk S op (shapeEx S l) (shapeEx S r) := by
  rw [SafeEx] at h
  refine ⟨h.1, h.2.1, ?_⟩
  rcases h.2.2 with h | h | h | h
  · exact (h1 h).elim
  · exact (h2 h).elim
  · exact (h3 h).elim
  · exact h

theorem group_normal (op : BOp) (h1 : op ≠ .land) (h2 : op ≠ .lor) : 2 ≤ group op := by
  cases op <;> first | contradiction | decide

theorem noTwo_mark (acc c d : List (Ins X)) (m : Ins X) (hm : m.const? = none)
    (h : ∀ acc, EndsOpen acc → twoLastConst (acc ++ d) = false) : twoLastConst (acc ++ (c ++ m :: d)) = false := by
  rw [show acc ++ (c ++ m :: d) = (acc ++ c ++ [m]) ++ d by simp]
  exact h _ (endsOpen_snoc _ _ hm)

/-- The values pushed by the code of an argument list. -/
def CorrectArgs (S : Sem X) (code : List (Ins X)) (ev : S.St → Out (List S.Val × S.St)) : Prop :=
  ∀ (pre post : List (Ins X)) (stk : List S.Val) (s : S.St),
    Does S (pre ++ code ++ post) ⟨pre.length, stk, s⟩ ((ev s).map fun p => ⟨pre.length + code.length, p.1.reverse ++ stk, p.2⟩)

theorem evalArgs_length : (args : Args) → (s : S.St) → (vs : List S.Val) → (s' : S.St) →
    evalArgs S args s = .ok (vs, s') → vs.length = args.length
  | .nil, s, vs, s', h => by
    rw [evalArgs] at h
    cases h; rfl
  | .cons t rest, s, vs, s', h => by
    rw [evalArgs] at h
    cases ht : evalSub S t s with
    | err => rw [ht] at h; cases h
    | ub => rw [ht] at h; cases h
    | ok p =>
      cases hr : evalArgs S rest p.2 with
      | err => rw [ht] at h; simp only [Out.bind, hr] at h; cases h
      | ub => rw [ht] at h; simp only [Out.bind, hr] at h; cases h
      | ok q =>
        rw [ht] at h
        simp only [Out.bind, hr] at h
        cases h
        simp only [List.length_cons, Args.length, evalArgs_length rest p.2 q.1 q.2 hr]

/-- The root of an expression: linking. -/
theorem finish_good (e : Ex) (hg : Grouped (exTree e)) (c : List (Ins X)) (G : ExGood S e c) :
    Good S (finish c) (shapeEx S e) (evalEx S e) := by
  by_cases hl : ∃ l r, e = .bin .land l r ∨ e = .bin .lor l r
  · obtain ⟨h1, h2⟩ := finish_correct G.frag (G.logic hl)
    have hsh : shapeEx S e = .joinK := by
      obtain ⟨l, r, rfl | rfl⟩ := hl <;> (rw [shapeEx]; rfl)
    rw [hsh]
    exact ⟨link_marks _ _, h2, trivial, h1⟩
  · have hn : AllOps (fun o => 2 ≤ group o) (exTree e) := by
      refine grouped_allOps 2 _ hg ?_
      cases e with
      | opd o => rw [exTree]; trivial
      | bin op l r =>
        rw [exTree]
        exact group_normal op (fun h => hl ⟨l, r, .inl (by rw [h])⟩) (fun h => hl ⟨l, r, .inr (by rw [h])⟩)
    have := G.normal hn
    rw [finish_noMark c this.marks]
    exact this

theorem set_mid {α : Type} (a : List α) (x y : α) (b : List α) : (a ++ x :: b).set a.length y = a ++ y :: b := by
  induction a with
  | nil => rfl
  | cons h t ih => simp only [List.cons_append, List.length_cons, List.set_cons_succ, ih]

theorem tern_list {α : Type} (a ca cb : List α) (x y n j : α) :
    ((a ++ [x] ++ ca ++ [y] ++ cb).set a.length n).set (a ++ [x] ++ ca).length j = a ++ n :: ca ++ j :: cb := by
  rw [show a ++ [x] ++ ca ++ [y] ++ cb = a ++ x :: (ca ++ [y] ++ cb) by simp, set_mid,
    show a ++ n :: (ca ++ [y] ++ cb) = (a ++ n :: ca) ++ y :: cb by simp,
    show (a ++ [x] ++ ca).length = (a ++ n :: ca).length by simp only [List.length_append, List.length_cons, List.length_nil]; omega,
    set_mid]

theorem join_shape (a c : List (Ins X)) (sh : Shape) (j : Ins X) (h : HasShape c sh) (h1 : j.const? = none) (h2 : j.reg? = none) :
    HasShape (a ++ j :: c) sh.join := by
  cases sh with
  | const k => rw [show c = [.loadK k] from h]; exact ⟨a, j, k, rfl, h1, h2⟩
  | reg r => rw [h.1]; exact ⟨a, j, r, rfl, h1, h2⟩
  | type t => rw [show c = [.loadT t] from h]; exact ⟨a ++ [j], .loadT t, by simp, rfl, rfl⟩
  | joinK => obtain ⟨b, i, k, rfl, g1, g2⟩ := h; exact ⟨a ++ j :: b, i, k, by simp, g1, g2⟩
  | joinR => obtain ⟨b, i, k, rfl, g1, g2⟩ := h; exact ⟨a ++ j :: b, i, k, by simp, g1, g2⟩
  | other => obtain ⟨b, i, rfl, g1, g2⟩ := h; exact ⟨a ++ j :: b, i, by simp, g1, g2⟩

/-- The code of `c ? a : b`. -/
theorem tern_correct (cc ca cb : List (Ins X)) (ec ea eb : S.St → Out (S.Val × S.St)) (hc : Correct S cc ec) (ha : Correct S ca ea)
    (hb : Correct S cb eb) (ev : S.St → Out (S.Val × S.St))
    (hev : ∀ s, ev s = (ec s).bind fun p =>
      match S.truth p.1 with
      | none => .err
      | some true => ea p.2
      | some false => eb p.2) :
    Correct S (cc ++ .jnt (ca.length + 2 : Nat) :: ca ++ .jmp (cb.length + 1 : Nat) :: cb) ev := by
  intro pre post stk s
  rw [hev, map_bind]
  generalize hn : (.jnt (ca.length + 2 : Nat) : Ins X) = n
  generalize hj : (.jmp (cb.length + 1 : Nat) : Ins X) = j
  have g1 := hc pre (n :: ca ++ j :: cb ++ post) stk s
  rw [show pre ++ cc ++ (n :: ca ++ j :: cb ++ post) = pre ++ (cc ++ n :: ca ++ j :: cb) ++ post by simp] at g1
  refine Does.bind g1 ?_
  intro p _
  have hat : (pre ++ (cc ++ n :: ca ++ j :: cb) ++ post)[pre.length + cc.length]? = some n := by
    rw [show pre ++ (cc ++ n :: ca ++ j :: cb) ++ post = (pre ++ cc) ++ n :: (ca ++ j :: cb ++ post) by simp, ← List.length_append]
    exact getElem_mid _ _ _
  have hlen : pre.length + (cc ++ n :: ca ++ j :: cb).length = pre.length + cc.length + 1 + ca.length + 1 + cb.length := by
    simp only [List.length_append, List.length_cons]; omega
  rw [hlen]
  cases ht : S.truth p.1 with
  | none =>
    refine Does.one hat ?_
    rw [← hn]
    simp only [exec, ht, Out.map]
  | some b =>
    cases b with
    | true =>
      refine Does.after (b := ⟨pre.length + cc.length + 1, stk, p.2⟩) (.step hat ?_ (.refl _)) ?_
      · rw [← hn]; simp only [exec, ht, if_true]
      · have g2 := ha (pre ++ cc ++ [n]) (j :: cb ++ post) stk p.2
        rw [show pre ++ cc ++ [n] ++ ca ++ (j :: cb ++ post) = pre ++ (cc ++ n :: ca ++ j :: cb) ++ post by simp,
          show (pre ++ cc ++ [n]).length = pre.length + cc.length + 1 by simp only [List.length_append, List.length_singleton]] at g2
        simp only []
        have e : (ea p.2).map (fun p => (⟨pre.length + cc.length + 1 + ca.length + 1 + cb.length, p.1 :: stk, p.2⟩ : Cfg S.Val S.St)) =
            (ea p.2).bind fun p => .ok ⟨pre.length + cc.length + 1 + ca.length + 1 + cb.length, p.1 :: stk, p.2⟩ := by
          cases ea p.2 <;> rfl
        rw [e]
        refine Does.bind g2 ?_
        intro q _
        refine Does.one (i := j) ?_ ?_
        · show (pre ++ (cc ++ n :: ca ++ j :: cb) ++ post)[pre.length + cc.length + 1 + ca.length]? = some j
          rw [show pre ++ (cc ++ n :: ca ++ j :: cb) ++ post = (pre ++ cc ++ [n] ++ ca) ++ j :: (cb ++ post) by simp,
            show pre.length + cc.length + 1 + ca.length = (pre ++ cc ++ [n] ++ ca).length by
              simp only [List.length_append, List.length_singleton]]
          exact getElem_mid _ _ _
        · rw [← hj]
          simp only [exec, jump]
          congr 2
          omega
    | false =>
      refine Does.after (b := ⟨pre.length + cc.length + 1 + ca.length + 1, stk, p.2⟩) (.step hat ?_ (.refl _)) ?_
      · rw [← hn]
        simp only [exec, ht, Bool.false_eq_true, if_false, jump]
        congr 2
        omega
      · have g2 := hb (pre ++ cc ++ [n] ++ ca ++ [j]) post stk p.2
        rw [show pre ++ cc ++ [n] ++ ca ++ [j] ++ cb ++ post = pre ++ (cc ++ n :: ca ++ j :: cb) ++ post by simp,
          show (pre ++ cc ++ [n] ++ ca ++ [j]).length = pre.length + cc.length + 1 + ca.length + 1 by
            simp only [List.length_append, List.length_singleton]] at g2
        exact g2

mutual
theorem ex_good : (e : Ex) → WfEx e → SafeEx S e → Grouped (exTree e) → (t : Tree (List (Ins X))) → treeOf S.fold e = some t →
    (acc out : List (Ins X)) → (AllOps (fun o => 2 ≤ group o) (exTree e) ∨ EndsOpen acc) → genTree S.fold t acc = some out → ∃ c, out = acc ++ c ∧ ExGood S e c
  | .opd o, hw, hs, _, t, ht, acc, out, ha, hg => by
    rw [treeOf] at ht
    cases hc : compOpd (X := X) S.fold o with
    | none => rw [hc] at ht; cases ht
    | some c =>
      rw [hc] at ht
      rw [← Option.some.inj ht, genTree] at hg
      rw [WfEx] at hw
      rw [SafeEx] at hs
      have := opd_good o hw hs c hc
      refine ⟨c, (Option.some.inj hg).symm, exGood_of_good ?_ ?_⟩
      · rw [shapeEx]
        exact ⟨this.marks, this.shape, by
          have hv := this.val
          cases hsh : shapeOpd S o <;> rw [hsh] at hv <;> first | trivial | (intro s; rw [evalEx]; exact hv s),
          correct_cast this.ok rfl (fun s => by rw [evalEx])⟩
      · rintro ⟨l, r, h | h⟩ <;> cases h
  | .bin op l r, hw, hs, hgr, t, ht, acc, out, ha, hg => by
    obtain ⟨tl, tr, hl, hr, rfl⟩ := treeOf_bin ht
    rw [exTree] at hgr
    have gl := grouped_left hgr
    have gr := grouped_right hgr
    rw [genTree] at hg
    have hleft := ex_good l
    have hright := ex_good r
    cases h1 : genTree S.fold tl acc with
    | none => rw [h1] at hg; cases hg
    | some o1 =>
      rw [h1] at hg
      simp only [Option.bind] at hg
      by_cases hland : op = .land
      · subst hland
        obtain ⟨wl, wr⟩ := wf_bin .land (by simp) l r hw
        replace ha : EndsOpen acc := by
          rcases ha with ha | ha
          · rw [exTree] at ha; exact absurd ha.1 (by decide)
          · exact ha
        rw [SafeEx] at hs
        obtain ⟨cl, rfl, Gl⟩ := hleft wl hs.1 hgr.2.2.1 tl hl acc o1 (.inr ha) h1
        rw [if_pos ⟨rfl, Gl.noTwo acc ha⟩] at hg
        obtain ⟨cr, rfl, Gr⟩ := hright wr hs.2.1 hgr.2.2.2 tr hr _ out (.inr (endsOpen_snoc _ _ rfl)) hg
        have nl := Gl.noOr gl
        have nr := Gr.noOr (allOps_mono (fun o h => by have h' : 2 ≤ group o := h; show 1 ≤ group o; omega) _ gr)
        refine ⟨cl ++ .markAnd :: cr, by simp, ?_⟩
        refine ⟨?_, ?_, ?_, ?_, ?_⟩
        · have := frag_land Gl.frag Gr.frag nl nr
          intro hA z pre post stk s h1 h2
          rw [evalEx]
          exact this hA z pre post stk s h1 h2
        · intro h; exact absurd h.1 (by decide)
        · intro _
          simp only [hasOr, List.any_append, List.any_cons] at nl nr ⊢
          rw [nl, nr]; rfl
        · intro _; left; simp [hasAnd, Ins.isMarkAnd]
        · intro acc' _; exact noTwo_mark _ _ _ _ rfl Gr.noTwo
      · rw [if_neg (fun h => hland h.1)] at hg
        by_cases hlor : op = .lor
        · subst hlor
          obtain ⟨wl, wr⟩ := wf_bin .lor (by simp) l r hw
          replace ha : EndsOpen acc := by
            rcases ha with ha | ha
            · rw [exTree] at ha; exact absurd ha.1 (by decide)
            · exact ha
          rw [SafeEx] at hs
          obtain ⟨cl, rfl, Gl⟩ := hleft wl hs.1 hgr.2.2.1 tl hl acc o1 (.inr ha) h1
          rw [if_pos ⟨rfl, Gl.noTwo acc ha⟩] at hg
          obtain ⟨cr, rfl, Gr⟩ := hright wr hs.2.1 hgr.2.2.2 tr hr _ out (.inr (endsOpen_snoc _ _ rfl)) hg
          refine ⟨cl ++ .markOr :: cr, by simp, ?_⟩
          refine ⟨?_, ?_, ?_, ?_, ?_⟩
          · have := frag_lor Gl.frag Gr.frag
            intro hA z pre post stk s h1 h2
            rw [evalEx]
            exact this hA z pre post stk s h1 h2
          · intro h; exact absurd h.1 (by decide)
          · intro h; exact absurd h.1 (by decide)
          · intro _; right; simp [hasOr, Ins.isMarkOr]
          · intro acc' _; exact noTwo_mark _ _ _ _ rfl Gr.noTwo
        · rw [if_neg (fun h => hlor h.1)] at hg
          have g2 := group_normal op hland hlor
          have nl : AllOps (fun o => 2 ≤ group o) (exTree l) :=
            allOps_mono (fun o h => by have h' : group op ≤ group o := h; show 2 ≤ group o; omega) _ gl
          have nr : AllOps (fun o => 2 ≤ group o) (exTree r) :=
            allOps_mono (fun o h => by have h' : group op + 1 ≤ group o := h; show 2 ≤ group o; omega) _ gr
          have nologic : ¬ ∃ a b, (Ex.bin op l r) = .bin .land a b ∨ (Ex.bin op l r) = .bin .lor a b := by
            rintro ⟨a, b, h | h⟩ <;> cases h
            · exact hland rfl
            · exact hlor rfl
          by_cases hinst : op = .inst
          · subst hinst
            rw [WfEx] at hw
            obtain ⟨wl, ty, rfl⟩ := hw
            rw [SafeEx] at hs
            obtain ⟨cl, rfl, Gl⟩ := hleft wl hs.1 hgr.2.2.1 tl hl acc o1 (.inl nl) h1
            have Nl := Gl.normal nl
            have htr : tr = .leaf [.loadT ty] := by
              rw [treeOf, compOpd] at hr
              exact (Option.some.inj hr).symm
            rw [htr, genTree] at hg
            simp only [Option.bind] at hg
            obtain ⟨a, i, hai⟩ : ∃ a i, cl = a ++ [i] := by
              have := Nl.shape.ne_nil
              exact ⟨cl.dropLast, cl.getLast this, (List.dropLast_concat_getLast this).symm⟩
            rw [show acc ++ cl ++ [.loadT ty] = (acc ++ a) ++ [i, .loadT ty] by rw [hai]; simp, emitOp_two] at hg
            unfold optimize at hg
            rw [if_pos rfl] at hg
            refine ⟨cl ++ [.inst ty], ?_, exGood_of_good ?_ nologic⟩
            · rw [← Option.some.inj hg, hai]; simp [Ins.typeArg]
            · have hsh : shapeEx S (.bin .inst l (.opd (.ty ty))) = .other := by
                rw [shapeEx]; rfl
              rw [hsh]
              refine ⟨noMark_append Nl.marks (noMark_single ⟨rfl, rfl⟩), ⟨cl, _, rfl, rfl, rfl⟩, trivial, ?_⟩
              refine correct_cast (correct_then cl (.inst ty) _ (fun v s => S.inst ty v s) Nl.ok ?_) rfl ?_
              · intro pc v stk s; simp only [exec, pushRes]
              · intro s; simp only [evalEx]
          · obtain ⟨wl, wr⟩ := wf_bin op hinst l r hw
            obtain ⟨sl, sr, hp⟩ := safe_bin op hland hlor hinst l r hs
            obtain ⟨cl, rfl, Gl⟩ := hleft wl sl hgr.2.2.1 tl hl acc o1 (.inl nl) h1
            have Nl := Gl.normal nl
            cases h2 : genTree S.fold tr (acc ++ cl) with
            | none => rw [h2] at hg; cases hg
            | some o2 =>
              rw [h2] at hg
              simp only [Option.bind] at hg
              obtain ⟨cr, rfl, Gr⟩ := hright wr sr hgr.2.2.2 tr hr (acc ++ cl) o2 (.inl nr) h2
              have Nr := Gr.normal nr
              obtain ⟨c, rfl, hm, hsh, hv, hc⟩ := emit_correct op hinst acc cl cr out _ _ _ _ Nl.shape Nr.shape Nl.val Nr.val
                Nl.ok Nr.ok Nl.marks Nr.marks hp hg
              refine ⟨c, rfl, exGood_of_good ?_ nologic⟩
              have hshape : shapeEx S (.bin op l r) = opShape S.fold op (shapeEx S l) (shapeEx S r) := by
                rw [shapeEx, if_neg (by rintro (h | h) <;> contradiction), if_neg hinst]; rfl
              have hfun : (fun s => evalEx S (.bin op l r) s) =
                  fun s => (evalEx S l s).bind fun p => (evalEx S r p.2).bind fun q => S.bin op p.1 q.1 q.2 :=
                funext fun s => eval_bin op hland hlor hinst l r s
              have hfun' : evalEx S (.bin op l r) =
                  fun s => (evalEx S l s).bind fun p => (evalEx S r p.2).bind fun q => S.bin op p.1 q.1 q.2 := hfun
              rw [hshape, hfun']
              exact ⟨hm, hsh, hv, hc⟩

theorem opd_good : (o : Opd) → WfOpd o → SafeOpd S o → (c : List (Ins X)) → compOpd S.fold o = some c →
    Good S c (shapeOpd S o) (evalOpd S o)
  | .lit k, _, _, c, h => by
    rw [compOpd] at h
    rw [← Option.some.inj h, shapeOpd]
    exact ⟨noMark_single ⟨rfl, rfl⟩, rfl, fun s => by rw [evalOpd], correct_one _ _ fun pc stk s => by rw [evalOpd]; rfl⟩
  | .reg r, _, _, c, h => by
    rw [compOpd] at h
    rw [← Option.some.inj h, shapeOpd]
    have hc : Correct S [.loadR r] (evalOpd S (.reg r)) := correct_one _ _ fun pc stk s => by rw [evalOpd]; rfl
    by_cases hr : r < 128
    · rw [if_pos hr]
      exact ⟨noMark_single ⟨rfl, rfl⟩, ⟨rfl, hr⟩, fun s => by rw [evalOpd], hc⟩
    · rw [if_neg hr]
      exact ⟨noMark_single ⟨rfl, rfl⟩, ⟨[], _, rfl, rfl, by simp only [Ins.reg?, if_neg hr]⟩, trivial, hc⟩
  | .glb x, _, _, c, h => by
    rw [compOpd] at h
    rw [← Option.some.inj h, shapeOpd]
    · exact ⟨noMark_single ⟨rfl, rfl⟩, ⟨[], _, rfl, rfl, rfl⟩, trivial, correct_one _ _ fun pc stk s => by rw [evalOpd]; rfl⟩
    all_goals (intros; contradiction)
  | .ty x, _, _, c, h => by
    rw [compOpd] at h
    rw [← Option.some.inj h, shapeOpd]
    exact ⟨noMark_single ⟨rfl, rfl⟩, rfl, trivial, correct_one _ _ fun pc stk s => by rw [evalOpd]; rfl⟩
  | .app f args, hw, hs, c, h => by
    rw [compOpd] at h
    rw [WfOpd] at hw
    rw [SafeOpd] at hs
    cases hc : compArgs (X := X) S.fold args with
    | none => rw [hc] at h; cases h
    | some ca =>
      rw [hc] at h
      rw [← Option.some.inj h, shapeOpd]
      · obtain ⟨hm, ha⟩ := args_good args hw hs ca hc
        refine ⟨noMark_append hm (noMark_single ⟨rfl, rfl⟩), ⟨ca, _, rfl, rfl, rfl⟩, trivial, ?_⟩
        intro pre post stk s
        rw [evalOpd, map_bind]
        have ha' := ha pre ([.app f args.length] ++ post) stk s
        rw [show pre ++ ca ++ ([.app f args.length] ++ post) = pre ++ (ca ++ [.app f args.length]) ++ post by simp] at ha'
        refine Does.bind ha' ?_
        intro p hp
        have hlen := evalArgs_length args s p.1 p.2 hp
        refine Does.one (i := .app f args.length) ?_ ?_
        · show (pre ++ (ca ++ [.app f args.length]) ++ post)[pre.length + ca.length]? = some _
          rw [show pre ++ (ca ++ [.app f args.length]) ++ post = (pre ++ ca) ++ .app f args.length :: post by simp,
            ← List.length_append]
          exact getElem_mid _ _ _
        · have h1 : ¬ (p.1.reverse ++ stk).length < args.length := by
            simp only [List.length_append, List.length_reverse]; omega
          have h2 : (p.1.reverse ++ stk).drop args.length = stk := by
            rw [List.drop_append_of_le_length (by simp [hlen]), List.drop_of_length_le (by simp [hlen])]; rfl
          have h3 : ((p.1.reverse ++ stk).take args.length).reverse = p.1 := by
            rw [List.take_append_of_le_length (by simp [hlen]), List.take_of_length_le (by simp [hlen]), List.reverse_reverse]
          simp only [exec]
          rw [if_neg h1]
          simp only [h2, h3, pushRes, List.length_append, List.length_singleton, Nat.add_assoc]
      all_goals (intros; contradiction)
  | .par none t, hw, hs, c, h => by
    rw [compOpd] at h
    rw [WfOpd] at hw
    rw [SafeOpd] at hs
    cases hc : compSub (X := X) S.fold t [] with
    | none => rw [hc] at h; cases h
    | some ct =>
      rw [hc] at h
      have hce : ct = c := Option.some.inj h
      subst hce
      obtain ⟨c', e, G⟩ := sub_good t hw hs [] ct (.inl rfl) hc
      rw [List.nil_append] at e
      subst e
      rw [shapeOpd]
      have hfun : evalOpd S (.par none t) = evalSub S t := funext fun s => by rw [evalOpd]
      rw [hfun]
      exact G
  | .par (some u) t, hw, hs, c, h => by
    rw [compOpd] at h
    rw [WfOpd] at hw
    rw [SafeOpd] at hs
    cases hc : compSub (X := X) S.fold t [] with
    | none => rw [hc] at h; cases h
    | some ct =>
      rw [hc] at h
      have hce : ct ++ [.un u] = c := Option.some.inj h
      subst hce
      obtain ⟨c', e, G⟩ := sub_good t hw hs [] ct (.inl rfl) hc
      rw [List.nil_append] at e
      subst e
      rw [shapeOpd]
      · refine ⟨noMark_append G.marks (noMark_single ⟨rfl, rfl⟩), ⟨ct, _, rfl, rfl, rfl⟩, trivial, ?_⟩
        refine correct_cast (correct_then ct (.un u) _ (fun v s => S.un u v s) G.ok ?_) rfl ?_
        · intro pc v stk s; simp only [exec, pushRes]
        · intro s; rw [evalOpd]
      all_goals (intros; rename_i h; first | contradiction | cases h)

theorem sub_good : (t : Sub) → WfSub t → SafeSub S t → (acc out : List (Ins X)) → EndsOpen acc →
    compSub S.fold t acc = some out → ∃ c, out = acc ++ c ∧ Good S c (shapeSub S t) (evalSub S t)
  | .plain e, hw, hs, acc, out, ha, h => by
    rw [compSub] at h
    rw [WfSub] at hw
    rw [SafeSub] at hs
    have hex := ex_good e hw.2 hs hw.1
    cases ht : treeOf (X := X) S.fold e with
    | none => rw [ht] at h; cases h
    | some t =>
      rw [ht] at h
      simp only [Option.bind] at h
      rw [resplit_grouped t (treeOf_grouped e t ht hw.1)] at h
      cases hg : genTree S.fold t acc with
      | none => rw [hg] at h; cases h
      | some o =>
        rw [hg] at h
        obtain ⟨c, rfl, G⟩ := hex t ht acc o (.inr ha) hg
        simp only [Option.map, List.drop_left] at h
        refine ⟨finish c, (Option.some.inj h).symm, ?_⟩
        have hfun : evalSub S (.plain e) = evalEx S e := funext fun s => by rw [evalSub]
        rw [hfun, shapeSub]
        exact finish_good e hw.1 c G
  | .tern cnd a b, hw, hs, acc, out, ha, h => by
    rw [compSub] at h
    rw [WfSub] at hw
    rw [SafeSub] at hs
    have hex := ex_good cnd hw.1.2 hs.1 hw.1.1
    have hA := sub_good a hw.2.1 hs.2.1
    have hB := sub_good b hw.2.2 hs.2.2
    cases ht : treeOf (X := X) S.fold cnd with
    | none => rw [ht] at h; cases h
    | some t =>
      rw [ht] at h
      simp only [Option.bind] at h
      rw [resplit_grouped t (treeOf_grouped cnd t ht hw.1.1)] at h
      cases hg : genTree S.fold t acc with
      | none => rw [hg] at h; cases h
      | some o =>
        rw [hg] at h
        obtain ⟨c, rfl, G⟩ := hex t ht acc o (.inr ha) hg
        simp only [List.drop_left] at h
        have Gc := finish_good cnd hw.1.1 c G
        generalize finish c = cc at h Gc
        cases h1 : compSub S.fold a (acc ++ cc ++ [.jnt 0]) with
        | none => rw [h1] at h; cases h
        | some o1 =>
          obtain ⟨ca, rfl, Ga⟩ := hA _ o1 (endsOpen_snoc _ _ rfl) h1
          rw [h1] at h
          simp only [] at h
          cases h2 : compSub S.fold b (acc ++ cc ++ [.jnt 0] ++ ca ++ [.jmp 0]) with
          | none => rw [h2] at h; cases h
          | some o2 =>
            obtain ⟨cb, rfl, Gb⟩ := hB _ o2 (endsOpen_snoc _ _ rfl) h2
            rw [h2] at h
            simp only [] at h
            refine ⟨cc ++ .jnt (ca.length + 2 : Nat) :: ca ++ .jmp (cb.length + 1 : Nat) :: cb, ?_, ?_⟩
            · rw [← Option.some.inj h]
              rw [tern_list]
              have n1 : (acc ++ cc ++ [(.jnt 0 : Ins X)] ++ ca).length + 1 - (acc ++ cc).length = ca.length + 2 := by
                simp only [List.length_append, List.length_cons, List.length_nil]; omega
              have n2 : (acc ++ cc ++ [(.jnt 0 : Ins X)] ++ ca ++ [(.jmp 0 : Ins X)] ++ cb).length - (acc ++ cc ++ [(.jnt 0 : Ins X)] ++ ca).length = cb.length + 1 := by
                simp only [List.length_append, List.length_cons, List.length_nil]; omega
              rw [n1, n2]
              simp
            · refine ⟨?_, ?_, ?_, ?_⟩
              · intro i hi
                simp only [List.mem_append, List.mem_cons] at hi
                rcases hi with (hi | hi | hi) | hi | hi
                · exact Gc.marks i hi
                · rw [hi]; exact ⟨rfl, rfl⟩
                · exact Ga.marks i hi
                · rw [hi]; exact ⟨rfl, rfl⟩
                · exact Gb.marks i hi
              · rw [shapeSub]
                exact join_shape _ cb _ _ Gb.shape rfl rfl
              · rw [shapeSub]
                cases shapeSub S b <;> trivial
              · exact tern_correct cc ca cb _ _ _ Gc.ok Ga.ok Gb.ok (evalSub S (.tern cnd a b)) (fun s => by rw [evalSub]; rfl)

theorem args_good : (args : Args) → WfArgs args → SafeArgs S args → (c : List (Ins X)) → compArgs S.fold args = some c →
    NoMark c ∧ CorrectArgs S c (evalArgs S args)
  | .nil, _, _, c, h => by
    rw [compArgs] at h
    rw [← Option.some.inj h]
    refine ⟨by intro i hi; simp at hi, ?_⟩
    intro pre post stk s
    rw [evalArgs]
    exact .refl _
  | .cons t rest, hw, hs, c, h => by
    rw [compArgs] at h
    rw [WfArgs] at hw
    rw [SafeArgs] at hs
    have hT := sub_good t hw.1 hs.1 []
    have hR := args_good rest hw.2 hs.2
    cases h1 : compSub (X := X) S.fold t [] with
    | none => rw [h1] at h; cases h
    | some ct =>
      cases h2 : compArgs (X := X) S.fold rest with
      | none => rw [h1, h2] at h; cases h
      | some cr =>
        rw [h1, h2] at h
        have hce : ct ++ cr = c := Option.some.inj h
        subst hce
        obtain ⟨c', e, G⟩ := hT ct (.inl rfl) h1
        rw [List.nil_append] at e
        subst e
        obtain ⟨hm, hc⟩ := hR cr h2
        refine ⟨noMark_append G.marks hm, ?_⟩
        intro pre post stk s
        rw [evalArgs, map_bind]
        have g1 := G.ok pre (cr ++ post) stk s
        rw [show pre ++ ct ++ (cr ++ post) = pre ++ (ct ++ cr) ++ post by simp] at g1
        refine Does.bind g1 ?_
        intro p _
        rw [map_bind]
        have g2 := hc (pre ++ ct) post (p.1 :: stk) p.2
        rw [show pre ++ ct ++ cr ++ post = pre ++ (ct ++ cr) ++ post by simp, List.length_append] at g2
        refine Does.bind g2 ?_
        intro q _
        simp only [Out.map, List.reverse_cons, List.length_append, List.append_assoc, List.singleton_append, Nat.add_assoc]
        exact .refl _
end

end
end Verif.Comp
