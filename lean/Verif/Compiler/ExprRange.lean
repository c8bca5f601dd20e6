import Verif.Compiler.ExprProof
/-
Lemmas for C28-C30: the jumps in the code of any accepted expression stay inside it, and the code is not empty.
-/
namespace Verif.Comp
open Verif Verif.Vm

variable {X : Type}

/-- Offset of a jump. -/
def Ins.off? : Ins X → Option Int
  | .jmp o => some o
  | .jnt o => some o
  | .jt o => some o
  | _ => none

/-- Load the optimiser looks at. -/
def Ins.isLoad (i : Ins X) : Bool := i.const?.isSome || i.reg?.isSome

/-- Jumps go forward, at most to the end. -/
def InR : List (Ins X) → Prop
  | [] => True
  | i :: r => (∀ off, i.off? = some off → 1 ≤ off ∧ off ≤ (r.length : Int) + 1) ∧ InR r

/-- The last two instructions are not both loads. -/
def OneLoad (c : List (Ins X)) : Prop := ∀ pre i1 i2, c = pre ++ [i1, i2] → ¬(i1.isLoad = true ∧ i2.isLoad = true)

theorem inR_append {a b : List (Ins X)} (ha : InR a) (hb : InR b) : InR (a ++ b) := by
  induction a with
  | nil => exact hb
  | cons i a ih =>
    refine ⟨fun off h => ?_, ih ha.2⟩
    have := ha.1 off h
    show 1 ≤ off ∧ off ≤ (((a ++ b).length : Nat) : Int) + 1
    simp only [List.length_append]
    omega

theorem inR_one {i : Ins X} (h : i.off? = none) : InR [i] := ⟨fun off e => (by rw [h] at e; cases e), trivial⟩

theorem inR_swap {pre : List (Ins X)} {a x : Ins X} (h : InR (pre ++ [a])) (hx : x.off? = none) : InR (pre ++ [x]) := by
  induction pre with
  | nil => exact inR_one hx
  | cons i pre ih =>
    refine ⟨fun off e => ?_, ih h.2⟩
    have := h.1 off e
    simpa using this

theorem inR_left {pre b : List (Ins X)} (h : InR (pre ++ b)) : InR b := by
  induction pre with
  | nil => exact h
  | cons i pre ih => exact ih h.2

/-- The leaves of a tree from left to right. -/
def treeLeaves {α : Type u} : Tree α → List α
  | .leaf x => [x]
  | .node _ l r => treeLeaves l ++ treeLeaves r

theorem treeLeaves_flatten {α : Type u} (t : Tree α) : treeLeaves t = (flatten t).1 :: (flatten t).2.map Prod.snd := by
  induction t with
  | leaf x => rfl
  | node op l r ihl ihr => simp [treeLeaves, flatten, ihl, ihr]

theorem treeLeaves_resplit {α : Type u} (t : Tree α) : treeLeaves (resplit t) = treeLeaves t := by
  rw [treeLeaves_flatten, treeLeaves_flatten]
  unfold resplit
  rw [parse_flatten, flattenTokens_eq]

/-- What is known about the code of an operand. -/
structure OpCode (c : List (Ins X)) : Prop where
  ne : c ≠ []
  inR : InR c
  one : OneLoad c

theorem isLoad_off {i : Ins X} (h : i.isLoad = true) : i.off? = none := by
  cases i <;> first | rfl | cases h

theorem oneLoad_snoc {a : List (Ins X)} {i : Ins X} (h : i.isLoad = false) : OneLoad (a ++ [i]) := by
  intro pre i1 i2 e hl
  have : a ++ [i] = (pre ++ [i1]) ++ [i2] := by simpa using e
  have := (List.append_inj' this rfl).2
  cases this
  rw [h] at hl; exact absurd hl.2 (by simp)

theorem oneLoad_one {i : Ins X} : OneLoad [i] := by
  intro pre i1 i2 e
  have := congrArg List.length e
  simp at this

theorem oneLoad_join {a b : List (Ins X)} {m : Ins X} (hm : m.isLoad = false) (hb : b ≠ []) (ho : OneLoad b) : OneLoad (a ++ m :: b) := by
  intro pre i1 i2 e hl
  rcases List.eq_nil_or_concat b with rfl | ⟨b', y, rfl⟩
  · exact hb rfl
  · rw [List.concat_eq_append] at *
    rcases List.eq_nil_or_concat b' with rfl | ⟨b'', z, rfl⟩
    · have : (a ++ [m]) ++ [y] = (pre ++ [i1]) ++ [i2] := by simpa using e
      have h1 := List.append_inj' this rfl
      have h2 := (List.append_inj' h1.1 rfl).2
      cases h2
      rw [hm] at hl; exact absurd hl.1 (by simp)
    · rw [List.concat_eq_append] at *
      have : (a ++ m :: b'' ++ [z]) ++ [y] = (pre ++ [i1]) ++ [i2] := by simpa using e
      have h1 := List.append_inj' this rfl
      have h2 := (List.append_inj' h1.1 rfl).2
      cases h2; cases h1.2
      exact ho b'' _ _ (by simp) hl

theorem opCode_snoc {a : List (Ins X)} {i : Ins X} (ha : InR a) (hi : i.off? = none) (hl : i.isLoad = false) : OpCode (a ++ [i]) :=
  ⟨by simp, inR_append ha (inR_one hi), oneLoad_snoc hl⟩

/-- The operator behind two operands. -/
theorem emit_code {fold : BOp → Const → Const → Option Const} {op : BOp} {acc cl cr out : List (Ins X)} (hl : OpCode cl) (hr : OpCode cr)
    (h : emitOp fold op (acc ++ cl ++ cr) = some out) : ∃ c, out = acc ++ c ∧ OpCode c := by
  -- the last two instructions
  have hlast : ∃ pre i1 i2, cl ++ cr = pre ++ [i1, i2] ∧ (i1.isLoad = true → i2.isLoad = true → cr = [i2] ∧ cl = pre ++ [i1]) := by
    rcases List.eq_nil_or_concat cr with hn | ⟨cr', i2, hcr⟩
    · exact absurd hn hr.ne
    · rw [List.concat_eq_append] at hcr
      rcases List.eq_nil_or_concat cr' with rfl | ⟨cr'', i1, rfl⟩
      · rcases List.eq_nil_or_concat cl with hn | ⟨cl', i1, hcl⟩
        · exact absurd hn hl.ne
        · rw [List.concat_eq_append] at hcl
          exact ⟨cl', i1, i2, by rw [hcr, hcl]; simp, fun _ _ => ⟨by simpa using hcr, hcl⟩⟩
      · rw [List.concat_eq_append] at hcr
        refine ⟨cl ++ cr'', i1, i2, by rw [hcr]; simp, fun h1 h2 => ?_⟩
        exact absurd ⟨h1, h2⟩ (hr.one cr'' i1 i2 (by rw [hcr]; simp))
  obtain ⟨pre, i1, i2, e, hboth⟩ := hlast
  have hR : InR (pre ++ [i1, i2]) := e ▸ inR_append hl.inR hr.inR
  have e2 : emitOp fold op (acc ++ cl ++ cr) = optimize fold op (acc ++ pre) i1 i2 := by
    unfold emitOp
    rw [List.append_assoc, e]
    simp
  rw [e2] at h
  -- shrinking
  have hshrink : ∀ x : Ins X, i1.isLoad = true → i2.isLoad = true → x.off? = none → OpCode (pre ++ [x]) := by
    intro x h1 h2 hx
    obtain ⟨_, hcl⟩ := hboth h1 h2
    refine ⟨by simp, inR_swap (hcl ▸ hl.inR) hx, ?_⟩
    intro p a b e' hab
    have : pre ++ [x] = (p ++ [a]) ++ [b] := by simpa using e'
    have hp := (List.append_inj' this rfl).1
    exact hl.one p a i1 (by rw [hcl, hp]; simp) ⟨hab.1, h1⟩
  have hthree : ∀ o : BOp, OpCode (pre ++ [i1, i2, .op o]) := by
    intro o
    have := opCode_snoc (i := .op o) hR rfl rfl
    simpa using this
  have htwo : ∀ x : Ins X, x.off? = none → x.isLoad = false → OpCode (pre ++ [i1, x]) := by
    intro x hx hxl
    refine ⟨by simp, ?_, ?_⟩
    · have h' : InR ((pre ++ [i1]) ++ [i2]) := by simpa using hR
      have := inR_swap h' hx
      simpa using this
    · have := oneLoad_snoc (a := pre ++ [i1]) hxl
      simpa using this
  unfold optimize at h
  split at h
  · cases h
    exact ⟨pre ++ [i1, .inst i2.typeArg], by simp, htwo _ rfl rfl⟩
  · split at h
    · simp only [Option.map_eq_some_iff] at h
      obtain ⟨k, _, rfl⟩ := h
      exact ⟨_, by rw [List.append_assoc], hshrink _ (by simp [Ins.isLoad, *]) (by simp [Ins.isLoad, *]) rfl⟩
    · cases h; exact ⟨_, by rw [List.append_assoc], hshrink _ (by simp [Ins.isLoad, *]) (by simp [Ins.isLoad, *]) rfl⟩
    · cases h; exact ⟨_, by rw [List.append_assoc], hshrink _ (by simp [Ins.isLoad, *]) (by simp [Ins.isLoad, *]) rfl⟩
    · cases h; exact ⟨_, by rw [List.append_assoc], hshrink _ (by simp [Ins.isLoad, *]) (by simp [Ins.isLoad, *]) rfl⟩
    · cases h; exact ⟨_, by rw [List.append_assoc], hthree op⟩
    · cases h; exact ⟨_, by rw [List.append_assoc], htwo _ rfl rfl⟩
    · cases h; exact ⟨_, by rw [List.append_assoc], hthree op⟩

theorem opCode_mark {cl cr : List (Ins X)} {m : Ins X} (hl : OpCode cl) (hr : OpCode cr) (hm : m.isLoad = false) (ho : m.off? = none) :
    OpCode (cl ++ m :: cr) :=
  ⟨by simp, inR_append hl.inR (a := cl) (b := m :: cr) ⟨fun off e => (by rw [ho] at e; cases e), hr.inR⟩, oneLoad_join hm hr.ne hr.one⟩

theorem genTree_code {fold : BOp → Const → Const → Option Const} (t : Tree (List (Ins X))) (hl : ∀ l ∈ treeLeaves t, OpCode l) :
    ∀ acc out, genTree fold t acc = some out → ∃ c, out = acc ++ c ∧ OpCode c := by
  induction t with
  | leaf x =>
    intro acc out h
    cases h
    exact ⟨x, rfl, hl x (by simp [treeLeaves])⟩
  | node op l r ihl ihr =>
    intro acc out h
    have ihl := ihl (fun x hx => hl x (by simp [treeLeaves, hx]))
    have ihr := ihr (fun x hx => hl x (by simp [treeLeaves, hx]))
    simp only [genTree, Option.bind_eq_some_iff] at h
    obtain ⟨code1, h1, h⟩ := h
    obtain ⟨cl, rfl, Gl⟩ := ihl _ _ h1
    split at h
    · obtain ⟨cr, rfl, Gr⟩ := ihr _ _ h
      exact ⟨cl ++ .markAnd :: cr, by simp, opCode_mark Gl Gr rfl rfl⟩
    · split at h
      · obtain ⟨cr, rfl, Gr⟩ := ihr _ _ h
        exact ⟨cl ++ .markOr :: cr, by simp, opCode_mark Gl Gr rfl rfl⟩
      · simp only [Option.bind_eq_some_iff] at h
        obtain ⟨code2, h2, h⟩ := h
        obtain ⟨cr, rfl, Gr⟩ := ihr _ _ h2
        exact emit_code Gl Gr h

theorem link_inR (h : Bool) (own z : List (Ins X)) (ho : InR own) (hz : InR z) (hm : NoMark z)
    (h1 : 1 ≤ z.length) (h2 : h = true → own.any Ins.isMarkOr = true → 3 ≤ z.length) : InR (link h (own ++ z)) := by
  induction own with
  | nil =>
    have := link_noMark h z [] hm
    rw [List.append_nil] at this
    rw [List.nil_append, this]
    simpa [link] using hz
  | cons i own ih =>
    have ih := ih ho.2 (fun a b => h2 a (by simp [b]))
    have hlen := link_length h (own ++ z)
    rw [List.cons_append]
    cases i with
    | markAnd =>
      refine ⟨fun off e => ?_, ih⟩
      rw [hlen]
      have hl : (own ++ z).length = own.length + z.length := List.length_append
      split at e
      · rename_i j hj
        have := (List.findIdx?_eq_some_iff_getElem.mp hj).1
        cases e
        omega
      · cases e
        omega
    | markOr =>
      refine ⟨fun off e => ?_, ih⟩
      rw [hlen]
      have hl : (own ++ z).length = own.length + z.length := List.length_append
      cases e
      have := h2
      simp only [List.any_cons, Ins.isMarkOr, Bool.true_or, forall_const] at this
      split
      · rename_i hh
        have := this hh
        simp only [List.length_append]
        omega
      · omega
    | jmp o => exact ⟨fun off e => (by rw [hlen]; have := ho.1 off e; simp only [List.length_append]; omega), ih⟩
    | jnt o => exact ⟨fun off e => (by rw [hlen]; have := ho.1 off e; simp only [List.length_append]; omega), ih⟩
    | jt o => exact ⟨fun off e => (by rw [hlen]; have := ho.1 off e; simp only [List.length_append]; omega), ih⟩
    | loadK k => exact ⟨fun off e => (by cases e), ih⟩
    | loadR k => exact ⟨fun off e => (by cases e), ih⟩
    | loadG k => exact ⟨fun off e => (by cases e), ih⟩
    | loadT k => exact ⟨fun off e => (by cases e), ih⟩
    | op k => exact ⟨fun off e => (by cases e), ih⟩
    | opR k _ => exact ⟨fun off e => (by cases e), ih⟩
    | opRR k _ _ => exact ⟨fun off e => (by cases e), ih⟩
    | opRK k _ _ => exact ⟨fun off e => (by cases e), ih⟩
    | opKR k _ _ => exact ⟨fun off e => (by cases e), ih⟩
    | inst k => exact ⟨fun off e => (by cases e), ih⟩
    | un k => exact ⟨fun off e => (by cases e), ih⟩
    | app k _ => exact ⟨fun off e => (by cases e), ih⟩
    | ext k => exact ⟨fun off e => (by cases e), ih⟩

theorem any_false_noMark {c : List (Ins X)} (h1 : c.any Ins.isMarkAnd = false) (h2 : c.any Ins.isMarkOr = false) : NoMark c := by
  intro i hi
  rw [List.any_eq_false] at h1 h2
  exact ⟨by simpa using h2 i hi, by simpa using h1 i hi⟩

theorem finish_code {c : List (Ins X)} (hc : OpCode c) : OpCode (finish c) := by
  unfold finish
  cases ha : c.any Ins.isMarkAnd <;> cases ho : c.any Ins.isMarkOr
  · have hn := any_false_noMark ha ho
    have := finish_noMark c hn
    unfold finish at this
    rw [ha, ho] at this
    rw [this]; exact hc
  · simp only [logicTail, Bool.false_and, Bool.false_eq_true, if_false, if_true]
    refine ⟨fun h => ?_, link_inR _ _ _ hc.inR ⟨(by intro off e; cases e; simp), (by intro off e; cases e), trivial⟩
      (by intro i hi; simp at hi; rcases hi with rfl | rfl <;> exact ⟨rfl, rfl⟩) (by simp) (by simp), ?_⟩
    · have := congrArg List.length h; simp [link_length] at this
    · obtain ⟨a', e, _⟩ := link_append false c [.jmp 2, .loadK (.bool true)]
      rw [e]
      exact oneLoad_join (a := a') (m := .jmp 2) (b := [.loadK (.bool true)]) rfl (by simp) oneLoad_one
  · simp only [logicTail, Bool.and_false, Bool.false_eq_true, if_false, if_true]
    refine ⟨fun h => ?_, link_inR _ _ _ hc.inR ⟨(by intro off e; cases e; simp), (by intro off e; cases e), trivial⟩
      (by intro i hi; simp at hi; rcases hi with rfl | rfl <;> exact ⟨rfl, rfl⟩) (by simp) (fun _ h => by rw [ho] at h; cases h), ?_⟩
    · have := congrArg List.length h; simp [link_length] at this
    · obtain ⟨a', e, _⟩ := link_append true c [.jmp 2, .loadK (.bool false)]
      rw [e]
      exact oneLoad_join (a := a') (m := .jmp 2) (b := [.loadK (.bool false)]) rfl (by simp) oneLoad_one
  · simp only [logicTail, Bool.and_self, if_true]
    refine ⟨fun h => ?_, link_inR _ _ _ hc.inR ⟨(by intro off e; cases e; simp), (by intro off e; cases e), (by intro off e; cases e; simp), (by intro off e; cases e), trivial⟩
      (by intro i hi; simp at hi; rcases hi with rfl | rfl | rfl | rfl <;> exact ⟨rfl, rfl⟩) (by simp) (by simp), ?_⟩
    · have := congrArg List.length h; simp [link_length] at this
    · obtain ⟨a', e, _⟩ := link_append true c [.jmp 4, .loadK (.bool true), .jmp 2, .loadK (.bool false)]
      rw [e]
      have := oneLoad_join (a := a' ++ [.jmp 4, .loadK (.bool true)]) (m := .jmp 2) (b := [.loadK (.bool false)]) rfl (by simp) oneLoad_one
      simpa [link] using this

mutual
theorem treeOf_code {fold : BOp → Const → Const → Option Const} : (e : Ex) → (t : Tree (List (Ins X))) → treeOf fold e = some t →
    ∀ l ∈ treeLeaves t, OpCode l
  | .opd o, t, h => by
    simp only [treeOf, Option.map_eq_some_iff] at h
    obtain ⟨c, hc, rfl⟩ := h
    intro l hl
    simp only [treeLeaves, List.mem_singleton] at hl
    subst hl
    exact compOpd_code o _ hc
  | .bin op l r, t, h => by
    simp only [treeOf, Option.bind_eq_some_iff] at h
    obtain ⟨tl, hl, tr, hr, h⟩ := h
    cases h
    intro x hx
    rcases List.mem_append.mp hx with hx | hx
    · exact treeOf_code l tl hl x hx
    · exact treeOf_code r tr hr x hx
theorem compOpd_code {fold : BOp → Const → Const → Option Const} : (o : Opd) → (c : List (Ins X)) → compOpd fold o = some c → OpCode c
  | .lit k, c, h => by cases h; exact ⟨by simp, inR_one rfl, oneLoad_one⟩
  | .reg r, c, h => by cases h; exact ⟨by simp, inR_one rfl, oneLoad_one⟩
  | .glb x, c, h => by cases h; exact ⟨by simp, inR_one rfl, oneLoad_one⟩
  | .ty t, c, h => by cases h; exact ⟨by simp, inR_one rfl, oneLoad_one⟩
  | .app f args, c, h => by
    simp only [compOpd, Option.map_eq_some_iff] at h
    obtain ⟨d, hd, rfl⟩ := h
    exact opCode_snoc (compArgs_inR args _ hd) rfl rfl
  | .par u s, c, h => by
    simp only [compOpd, Option.map_eq_some_iff] at h
    obtain ⟨d, hd, rfl⟩ := h
    obtain ⟨d', rfl, G⟩ := compSub_code s [] d hd
    cases u with
    | none => exact G
    | some u => exact opCode_snoc G.inR rfl rfl
/-- The code of an expression. -/
theorem compSub_code {fold : BOp → Const → Const → Option Const} : (s : Sub) → (acc out : List (Ins X)) → compSub fold s acc = some out →
    ∃ c, out = acc ++ c ∧ OpCode c
  | .plain e, acc, out, h => by
    simp only [compSub, Option.bind_eq_some_iff, Option.map_eq_some_iff] at h
    obtain ⟨t, ht, d, hd, rfl⟩ := h
    obtain ⟨c, rfl, G⟩ := genTree_code _ (by rw [treeLeaves_resplit]; exact treeOf_code e t ht) _ _ hd
    rw [List.drop_left]
    exact ⟨_, rfl, finish_code G⟩
  | .tern cnd a b, acc, out, h => by
    simp only [compSub, Option.bind_eq_some_iff] at h
    obtain ⟨t, ht, d, hd, code1, h1, code2, h2, h⟩ := h
    obtain ⟨c, rfl, G⟩ := genTree_code _ (by rw [treeLeaves_resplit]; exact treeOf_code cnd t ht) _ _ hd
    rw [List.drop_left] at *
    have Gc := finish_code G
    generalize finish c = cc at *
    obtain ⟨ca, rfl, Ga⟩ := compSub_code a _ _ h1
    obtain ⟨cb, rfl, Gb⟩ := compSub_code b _ _ h2
    have n1 : (acc ++ cc ++ [(.jnt 0 : Ins X)] ++ ca).length + 1 - (acc ++ cc).length = ca.length + 2 := by
      simp only [List.length_append, List.length_cons, List.length_nil]; omega
    have n2 : (acc ++ cc ++ [(.jnt 0 : Ins X)] ++ ca ++ [(.jmp 0 : Ins X)] ++ cb).length - (acc ++ cc ++ [(.jnt 0 : Ins X)] ++ ca).length = cb.length + 1 := by
      simp only [List.length_append, List.length_cons, List.length_nil]; omega
    rw [tern_list, n1, n2] at h
    cases h
    refine ⟨cc ++ .jnt (ca.length + 2 : Nat) :: ca ++ .jmp (cb.length + 1 : Nat) :: cb, by simp, by simp, ?_, oneLoad_join rfl Gb.ne Gb.one⟩
    rw [List.append_assoc]
    refine inR_append Gc.inR ?_
    have h3 : InR (.jmp (cb.length + 1 : Nat) :: cb) := ⟨(by intro off e; cases e; omega), Gb.inR⟩
    refine ⟨?_, inR_append Ga.inR h3⟩
    intro off e
    cases e
    show (1 : Int) ≤ _ ∧ _ ≤ (((ca ++ .jmp (cb.length + 1 : Nat) :: cb).length : Nat) : Int) + 1
    simp only [List.length_append, List.length_cons]
    omega
theorem compArgs_inR {fold : BOp → Const → Const → Option Const} : (args : Args) → (c : List (Ins X)) → compArgs fold args = some c → InR c
  | .nil, c, h => by cases h; trivial
  | .cons s rest, c, h => by
    simp only [compArgs, Option.bind_eq_some_iff, Option.map_eq_some_iff] at h
    obtain ⟨d, hd, e, he, rfl⟩ := h
    obtain ⟨d', rfl, G⟩ := compSub_code s [] d hd
    exact inR_append G.inR (compArgs_inR rest _ he)
end

end Verif.Comp
