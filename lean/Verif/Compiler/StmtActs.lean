import Verif.Compiler.StmtSteps
/-
Lemmas for C27: expression statements and the values of `return`.
-/
namespace Verif.Comp
open Verif Verif.Vm

section
variable {B : Base} {cap halt : Nat} {P : List SI} {bt ct : Nat} {sc : List Nat}

/-- The run from `c` agrees with the result of an expression statement that ends at `pc'`; the operand stack then satisfies `K`. -/
def ActSim (B : Base) (cap halt : Nat) (P : List SI) (pc' : Nat) (sc : List Nat) (K : List B.S.Val → Prop) (c : Cfg B.S.Val B.SSt) :
    Out B.S.St → Prop
  | .ok s => ∃ stk, K stk ∧ Steps (B.mach cap halt) P c ⟨pc', stk, (s, sc)⟩
  | .err => Does (B.mach cap halt) P c .err
  | .ub => Does (B.mach cap halt) P c .ub

variable {pc' : Nat} {K : List B.S.Val → Prop}

theorem ActSim.after {c c' : Cfg B.S.Val B.SSt} {o : Out B.S.St} (h1 : Steps (B.mach cap halt) P c c')
    (h2 : ActSim B cap halt P pc' sc K c' o) : ActSim B cap halt P pc' sc K c o := by
  cases o with
  | ok s => obtain ⟨stk, hk, hs⟩ := h2; exact ⟨stk, hk, h1.trans hs⟩
  | err => exact Does.after (o := .err) h1 h2
  | ub => exact Does.after (o := .ub) h1 h2

theorem act_does {α : Type} {c : Cfg B.S.Val B.SSt} {o : Out α} {g : α → Cfg B.S.Val B.SSt} {f : α → Out B.S.St}
    (h : Does (B.mach cap halt) P c (o.map g)) (hf : ∀ a, o = .ok a → ActSim B cap halt P pc' sc K (g a) (f a)) :
    ActSim B cap halt P pc' sc K c (o.bind f) := by
  cases o with
  | ok a => exact ActSim.after h (hf a rfl)
  | err => exact h
  | ub => exact h

theorem act_map {α : Type} {c : Cfg B.S.Val B.SSt} {o : Out α} {g : α → Cfg B.S.Val B.SSt} {f : α → B.S.St}
    (h : Does (B.mach cap halt) P c (o.map g)) (hf : ∀ a, o = .ok a → ∃ stk, K stk ∧ Steps (B.mach cap halt) P (g a) ⟨pc', stk, (f a, sc)⟩) :
    ActSim B cap halt P pc' sc K c (o.map f) := by
  cases o with
  | ok a => obtain ⟨stk, hk, hs⟩ := hf a rfl; exact ⟨stk, hk, Steps.trans h hs⟩
  | err => exact h
  | ub => exact h

theorem act_mono {K' : List B.S.Val → Prop} {c : Cfg B.S.Val B.SSt} {o : Out B.S.St} (hk : ∀ stk, K stk → K' stk)
    (h : ActSim B cap halt P pc' sc K c o) : ActSim B cap halt P pc' sc K' c o := by
  cases o with
  | ok s => obtain ⟨stk, h1, h2⟩ := h; exact ⟨stk, hk _ h1, h2⟩
  | err => exact h
  | ub => exact h

theorem call_code {f : Nat} {args : Args} {c : List SI} (h : compSub B.S.fold (.plain (.opd (.app f args))) [] = some c)
    (hg : GoodSub B (.plain (.opd (.app f args)))) :
    ∃ ca, compArgs B.S.fold args = some ca ∧ c = ca ++ [.app f args.length] ∧
      CorrectArgs (B.mach cap halt) ca (evalArgs (B.mach cap halt) args) := by
  simp only [compSub, treeOf, compOpd, Option.bind_eq_some_iff, Option.map_eq_some_iff] at h
  obtain ⟨t, ⟨c0, ⟨ca, hca, rfl⟩, rfl⟩, d, hd, rfl⟩ := h
  have hw := hg.1; have hs := safeSub_mach (cap := cap) (halt := halt) _ hg.2
  simp only [WfSub, WfEx, WfOpd, SafeSub, SafeEx, SafeOpd] at hw hs
  obtain ⟨hm, ha⟩ := args_good (S := B.mach cap halt) args hw.2 hs ca hca
  refine ⟨ca, hca, ?_, ha⟩
  have : resplit (Tree.leaf (ca ++ [(.app f args.length : SI)])) = Tree.leaf (ca ++ [(.app f args.length : SI)]) :=
    resplit_grouped _ trivial
  rw [this] at hd
  cases hd
  simp only [List.nil_append, List.length_nil, List.drop_zero]
  exact finish_noMark _ (noMark_append hm (noMark_single ⟨rfl, rfl⟩))

theorem callSub_at {f : Nat} {args : Args} {ca : List SI} {p : Nat} (hca : compArgs B.S.fold args = some ca)
    (ha : CorrectArgs (B.mach cap halt) ca (evalArgs (B.mach cap halt) args)) (hat : At P p (ca ++ [.ext (.callR f args.length)]) bt ct)
    (stk : List B.S.Val) (s : B.S.St) :
    ActSim B cap halt P (p + (ca.length + 1)) sc (· = []) ⟨p, stk, (s, sc)⟩ ((evalSub B.S (.plain (.opd (.app f args))) s).map Prod.snd) := by
  obtain ⟨hat1, hat2⟩ := at_append.mp hat
  obtain ⟨hP, hl⟩ := at_noExt hat1 (compArgs_noExt args _ hca) (Nat.le_of_lt (at_lt hat (by simp)))
  have := ha (P.take p) (P.drop (p + ca.length)) stk (s, sc)
  rw [← hP, hl, evalArgs_mach] at this
  have hat2 := at_one hat2
  simp only [evalSub, evalEx, evalOpd]
  rw [map_bind]
  cases he : evalArgs B.S args s with
  | err => rw [he] at this; exact this
  | ub => rw [he] at this; exact this
  | ok q =>
    rw [he] at this
    refine ActSim.after this ?_
    have hlen := evalArgs_length args s q.1 q.2 he
    have h1 : ¬ (q.1.reverse ++ stk).length < args.length := by simp only [List.length_append, List.length_reverse]; omega
    have h3 : ((q.1.reverse ++ stk).take args.length).reverse = q.1 := by
      rw [List.take_append_of_le_length (by simp [hlen]), List.take_of_length_le (by simp [hlen]), List.reverse_reverse]
    show ActSim B cap halt P _ sc _ _ ((B.S.app f q.1 q.2).map Prod.snd)
    refine act_map (g := fun r => ⟨p + (ca.length + 1), [], (r.2, sc)⟩) (Does.one hat2 ?_) fun a _ => ⟨[], rfl, .refl _⟩
    simp only [exec, res, Base.exec, if_neg h1, h3, Nat.add_assoc]

theorem swap_of {c : List SI} {p f k : Nat} (d : List SI) (hc : c = d ++ [.app f k]) (hn : NoExt c)
    (hat : At P p (d ++ [.ext (.callR f k)]) bt ct) : Swap P (P.take p ++ c) (p + d.length) f k := by
  subst hc
  have hp : p < P.length := at_lt hat (by simp)
  obtain ⟨hat1, hat2⟩ := at_append.mp hat
  have hl : (P.take p).length = p := by simp; omega
  have hd : ∀ i, i < d.length → P[p + i]? = d[i]? := by
    intro i hi
    have hx : d[i]? = some d[i] := List.getElem?_eq_getElem _
    rw [hat1 i _ hx, hx, res_noExt ((noExt_of_append hn).1 _ (List.getElem_mem _))]
  refine ⟨by simp; omega, ?_, ?_, at_one hat2⟩
  · intro i hi
    by_cases h1 : i < p
    · rw [List.getElem?_append_left (by omega), List.getElem?_take_of_lt h1]
    · rw [List.getElem?_append_right (by omega), List.getElem?_append_left (by omega), hl, ← hd _ (by omega)]
      congr 1; omega
  · rw [List.getElem?_append_right (by omega), hl, List.getElem?_append_right (by omega)]
    rw [show p + d.length - p - d.length = 0 by omega]; rfl

theorem getLast_split {α : Type} {l : List α} {x : α} (h : l.getLast? = some x) : l.dropLast ++ [x] = l := by
  obtain ⟨ys, rfl⟩ := List.getLast?_eq_some_iff.mp h
  simp

theorem act_at {a : Act} {stmt rst : Bool} {c : List SI} {p : Nat} (hg : GoodAct B a) (h : compAct B.S.fold B.isCall stmt rst a = some c)
    (hat : At P p c bt ct) (stk : List B.S.Val) (s : B.S.St) :
    ActSim B cap halt P (p + c.length) sc (fun stk' => rst = true → lastActClean B stmt a → stk' = []) ⟨p, stk, (s, sc)⟩ (runAct B a s) := by
  cases a with
  | asg o r e =>
    simp only [compAct, Option.map_eq_some_iff] at h
    obtain ⟨d, hd, rfl⟩ := h
    obtain ⟨h1, h2⟩ := at_append.mp hat
    obtain ⟨h2, h3⟩ := at_cons.mp h2
    have h3 := at_one h3
    refine act_does (ev_at hg hd h1 stk s) fun q _ => ?_
    refine ActSim.after (c' := ⟨p + d.length + 1, B.ptr r :: q.1 :: stk, (q.2, sc)⟩) (Steps.step h2 rfl (.refl _)) ?_
    refine act_map (g := fun w => ⟨p + d.length + 1 + 1, if rst then [] else w.1 :: stk, (w.2, sc)⟩) (Does.one h3 rfl) fun w _ => ?_
    refine ⟨_, ?_, by simp only [List.length_append, List.length_cons, List.length_nil]; exact .refl _⟩
    intro hr _; rw [if_pos hr]
  | inc o r =>
    cases h
    obtain ⟨h2, h3⟩ := at_cons.mp hat
    have h3 := at_one h3
    refine ActSim.after (c' := ⟨p + 1, B.ptr r :: stk, (s, sc)⟩) (Steps.step h2 rfl (.refl _)) ?_
    refine act_map (g := fun w => ⟨p + 1 + 1, if rst then [] else w.1 :: stk, (w.2, sc)⟩) (Does.one h3 rfl) fun w _ => ?_
    refine ⟨_, ?_, .refl _⟩
    intro hr _; rw [if_pos hr]
  | eff e =>
    simp only [compAct, Option.map_eq_some_iff] at h
    obtain ⟨d, hd, rfl⟩ := h
    cases rst with
    | false =>
      simp only [Bool.false_eq_true, if_false] at hat ⊢
      refine act_map (ev_at hg hd hat stk s) fun q _ => ⟨_, fun h => absurd h (by simp), .refl _⟩
    | true =>
      rw [if_pos rfl] at hat ⊢
      have hreset : (resetLast B.isCall stmt d = d ++ [.ext .reset] ∨ (stmt = false ∧ resetLast B.isCall stmt d = d ∧ isCallSub B e = false)) →
          ActSim B cap halt P (p + (resetLast B.isCall stmt d).length) sc (fun stk' => true = true → lastActClean B stmt (.eff e) → stk' = [])
            ⟨p, stk, (s, sc)⟩ (runAct B (.eff e) s) := by
        rintro (hr | ⟨hs, hr, hc⟩)
        · rw [hr] at hat ⊢
          obtain ⟨h1, h2⟩ := at_append.mp hat
          refine act_map (ev_at hg hd h1 stk s) fun q _ => ⟨[], fun _ _ => rfl, ?_⟩
          exact .step (at_one h2) (by simp only [res, exec, Base.exec, List.length_append, List.length_cons, List.length_nil]; rfl) (.refl _)
        · rw [hr] at hat ⊢
          refine act_map (ev_at hg hd hat stk s) fun q _ => ⟨_, ?_, .refl _⟩
          intro _ h
          rcases h with h | h
          · rw [hc] at h; cases h
          · rw [hs] at h; exact absurd h.1 (by simp)
      have hcall : isCallSub B e = true → ∃ f args ca, e = .plain (.opd (.app f args)) ∧ B.isCall f = true ∧ compArgs B.S.fold args = some ca ∧
          d = ca ++ [.app f args.length] ∧ CorrectArgs (B.mach cap halt) ca (evalArgs (B.mach cap halt) args) := by
        intro hc
        unfold isCallSub at hc
        split at hc
        · obtain ⟨ca, h1, h2, h3⟩ := call_code (cap := cap) (halt := halt) hd hg
          exact ⟨_, _, ca, rfl, hc, h1, h2, h3⟩
        · cases hc
      have hsplit : (∃ d' f k, d = d' ++ [.app f k] ∧ B.isCall f = true) ∨ (resetLast B.isCall stmt d = (if stmt then d ++ [.ext .reset] else d) ∧ isCallSub B e = false) := by
        by_cases hx : ∃ d' f k, d = d' ++ [.app f k] ∧ B.isCall f = true
        · exact .inl hx
        · refine .inr ⟨?_, ?_⟩
          · unfold resetLast
            split
            · rename_i f k hl
              rw [if_neg]
              intro hf
              exact hx ⟨d.dropLast, f, k, (getLast_split hl).symm, hf⟩
            · rfl
          · cases hc : isCallSub B e with
            | false => rfl
            | true =>
              obtain ⟨f, args, ca, _, hf, _, hd', _⟩ := hcall hc
              exact absurd ⟨ca, f, _, hd', hf⟩ hx
      rcases hsplit with ⟨d', f, k, hd', hf⟩ | ⟨hr, hc⟩
      · have hr : resetLast B.isCall stmt d = d' ++ [.ext (.callR f k)] := by
          subst hd'
          unfold resetLast
          simp [hf]
        rw [hr] at hat ⊢
        by_cases hc : isCallSub B e = true
        · obtain ⟨f', args, ca, rfl, hf', hca, hd2, hargs⟩ := hcall hc
          rw [hd'] at hd2
          have := List.append_inj' hd2 rfl
          obtain ⟨rfl, h2⟩ := this
          cases h2
          have := callSub_at (sc := sc) hca hargs hat stk s
          simp only [List.length_append, List.length_singleton]
          exact act_mono (fun stk h _ _ => h) this
        · have hnot : ¬ lastActClean B stmt (.eff e) := by
            rintro (h | ⟨_, h⟩)
            · exact hc h
            · have := h d f k hd (by rw [hd']; simp)
              rw [hf] at this; cases this
          have W := swap_of d' hd' (compSub_noExt e [] d noExt_nil hd) hat
          obtain ⟨hcor, _⟩ := good_code (cap := cap) (halt := halt) hg hd
          have hp : p < P.length := at_lt hat (by simp)
          have hl : (P.take p).length = p := by simp; omega
          have := hcor (P.take p) [] stk (s, sc)
          rw [List.append_nil, hl, evalSub_mach] at this
          have hdl : d.length = d'.length + 1 := by rw [hd']; simp
          simp only [runAct]
          cases he : evalSub B.S e s with
          | ok q =>
            rw [he] at this
            obtain ⟨stk', hs⟩ := swap_out W this (by simp [Base.keep, Out.map]; omega)
            refine ⟨stk', fun _ h => absurd h hnot, ?_⟩
            have e1 : p + (d' ++ [(.ext (.callR f k) : SI)]).length = p + d.length := by simp [hdl]
            rw [e1]
            exact hs
          | err =>
            rw [he] at this
            obtain ⟨c1, i, h1, hi, hx⟩ := this
            obtain ⟨h1', hE, _⟩ := swap_fail W h1 hi
            obtain ⟨j, hj, hxj⟩ := hE hx
            exact ⟨c1, j, h1', hj, hxj⟩
          | ub =>
            rw [he] at this
            obtain ⟨c1, i, h1, hi, hx⟩ := this
            obtain ⟨h1', _, hE⟩ := swap_fail W h1 hi
            obtain ⟨j, hj, hxj⟩ := hE hx
            exact ⟨c1, j, h1', hj, hxj⟩
      · refine hreset ?_
        cases stmt with
        | true => exact .inl hr
        | false => exact .inr ⟨rfl, hr, hc⟩

theorem acts_at (stmt each : Bool) : (l : List Act) → GoodActs B l → (c : List SI) → compActs B.S.fold B.isCall stmt each l = some c →
    (p : Nat) → At P p c bt ct → (stk : List B.S.Val) → (s : B.S.St) →
    ActSim B cap halt P (p + c.length) sc (fun stk' => (l = [] → stk' = stk) ∧ (l ≠ [] → ActsClean B stmt l → stk' = []))
      ⟨p, stk, (s, sc)⟩ (runActs B l s)
  | [], _, c, h, p, _, stk, s => by
    cases h
    exact ⟨stk, ⟨fun _ => rfl, fun h => absurd rfl h⟩, .refl _⟩
  | a :: rest, hg, c, h, p, hat, stk, s => by
    simp only [compActs, Option.bind_eq_some_iff, Option.map_eq_some_iff] at h
    obtain ⟨c1, h1, c2, h2, rfl⟩ := h
    obtain ⟨hat1, hat2⟩ := at_append.mp hat
    have A := act_at (cap := cap) (halt := halt) (sc := sc) (hg a (by simp)) h1 hat1 stk s
    rw [runActs]
    cases hr : runAct B a s with
    | err => rw [hr] at A; exact A
    | ub => rw [hr] at A; exact A
    | ok s1 =>
      rw [hr] at A
      obtain ⟨stk1, hk1, hs1⟩ := A
      have ih := acts_at stmt each rest (fun b hb => hg b (List.mem_cons_of_mem _ hb)) c2 h2 _ hat2 stk1 s1
      refine ActSim.after hs1 ?_
      rw [List.length_append, ← Nat.add_assoc]
      refine act_mono ?_ ih
      intro stk2 ⟨ha, hb⟩
      refine ⟨by simp, fun _ hc => ?_⟩
      cases rest with
      | nil => rw [ha rfl]; exact hk1 (by simp) hc
      | cons b rest => exact hb (by simp) hc

/-- With the mode of `Junk`. -/
theorem acts_junk {stmt each : Bool} {l : List Act} {m : Bool} {c : List SI} {p : Nat} (hg : GoodActs B l)
    (hc : m = true → ActsClean B stmt l) (h : compActs B.S.fold B.isCall stmt each l = some c) (hat : At P p c bt ct)
    (stk : List B.S.Val) (s : B.S.St) (hj : Junk m stk) :
    ActSim B cap halt P (p + c.length) sc (Junk m) ⟨p, stk, (s, sc)⟩ (runActs B l s) := by
  refine act_mono ?_ (acts_at stmt each l hg c h p hat stk s)
  intro stk' ⟨h1, h2⟩ hm
  by_cases hl : l = []
  · rw [h1 hl]; exact hj hm
  · exact h2 hl (hc hm)

/-- The values of `return`. -/
theorem list_at : (es : List Sub) → (∀ e ∈ es, GoodSub B e) → (c : List SI) → compList B.S.fold es = some c → (p : Nat) → At P p c bt ct →
    (stk : List B.S.Val) → (s : B.S.St) →
    Does (B.mach cap halt) P ⟨p, stk, (s, sc)⟩ ((evalList B es s).map fun q => ⟨p + c.length, q.1.reverse ++ stk, (q.2, sc)⟩)
  | [], _, c, h, p, _, stk, s => by cases h; exact .refl _
  | e :: rest, hg, c, h, p, hat, stk, s => by
    simp only [compList, Option.bind_eq_some_iff, Option.map_eq_some_iff] at h
    obtain ⟨c1, h1, c2, h2, rfl⟩ := h
    obtain ⟨hat1, hat2⟩ := at_append.mp hat
    rw [evalList, map_bind]
    refine Does.bind (ev_at (hg e (by simp)) h1 hat1 stk s) fun q _ => ?_
    have ih := list_at rest (fun b hb => hg b (List.mem_cons_of_mem _ hb)) c2 h2 _ hat2 (q.1 :: stk) q.2
    rw [map_map]
    cases he : evalList B rest q.2 with
    | ok w =>
      rw [he] at ih
      simp only [Out.map, Function.comp, List.length_append, List.reverse_cons, List.append_assoc, List.singleton_append] at ih ⊢
      rw [← Nat.add_assoc]; exact ih
    | err => rw [he] at ih; exact ih
    | ub => rw [he] at ih; exact ih

end
end Verif.Comp
