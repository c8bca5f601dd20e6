import Verif.Compiler.ExprLemmas
/-
Lemmas for C26: `&&` and `||`.
-/
namespace Verif.Comp
open Verif Verif.Vm

section
variable {X : Type} {S : Sem X}

/-- Where a decided `||` goes: the load of `true`. `E` = end of the linked code. -/
def trueLoc (hasAnd : Bool) (E : Nat) : Nat := E - if hasAnd then 3 else 1

/-- Where a decided `&&` goes: behind the next `||` jump, or to the load of `false`. `B` = position of `z`. -/
def falseLoc (z : List (Ins X)) (B E : Nat) : Nat :=
  match z.findIdx? Ins.isMarkOr with
  | some j => B + j + 1
  | none => E - 1

/-- Outcome of a run over a part of a logical expression: it falls through at `fin` with its value on the stack, or it jumped to
`tl` (only if it has `||` jumps) with value `true`, or to `fl` (only if it has `&&` jumps) with value `false`. -/
def FragAt (P : List (Ins X)) (c : Cfg S.Val S.St) (fin tl fl : Nat) (hasO hasA : Bool) : Out (S.Val × S.St) → Prop
  | .ok p =>
    Steps S P c ⟨fin, p.1 :: c.stk, p.2⟩ ∨
    (hasO = true ∧ p.1 = S.lit (.bool true) ∧ Steps S P c ⟨tl, c.stk, p.2⟩) ∨
    (hasA = true ∧ p.1 = S.lit (.bool false) ∧ Steps S P c ⟨fl, c.stk, p.2⟩)
  | .err => Does S P c .err
  | .ub => Does S P c .ub

theorem FragAt.after {P : List (Ins X)} {pc pc' : Nat} {stk : List S.Val} {s s' : S.St} {fin tl fl o a o' a' r}
    (h1 : Steps S P ⟨pc, stk, s⟩ ⟨pc', stk, s'⟩) (h2 : FragAt P ⟨pc', stk, s'⟩ fin tl fl o a r) (ho : o = true → o' = true)
    (ha : a = true → a' = true) : FragAt P ⟨pc, stk, s⟩ fin tl fl o' a' r := by
  cases r with
  | err => exact Does.after (o := .err) h1 h2
  | ub => exact Does.after (o := .ub) h1 h2
  | ok p =>
    rcases h2 with h2 | ⟨hn, hv, h2⟩ | ⟨hn, hv, h2⟩
    · exact .inl (h1.trans h2)
    · exact .inr (.inl ⟨ho hn, hv, h1.trans h2⟩)
    · exact .inr (.inr ⟨ha hn, hv, h1.trans h2⟩)

def hasOr (c : List (Ins X)) : Bool := c.any Ins.isMarkOr
def hasAnd (c : List (Ins X)) : Bool := c.any Ins.isMarkAnd

/-- `c` evaluates `ev` as part of a logical expression, whatever stands around it. -/
def Frag (S : Sem X) (c : List (Ins X)) (ev : S.St → Out (S.Val × S.St)) : Prop :=
  ∀ (hA : Bool) (z pre post : List (Ins X)) (stk : List S.Val) (s : S.St), 1 ≤ z.length → (hasOr c = true → hA = true → 3 ≤ z.length) →
    FragAt (pre ++ link hA (c ++ z) ++ post) ⟨pre.length, stk, s⟩ (pre.length + c.length)
      (trueLoc hA (pre.length + c.length + z.length))
      (falseLoc z (pre.length + c.length) (pre.length + c.length + z.length)) (hasOr c) (hasAnd c) (ev s)

theorem frag_of_correct {c : List (Ins X)} {ev : S.St → Out (S.Val × S.St)} (hm : NoMark c) (h : Correct S c ev) : Frag S c ev := by
  intro hA z pre post stk s _ _
  have := h pre (link hA z ++ post) stk s
  have e : pre ++ link hA (c ++ z) ++ post = pre ++ c ++ (link hA z ++ post) := by
    rw [link_noMark _ _ _ hm]; simp
  rw [e]
  cases he : ev s with
  | ok p => rw [he] at this; exact .inl this
  | err => rw [he] at this; exact this
  | ub => rw [he] at this; exact this

/-- Positions of the parts of linked code. -/
theorem linked_parts (hA : Bool) (cl rest pre post : List (Ins X)) (i : Ins X) :
    ∃ a', a'.length = cl.length ∧ pre ++ link hA (cl ++ i :: rest) ++ post = (pre ++ a') ++ (link hA (i :: rest) ++ post) := by
  obtain ⟨a', e, hl⟩ := link_append hA cl (i :: rest)
  exact ⟨a', hl, by rw [e]; simp⟩

/-- The right part of a logical operator, seen from the whole; `i` = the linked jump in between. -/
theorem frag_right {cl cr : List (Ins X)} {er : S.St → Out (S.Val × S.St)} (hr : Frag S cr er) (mark i : Ins X) (hA : Bool)
    (z pre post : List (Ins X)) (stk : List S.Val) (s s' : S.St) (hz1 : 1 ≤ z.length)
    (hz2 : hasOr (cl ++ mark :: cr) = true → hA = true → 3 ≤ z.length)
    (hi : link hA (mark :: (cr ++ z)) = i :: link hA (cr ++ z))
    (hstep : Steps S (pre ++ link hA (cl ++ mark :: (cr ++ z)) ++ post) ⟨pre.length, stk, s⟩ ⟨pre.length + cl.length + 1, stk, s'⟩) :
    FragAt (pre ++ link hA (cl ++ mark :: (cr ++ z)) ++ post) ⟨pre.length, stk, s⟩ (pre.length + (cl ++ mark :: cr).length)
      (trueLoc hA (pre.length + (cl ++ mark :: cr).length + z.length))
      (falseLoc z (pre.length + (cl ++ mark :: cr).length) (pre.length + (cl ++ mark :: cr).length + z.length))
      (hasOr (cl ++ mark :: cr)) (hasAnd (cl ++ mark :: cr)) (er s') := by
  have ho : hasOr cr = true → hasOr (cl ++ mark :: cr) = true := by
    intro h; simp only [hasOr, List.any_append, List.any_cons] at h ⊢; simp [h]
  have ha : hasAnd cr = true → hasAnd (cl ++ mark :: cr) = true := by
    intro h; simp only [hasAnd, List.any_append, List.any_cons] at h ⊢; simp [h]
  obtain ⟨a', hla, hP⟩ := linked_parts hA cl (cr ++ z) pre post mark
  have h2 := hr hA z (pre ++ a' ++ [i]) post stk s' hz1 (fun h h' => hz2 (ho h) h')
  have hlp : (pre ++ a' ++ [i]).length = pre.length + cl.length + 1 := by
    simp only [List.length_append, List.length_singleton, hla]
  have hPP : (pre ++ a' ++ [i]) ++ link hA (cr ++ z) ++ post = pre ++ link hA (cl ++ mark :: (cr ++ z)) ++ post := by
    rw [hP, hi]; simp
  rw [hPP, hlp] at h2
  have hE : pre.length + (cl ++ mark :: cr).length = pre.length + cl.length + 1 + cr.length := by
    simp only [List.length_append, List.length_cons]; omega
  rw [hE]
  exact FragAt.after hstep h2 ho ha

theorem frag_land {cl cr : List (Ins X)} {el er : S.St → Out (S.Val × S.St)} (hl : Frag S cl el) (hr : Frag S cr er)
    (nl : hasOr cl = false) (nr : hasOr cr = false) :
    Frag S (cl ++ .markAnd :: cr) (fun s => (el s).bind fun p =>
      match S.truth p.1 with
      | none => .err
      | some true => er p.2
      | some false => .ok (S.lit (.bool false), p.2)) := by
  intro hA z pre post stk s hz1 hz2
  have h1 := hl hA (.markAnd :: (cr ++ z)) pre post stk s (by simp) (by rw [nl]; simp)
  have e0 : cl ++ .markAnd :: cr ++ z = cl ++ .markAnd :: (cr ++ z) := by simp
  have hfl : ∀ B E, falseLoc (.markAnd :: (cr ++ z)) B E = falseLoc z (B + 1 + cr.length) E := by
    intro B E
    have : (.markAnd :: (cr ++ z) : List (Ins X)).findIdx? Ins.isMarkOr = (z.findIdx? Ins.isMarkOr).map (· + (1 + cr.length)) := by
      have h2 := nextOr_append (.markAnd :: cr) z (by simpa [Ins.isMarkOr, hasOr] using nr)
      rw [List.cons_append] at h2
      rw [h2, List.length_cons, Nat.add_comm cr.length 1]
    unfold falseLoc
    rw [this]
    cases z.findIdx? Ins.isMarkOr with
    | none => rfl
    | some j => simp only [Option.map]; omega
  obtain ⟨a', hla, hP⟩ := linked_parts hA cl (cr ++ z) pre post .markAnd
  have hlen2 : pre.length + (cl ++ .markAnd :: cr).length = pre.length + cl.length + 1 + cr.length := by
    simp only [List.length_append, List.length_cons]; omega
  have hE : pre.length + cl.length + (.markAnd :: (cr ++ z) : List (Ins X)).length = pre.length + cl.length + 1 + cr.length + z.length := by
    simp only [List.length_append, List.length_cons]; omega
  have ha : hasAnd (cl ++ .markAnd :: cr) = true := by simp [hasAnd, Ins.isMarkAnd]
  rw [hfl, hE] at h1
  rw [e0]
  have right := frag_right (cl := cl) hr .markAnd (match (cr ++ z).findIdx? Ins.isMarkOr with
            | some j => .jnt ((j : Int) + 2)
            | none => .jnt (cr ++ z).length) hA z pre post stk s
  have hat : (pre ++ link hA (cl ++ .markAnd :: (cr ++ z)) ++ post)[pre.length + cl.length]? =
      some (match (cr ++ z).findIdx? Ins.isMarkOr with
        | some j => .jnt ((j : Int) + 2)
        | none => .jnt (cr ++ z).length) := by
    rw [hP, ← hla, ← List.length_append]
    simp only [link, List.cons_append]
    exact getElem_mid _ _ _
  show FragAt _ _ _ _ _ _ _ (Out.bind (el s) _)
  cases he : el s with
  | err => rw [he] at h1; simp only [Out.bind]; exact h1
  | ub => rw [he] at h1; simp only [Out.bind]; exact h1
  | ok p =>
    rw [he] at h1
    simp only [Out.bind]
    rcases h1 with h1 | ⟨hn, -⟩ | ⟨hn, hv, h1⟩
    · cases ht : S.truth p.1 with
      | none =>
        refine Does.after (o := .err) h1 (Does.one hat ?_)
        cases (cr ++ z).findIdx? Ins.isMarkOr <;> simp only [exec, ht]
      | some b =>
        cases b with
        | false =>
          refine .inr (.inr ⟨ha, rfl, ?_⟩)
          refine h1.trans (.step hat ?_ (.refl _))
          rw [hlen2, ← hfl]
          have hcs : (.markAnd :: (cr ++ z) : List (Ins X)).findIdx? Ins.isMarkOr = ((cr ++ z).findIdx? Ins.isMarkOr).map (· + 1) := by
            rw [List.findIdx?_cons]; rfl
          unfold falseLoc
          rw [hcs]
          cases (cr ++ z).findIdx? Ins.isMarkOr with
          | none =>
            simp only [exec, ht, jump, Bool.false_eq_true, if_false, Option.map]
            congr 2
            simp only [List.length_append]
            omega
          | some j =>
            simp only [exec, ht, jump, Bool.false_eq_true, if_false, Option.map]
            congr 2
        | true =>
          refine right p.2 hz1 hz2 (by simp only [link]; cases (cr ++ z).findIdx? Ins.isMarkOr <;> rfl) (h1.trans (.step hat ?_ (.refl _)))
          cases (cr ++ z).findIdx? Ins.isMarkOr <;> simp only [exec, ht, if_true]
    · rw [nl] at hn; cases hn
    · rw [hv, S.truth_bool]
      rw [← hlen2] at h1
      exact .inr (.inr ⟨ha, rfl, h1⟩)

theorem frag_lor {cl cr : List (Ins X)} {el er : S.St → Out (S.Val × S.St)} (hl : Frag S cl el) (hr : Frag S cr er) :
    Frag S (cl ++ .markOr :: cr) (fun s => (el s).bind fun p =>
      match S.truth p.1 with
      | none => .err
      | some true => .ok (S.lit (.bool true), p.2)
      | some false => er p.2) := by
  intro hA z pre post stk s hz1 hz2
  have ho : hasOr (cl ++ .markOr :: cr) = true := by simp [hasOr, Ins.isMarkOr]
  have hz3 := hz2 ho
  have h1 := hl hA (.markOr :: (cr ++ z)) pre post stk s (by simp)
    (fun _ h => by have := hz3 h; simp only [List.length_cons, List.length_append]; omega)
  have e0 : cl ++ .markOr :: cr ++ z = cl ++ .markOr :: (cr ++ z) := by simp
  have hfl : ∀ B E, falseLoc (.markOr :: (cr ++ z)) B E = B + 1 := by
    intro B E; simp [falseLoc, List.findIdx?_cons, Ins.isMarkOr]
  obtain ⟨a', hla, hP⟩ := linked_parts hA cl (cr ++ z) pre post .markOr
  have hlen2 : pre.length + (cl ++ .markOr :: cr).length = pre.length + cl.length + 1 + cr.length := by
    simp only [List.length_append, List.length_cons]; omega
  have hE : pre.length + cl.length + (.markOr :: (cr ++ z) : List (Ins X)).length = pre.length + cl.length + 1 + cr.length + z.length := by
    simp only [List.length_append, List.length_cons]; omega
  rw [hfl, hE] at h1
  rw [e0]
  have right := frag_right (cl := cl) hr .markOr (.jt (if hA then ((cr ++ z).length : Int) - 2 else (cr ++ z).length)) hA z pre post stk s
  have hat : (pre ++ link hA (cl ++ .markOr :: (cr ++ z)) ++ post)[pre.length + cl.length]? =
      some (.jt (if hA then ((cr ++ z).length : Int) - 2 else (cr ++ z).length)) := by
    rw [hP, ← hla, ← List.length_append]
    simp only [link, List.cons_append]
    exact getElem_mid _ _ _
  show FragAt _ _ _ _ _ _ _ (Out.bind (el s) _)
  cases he : el s with
  | err => rw [he] at h1; simp only [Out.bind]; exact h1
  | ub => rw [he] at h1; simp only [Out.bind]; exact h1
  | ok p =>
    rw [he] at h1
    simp only [Out.bind]
    rcases h1 with h1 | ⟨hn, hv, h1⟩ | ⟨hn, hv, h1⟩
    · cases ht : S.truth p.1 with
      | none =>
        refine Does.after (o := .err) h1 (Does.one hat ?_)
        simp only [exec, ht]
      | some b =>
        cases b with
        | true =>
          refine .inr (.inl ⟨ho, rfl, ?_⟩)
          refine h1.trans (.step hat ?_ (.refl _))
          rw [hlen2]
          simp only [exec, ht, if_true, jump, trueLoc, List.length_append]
          congr 2
          cases hA
          · simp only [Bool.false_eq_true, if_false]; omega
          · have := hz3 rfl
            simp only [if_true]; omega
        | false =>
          refine right p.2 hz1 hz2 (by simp only [link]) (h1.trans (.step hat ?_ (.refl _)))
          simp only [exec, ht, Bool.false_eq_true, if_false]
    · rw [hv, S.truth_bool]
      rw [← hlen2] at h1
      exact .inr (.inl ⟨ho, rfl, h1⟩)
    · rw [hv, S.truth_bool]
      exact right p.2 hz1 hz2 (by simp only [link]) h1

/-- A whole logical expression: with its tail and its jumps linked it is correct code. -/
theorem finish_correct {c : List (Ins X)} {ev : S.St → Out (S.Val × S.St)} (h : Frag S c ev)
    (hm : hasAnd c = true ∨ hasOr c = true) :
    Correct S (finish c) ev ∧ HasShape (finish c) .joinK := by
  have hsuf : ∀ (hA : Bool) (t : List (Ins X)), NoMark t → ∃ a', link hA (c ++ t) = a' ++ t ∧ a'.length = c.length := by
    intro hA t ht
    obtain ⟨a', e, hl⟩ := link_append hA c t
    have := link_noMark hA t [] ht
    simp only [List.append_nil, link] at this
    exact ⟨a', by rw [e, this], hl⟩
  have main : ∀ (hA : Bool) (t : List (Ins X)), finish c = link hA (c ++ t) → NoMark t → 1 ≤ t.length →
      (hasOr c = true → hA = true → 3 ≤ t.length) → t[0]? = some (.jmp t.length) →
      (hasOr c = true → ∀ pre post a' stk s, (a' : List (Ins X)).length = c.length →
        Steps S (pre ++ (a' ++ t) ++ post) ⟨trueLoc hA (pre.length + c.length + t.length), stk, s⟩
          ⟨pre.length + (a' ++ t).length, S.lit (.bool true) :: stk, s⟩) →
      (hasAnd c = true → t[t.length - 1]? = some (.loadK (.bool false))) →
      (∃ b i k, t = b ++ [i, .loadK k] ∧ i.const? = none ∧ i.reg? = none) →
      Correct S (finish c) ev ∧ HasShape (finish c) .joinK := by
    intro hA t e ht hpos hz hj htrue hfalse hshape
    obtain ⟨a', ea, hla⟩ := hsuf hA t ht
    have hfn : t.findIdx? Ins.isMarkOr = none := by
      rw [List.findIdx?_eq_none_iff]
      intro i hi; exact (ht i hi).1
    refine ⟨?_, ?_⟩
    · rw [e, ea]
      intro pre post stk s
      have hr := h hA t pre post stk s hpos hz
      rw [ea] at hr
      cases hs : ev s with
      | err => rw [hs] at hr; exact hr
      | ub => rw [hs] at hr; exact hr
      | ok p =>
        rw [hs] at hr
        show Steps S _ _ ⟨_, p.1 :: stk, p.2⟩
        rcases hr with hr | ⟨hn, hv, hr⟩ | ⟨hn, hv, hr⟩
        · refine hr.trans (.step (i := .jmp t.length) ?_ ?_ (.refl _))
          · show (pre ++ (a' ++ t) ++ post)[pre.length + c.length]? = some _
            rw [show pre ++ (a' ++ t) ++ post = (pre ++ a') ++ (t ++ post) by simp, ← hla, ← List.length_append,
              List.getElem?_append_right (Nat.le_refl _), Nat.sub_self, List.getElem?_append_left hpos]
            exact hj
          · simp only [exec, jump, List.length_append, hla]
            congr 2
            omega
        · rw [hv]
          exact hr.trans (htrue hn pre post a' stk p.2 hla)
        · rw [hv]
          refine hr.trans (.step (i := .loadK (.bool false)) ?_ ?_ (.refl _))
          · show (pre ++ (a' ++ t) ++ post)[falseLoc t (pre.length + c.length) (pre.length + c.length + t.length)]? = some _
            unfold falseLoc
            rw [hfn]
            simp only []
            rw [show pre ++ (a' ++ t) ++ post = (pre ++ a') ++ (t ++ post) by simp, ← hla, ← List.length_append,
              List.getElem?_append_right (by omega), List.getElem?_append_left (by omega)]
            rw [← hfalse hn]
            congr 1
            omega
          · simp only [exec, pushRes, Out.map, falseLoc, hfn, List.length_append, hla]
            congr 2
            omega
    · rw [e, ea]
      obtain ⟨b, i, k, rfl, h1, h2⟩ := hshape
      exact ⟨a' ++ b, i, k, by simp, h1, h2⟩
  have fin : ∀ a o, hasAnd c = a → hasOr c = o → finish c = link a (c ++ logicTail a o) := by
    intro a o h1 h2; subst h1; subst h2; rfl
  cases hA : hasAnd c <;> cases hO : hasOr c
  · rw [hA, hO] at hm; simp at hm
  · refine main false [.jmp 2, .loadK (.bool true)] (fin _ _ hA hO) ?_ (by simp) (by simp) rfl ?_ (by rw [hA]; simp)
      ⟨[], _, _, rfl, rfl, rfl⟩
    · intro i hi; simp at hi; rcases hi with rfl | rfl <;> exact ⟨rfl, rfl⟩
    · intro _ pre post a' stk s hla
      refine .step (i := .loadK (.bool true)) ?_ ?_ (.refl _)
      · show (pre ++ (a' ++ [.jmp 2, .loadK (.bool true)]) ++ post)[pre.length + c.length + 2 - 1]? = some _
        rw [show pre ++ (a' ++ [.jmp 2, .loadK (.bool true)]) ++ post = (pre ++ a' ++ [.jmp 2]) ++ .loadK (.bool true) :: post by simp]
        rw [show pre.length + c.length + 2 - 1 = (pre ++ a' ++ [(.jmp 2 : Ins X)]).length by simp [hla]; omega]
        exact getElem_mid _ _ _
      · simp only [exec, pushRes, Out.map, trueLoc, List.length_append, hla, List.length_cons, List.length_nil]
        congr 2
  · refine main true [.jmp 2, .loadK (.bool false)] (fin _ _ hA hO) ?_ (by simp) (by rw [hO]; simp) rfl (by rw [hO]; simp) (fun _ => rfl)
      ⟨[], _, _, rfl, rfl, rfl⟩
    intro i hi; simp at hi; rcases hi with rfl | rfl <;> exact ⟨rfl, rfl⟩
  · refine main true [.jmp 4, .loadK (.bool true), .jmp 2, .loadK (.bool false)] (fin _ _ hA hO) ?_ (by simp) (by simp) rfl ?_ (fun _ => rfl)
      ⟨[.jmp 4, .loadK (.bool true)], _, _, rfl, rfl, rfl⟩
    · intro i hi; simp at hi; rcases hi with rfl | rfl | rfl | rfl <;> exact ⟨rfl, rfl⟩
    · intro _ pre post a' stk s hla
      refine .step (c' := ⟨pre.length + c.length + 2, S.lit (.bool true) :: stk, s⟩) (i := .loadK (.bool true)) ?_ ?_
        (.step (i := .jmp 2) ?_ ?_ (.refl _))
      · show (pre ++ (a' ++ [.jmp 4, .loadK (.bool true), .jmp 2, .loadK (.bool false)]) ++ post)[pre.length + c.length + 4 - 3]? = some _
        rw [show pre ++ (a' ++ [.jmp 4, .loadK (.bool true), .jmp 2, .loadK (.bool false)]) ++ post =
          (pre ++ a' ++ [.jmp 4]) ++ .loadK (.bool true) :: ([.jmp 2, .loadK (.bool false)] ++ post) by simp]
        rw [show pre.length + c.length + 4 - 3 = (pre ++ a' ++ [(.jmp 4 : Ins X)]).length by simp [hla]; omega]
        exact getElem_mid _ _ _
      · simp only [exec, pushRes, Out.map, trueLoc, List.length_cons, List.length_nil, if_true]
        congr 2
      · show (pre ++ (a' ++ [.jmp 4, .loadK (.bool true), .jmp 2, .loadK (.bool false)]) ++ post)[pre.length + c.length + 2]? = some _
        rw [show pre ++ (a' ++ [.jmp 4, .loadK (.bool true), .jmp 2, .loadK (.bool false)]) ++ post =
          (pre ++ a' ++ [.jmp 4, .loadK (.bool true)]) ++ .jmp 2 :: ([.loadK (.bool false)] ++ post) by simp]
        rw [show pre.length + c.length + 2 = (pre ++ a' ++ [(.jmp 4 : Ins X), .loadK (.bool true)]).length by simp [hla]; omega]
        exact getElem_mid _ _ _
      · simp only [exec, jump, List.length_append, List.length_cons, List.length_nil, hla]
        congr 2

end
end Verif.Comp
