import Verif.Vm.StrValSpec
import Verif.Base.StrLemmas
/-
Lemmas about the model of strings as values.
-/
namespace Verif.Vm.StrVal
open Verif

theorem upd_same {α : Type u} {β : Type v} [DecidableEq α] (f : α → β) (x : α) (y : β) : upd f x y x = y := by
  simp [upd]

theorem upd_other {α : Type u} {β : Type v} [DecidableEq α] (f : α → β) {x z : α} (y : β) (h : z ≠ x) :
    upd f x y z = f z := by
  simp [upd, h]

theorem setText_id {t : Text} (h : NoBackslash t) : setText t = t := Str.unescape_id h

theorem noBackslash_append {s t : Text} (hs : NoBackslash s) (ht : NoBackslash t) : NoBackslash (s ++ t) := by
  intro h
  rcases List.mem_append.1 h with h | h
  · exact hs h
  · exact ht h

/-- The object exists. -/
def Valid (σ : St) : Addr → Prop
  | .lit _ => True
  | .dyn n => n < σ.cnt

/-- The element stands for the value. -/
def Rep (σ : St) : Val → SVal → Prop
  | .undef, .undef => True
  | .int m, .int n => m = n
  | .str a, .text t => Valid σ a ∧ σ.heap a = t ∧ NoBackslash t
  | _, _ => False

/-- Only new objects were made. -/
structure Ext (σ σ1 : St) : Prop where
  place : σ1.place = σ.place
  ro : σ1.ro = σ.ro
  cnt : σ.cnt ≤ σ1.cnt
  heap : ∀ a, Valid σ a → σ1.heap a = σ.heap a

theorem Ext.refl (σ : St) : Ext σ σ := ⟨rfl, rfl, Nat.le_refl _, fun _ _ => rfl⟩

theorem Ext.valid {σ σ1 : St} (h : Ext σ σ1) {a : Addr} (ha : Valid σ a) : Valid σ1 a := by
  cases a with
  | lit k => trivial
  | dyn n => exact Nat.lt_of_lt_of_le ha h.cnt

theorem Ext.trans {σ σ1 σ2 : St} (h : Ext σ σ1) (h' : Ext σ1 σ2) : Ext σ σ2 :=
  ⟨h'.place.trans h.place, h'.ro.trans h.ro, Nat.le_trans h.cnt h'.cnt,
    fun a ha => (h'.heap a (h.valid ha)).trans (h.heap a ha)⟩

theorem Ext.rep {σ σ1 : St} (h : Ext σ σ1) {v : Val} {s : SVal} (hr : Rep σ v s) : Rep σ1 v s := by
  cases v <;> cases s <;> simp only [Rep] at hr ⊢
  · exact hr
  · exact ⟨h.valid hr.1, (h.heap _ hr.1).trans hr.2.1, hr.2.2⟩

theorem ext_newStr (σ : St) (t : Text) : Ext σ (newStr σ t).2 := by
  refine ⟨rfl, rfl, Nat.le_succ _, ?_⟩
  intro a ha
  refine upd_other _ _ ?_
  rintro rfl
  exact Nat.lt_irrefl _ ha

theorem rep_newStr (σ : St) {t : Text} (h : NoBackslash t) : Rep (newStr σ t).2 (newStr σ t).1 (.text t) := by
  refine ⟨Nat.lt_succ_self _, ?_, h⟩
  show upd σ.heap _ _ _ = _
  rw [upd_same, setText_id h]

/-- The machine stands for the values, with the groups. -/
structure R (L : Nat → Text) (σ : St) (ρ : Env) (g : Groups) : Prop where
  lits : ∀ k, σ.heap (.lit k) = L k
  rep : ∀ p, Rep σ (σ.place p) (ρ p)
  dyn : ∀ p k, σ.place p ≠ .str (.lit k)
  ro : ∀ p, σ.ro p = false
  grp : ∀ p q a, σ.place p = .str a → σ.place q = .str a → g.of p = g.of q
  lt : ∀ p, g.of p < g.n

theorem Ext.r {L : Nat → Text} {σ σ1 : St} {ρ : Env} {g : Groups} (h : Ext σ σ1) (r : R L σ ρ g) : R L σ1 ρ g := by
  refine ⟨fun k => (h.heap (.lit k) trivial).trans (r.lits k), ?_, ?_, ?_, ?_, r.lt⟩
  · intro p
    rw [h.place]
    exact h.rep (r.rep p)
  · intro p k
    rw [h.place]
    exact r.dyn p k
  · intro p
    rw [h.ro]
    exact r.ro p
  · intro p q a
    rw [h.place]
    exact r.grp p q a

theorem noBackslash_undef : NoBackslash [117, 110, 100, 101, 102, 105, 110, 101, 100] := by
  simp [NoBackslash]

theorem shown_rep {N : Int → Text} (hN : ∀ n, NoBackslash (N n)) {σ : St} {v : Val} {s : SVal} (h : Rep σ v s) :
    textOf N σ v = s.shown N ∧ NoBackslash (s.shown N) := by
  cases v <;> cases s <;> simp only [Rep] at h
  · exact ⟨rfl, noBackslash_undef⟩
  · subst h
    exact ⟨rfl, hN _⟩
  · exact ⟨h.2.1, h.2.2⟩

/-- Where the value of an expression is: a place, a literal or a new object. -/
def Origin (σ : St) (e : Src) (w : Val) : Prop :=
  (∃ q, e = .place q ∧ w = σ.place q) ∨ (∃ k, e = .lit k ∧ w = .str (.lit k)) ∨
    ((∀ q, e ≠ .place q) ∧ (∀ k, e ≠ .lit k) ∧ ∀ a, w = .str a → ∃ n, a = .dyn n ∧ σ.cnt ≤ n)

/-- What an expression evaluates to, and where it is: a place, a literal or a new object. -/
theorem eval_ok {N : Int → Text} {L : Nat → Text} (hN : ∀ n, NoBackslash (N n)) (hL : ∀ k, NoBackslash (L k))
    {ρ : Env} {g : Groups} (e : Src) :
    ∀ {σ : St}, R L σ ρ g → e.tame →
      (∀ v, value N L ρ e = some v → ∃ w σ1, eval N σ e = .ok (w, σ1) ∧ Ext σ σ1 ∧ Rep σ1 w v ∧
        Origin σ e w) ∧
      (value N L ρ e = none → eval N σ e = .err) := by
  induction e with
  | undef =>
    intro σ r _
    refine ⟨?_, by simp [value]⟩
    intro v hv
    simp only [value, Option.some.injEq] at hv
    subst hv
    exact ⟨_, _, rfl, Ext.refl _, trivial, .inr (.inr (by simp))⟩
  | int n =>
    intro σ r _
    refine ⟨?_, by simp [value]⟩
    intro v hv
    simp only [value, Option.some.injEq] at hv
    subst hv
    exact ⟨_, _, rfl, Ext.refl _, rfl, .inr (.inr (by simp))⟩
  | lit k =>
    intro σ r _
    refine ⟨?_, by simp [value]⟩
    intro v hv
    simp only [value, Option.some.injEq] at hv
    subst hv
    exact ⟨_, _, rfl, Ext.refl _, ⟨trivial, r.lits k, hL k⟩, .inr (.inl ⟨k, rfl, rfl⟩)⟩
  | place q =>
    intro σ r _
    refine ⟨?_, by simp [value]⟩
    intro v hv
    simp only [value, Option.some.injEq] at hv
    subst hv
    exact ⟨_, _, rfl, Ext.refl _, r.rep q, .inl ⟨q, rfl, rfl⟩⟩
  | add a b iha ihb =>
    intro σ r ht
    obtain ⟨ia, ia'⟩ := iha r ht.1
    cases hva : value N L ρ a with
    | none =>
      refine ⟨by simp [value, hva], fun _ => ?_⟩
      simp only [eval, ia' hva, Out.bind]
    | some va =>
      obtain ⟨wa, σ1, ea, x1, ra, -⟩ := ia va hva
      obtain ⟨ib, ib'⟩ := ihb (x1.r r) ht.2
      cases hvb : value N L ρ b with
      | none =>
        refine ⟨by simp [value, hva, hvb], fun _ => ?_⟩
        simp only [eval, ea, ib' hvb, Out.bind]
      | some vb =>
        obtain ⟨wb, σ2, eb, x2, rb, -⟩ := ib vb hvb
        have ra2 := x2.rep ra
        have x := x1.trans x2
        obtain ⟨ta, na⟩ := shown_rep hN ra2
        obtain ⟨tb, nb⟩ := shown_rep hN rb
        have hnew := rep_newStr σ2 (noBackslash_append na nb)
        have xnew := x.trans (ext_newStr σ2 (va.shown N ++ vb.shown N))
        have key : ∀ v, some v = some (SVal.text (va.shown N ++ vb.shown N)) →
            ∃ w σ1, (Out.ok (newStr σ2 (textOf N σ2 wa ++ textOf N σ2 wb)) : Out (Val × St)) = .ok (w, σ1) ∧
              Ext σ σ1 ∧ Rep σ1 w v ∧ Origin σ (.add a b) w := by
          intro v hv
          simp only [Option.some.injEq] at hv
          subst hv
          rw [ta, tb]
          refine ⟨_, _, rfl, xnew, hnew, .inr (.inr ⟨by simp, by simp, ?_⟩)⟩
          intro c hc
          simp only [newStr, Val.str.injEq] at hc
          exact ⟨_, hc.symm, x.cnt⟩
        have hval : value N L ρ (.add a b) = va.plus N vb := by simp only [value, hva, hvb]
        have hev : eval N σ (.add a b) = (match wa, wb with
            | .int m, .int n => Out.ok (Val.int (m + n), σ2)
            | .str _, _ => .ok (newStr σ2 (textOf N σ2 wa ++ textOf N σ2 wb))
            | _, .str _ => .ok (newStr σ2 (textOf N σ2 wa ++ textOf N σ2 wb))
            | _, _ => .err) := by
          simp only [eval, ea, eb, Out.bind]
          cases wa <;> cases wb <;> rfl
        rw [hval, hev]
        cases wa <;> cases va <;> simp only [Rep] at ra2 <;> cases wb <;> cases vb <;> simp only [Rep] at rb <;>
          simp only [SVal.plus, SVal.isText, Bool.or_self, Bool.or_true, Bool.true_or, if_true, reduceCtorEq, false_implies,
            implies_true, and_true, true_and, Bool.false_eq_true, if_false]
        case int.int.int.int m _ n _ =>
          intro v hv
          simp only [Option.some.injEq] at hv
          subst hv
          subst ra2 rb
          exact ⟨_, _, rfl, x, rfl, .inr (.inr (by simp))⟩
        all_goals exact fun v hv => key v hv.symm
  | meth f a ih =>
    intro σ r ht
    obtain ⟨ia, ia'⟩ := ih r ht.2
    cases hva : value N L ρ a with
    | none =>
      refine ⟨by simp [value, hva], fun _ => ?_⟩
      simp only [eval, ia' hva, Out.bind]
    | some va =>
      obtain ⟨wa, σ1, ea, x1, ra, -⟩ := ia va hva
      cases wa <;> cases va <;> simp only [Rep] at ra
      · exact ⟨by simp [value, hva], fun _ => by simp only [eval, ea, Out.bind]⟩
      · exact ⟨by simp [value, hva], fun _ => by simp only [eval, ea, Out.bind]⟩
      · rename_i c t
        refine ⟨?_, by simp [value, hva]⟩
        intro v hv
        simp only [value, hva, Option.some.injEq] at hv
        subst hv
        have hn : NoBackslash (f t) := ht.1 t ra.2.2
        refine ⟨_, _, by simp only [eval, ea, Out.bind, ra.2.1], x1.trans (ext_newStr σ1 (f t)), rep_newStr σ1 hn,
          .inr (.inr ⟨by simp, by simp, ?_⟩)⟩
        intro c hc
        simp only [newStr, Val.str.injEq] at hc
        exact ⟨_, hc.symm, x1.cnt⟩

theorem Rep.isText {σ : St} {v : Val} {s : SVal} (h : Rep σ v s) : s.isText = true ↔ ∃ a, v = .str a := by
  cases v <;> cases s <;> simp_all [Rep, SVal.isText]

/-- Place `p` is given an element that no other place refers to, in a new group. -/
theorem R.place_new {L : Nat → Text} {σ : St} {ρ : Env} {g : Groups} (r : R L σ ρ g) (p : Nat) {v : Val} {s : SVal}
    (h : Rep σ v s) (hl : ∀ k, v ≠ .str (.lit k)) (hn : ∀ a, v = .str a → ∀ q, q ≠ p → σ.place q ≠ .str a) (b : Nat → Bool)
    (hb : ∀ q, b q = false) :
    R L { σ with place := upd σ.place p v, ro := b } (upd ρ p s) (g.fresh p) := by
  refine ⟨r.lits, ?_, ?_, hb, ?_, ?_⟩
  · intro q
    by_cases hq : q = p
    · subst hq
      rw [upd_same]
      show Rep _ (upd σ.place q v q) s
      rw [upd_same]
      cases v <;> cases s <;> simp only [Rep] at h ⊢ <;> exact h
    · rw [upd_other _ _ hq]
      show Rep _ (upd σ.place p v q) _
      rw [upd_other _ _ hq]
      have := r.rep q
      revert this
      generalize σ.place q = x
      generalize ρ q = y
      intro this
      cases x <;> cases y <;> simp only [Rep] at this ⊢ <;> exact this
  · intro q k
    show upd σ.place p v q ≠ _
    by_cases hq : q = p
    · subst hq
      rw [upd_same]
      exact hl k
    · rw [upd_other _ _ hq]
      exact r.dyn q k
  · intro q q' a
    show upd σ.place p v q = _ → upd σ.place p v q' = _ → upd g.of p g.n q = upd g.of p g.n q'
    by_cases hq : q = p <;> by_cases hq' : q' = p
    · subst hq hq'
      intros
      rfl
    · subst hq
      rw [upd_same, upd_other _ _ hq']
      intro h1 h2
      exact absurd h2 (hn a h1 q' hq')
    · subst hq'
      rw [upd_same, upd_other _ _ hq]
      intro h1 h2
      exact absurd h1 (hn a h2 q hq)
    · rw [upd_other _ _ hq, upd_other _ _ hq', upd_other _ _ hq, upd_other _ _ hq']
      exact r.grp q q' a
  · intro q
    show upd g.of p g.n q < g.n + 1
    by_cases hq : q = p
    · subst hq
      rw [upd_same]
      exact Nat.lt_succ_self _
    · rw [upd_other _ _ hq]
      exact Nat.lt_succ_of_lt (r.lt q)

/-- Place `p` becomes a number or undefined, groups left. -/
theorem R.place_plain {L : Nat → Text} {σ : St} {ρ : Env} {g : Groups} (r : R L σ ρ g) (p : Nat) {v : Val} {s : SVal}
    (h : Rep σ v s) (hl : ∀ a, v ≠ .str a) :
    R L { σ with place := upd σ.place p v } (upd ρ p s) g := by
  have r1 := r.place_new p h (fun k => hl _) (fun a ha => absurd ha (hl a)) σ.ro r.ro
  refine ⟨r1.lits, r1.rep, r1.dyn, r1.ro, ?_, r.lt⟩
  intro q q' a
  show upd σ.place p v q = _ → upd σ.place p v q' = _ → _
  by_cases hq : q = p
  · subst hq
    rw [upd_same]
    intro h1
    exact absurd h1 (hl a)
  · by_cases hq' : q' = p
    · subst hq'
      rw [upd_same]
      intro _ h2
      exact absurd h2 (hl a)
    · rw [upd_other _ _ hq, upd_other _ _ hq']
      exact r.grp q q' a

/-- Place `p` is given what place `q` holds. -/
theorem R.place_join {L : Nat → Text} {σ : St} {ρ : Env} {g : Groups} (r : R L σ ρ g) (p q : Nat) (b : Nat → Bool)
    (hb : ∀ q, b q = false) :
    R L { σ with place := upd σ.place p (σ.place q), ro := b } (upd ρ p (ρ q))
      { g with of := upd g.of p (g.of q) } := by
  refine ⟨r.lits, ?_, ?_, hb, ?_, ?_⟩
  · intro x
    have hrep : Rep σ (upd σ.place p (σ.place q) x) (upd ρ p (ρ q) x) := by
      by_cases hx : x = p
      · subst hx
        rw [upd_same, upd_same]
        exact r.rep q
      · rw [upd_other _ _ hx, upd_other _ _ hx]
        exact r.rep x
    show Rep _ (upd σ.place p (σ.place q) x) _
    revert hrep
    generalize upd σ.place p (σ.place q) x = y
    generalize upd ρ p (ρ q) x = z
    intro hrep
    cases y <;> cases z <;> simp only [Rep] at hrep ⊢ <;> exact hrep
  · intro x k
    show upd σ.place p (σ.place q) x ≠ _
    by_cases hx : x = p
    · subst hx
      rw [upd_same]
      exact r.dyn q k
    · rw [upd_other _ _ hx]
      exact r.dyn x k
  · intro x y a
    show upd σ.place p (σ.place q) x = _ → upd σ.place p (σ.place q) y = _ →
      upd g.of p (g.of q) x = upd g.of p (g.of q) y
    by_cases hx : x = p <;> by_cases hy : y = p
    · subst hx hy
      intros
      rfl
    · subst hx
      rw [upd_same, upd_other _ _ hy, upd_same, upd_other _ _ hy]
      exact r.grp q y a
    · subst hy
      rw [upd_same, upd_other _ _ hx, upd_same, upd_other _ _ hx]
      exact r.grp x q a
    · rw [upd_other _ _ hx, upd_other _ _ hy, upd_other _ _ hx, upd_other _ _ hy]
      exact r.grp x y a
  · intro x
    show upd g.of p (g.of q) x < g.n
    by_cases hx : x = p
    · subst hx
      rw [upd_same]
      exact r.lt q
    · rw [upd_other _ _ hx]
      exact r.lt x

/-- The text of a place that is alone is changed where it is. -/
theorem R.write {L : Nat → Text} {σ : St} {ρ : Env} {g : Groups} (r : R L σ ρ g) (p : Nat) {a : Addr}
    (ha : σ.place p = .str a) (hal : Alone ρ g p) {t : Text} (ht : NoBackslash t) :
    R L { σ with heap := upd σ.heap a t } (upd ρ p (.text t)) g := by
  have hav : Valid σ a ∧ ∀ k, a ≠ .lit k := by
    refine ⟨?_, fun k hk => r.dyn p k (by rw [ha, hk])⟩
    have := r.rep p
    rw [ha] at this
    cases hρ : ρ p <;> rw [hρ] at this <;> simp only [Rep] at this
    exact this.1
  refine ⟨?_, ?_, r.dyn, r.ro, r.grp, r.lt⟩
  · intro k
    show upd σ.heap a t (.lit k) = _
    rw [upd_other _ _ (fun h => hav.2 k h.symm)]
    exact r.lits k
  · intro q
    show Rep _ (σ.place q) _
    by_cases hq : q = p
    · subst hq
      rw [upd_same, ha]
      refine ⟨?_, upd_same _ _ _, ht⟩
      have := hav.1
      cases a <;> exact this
    · rw [upd_other _ _ hq]
      have hr := r.rep q
      have hne : σ.place q ≠ .str a := by
        intro h
        exact hal q hq (hr.isText.2 ⟨a, h⟩) (r.grp q p a h ha)
      revert hr hne
      generalize σ.place q = x
      generalize ρ q = y
      intro hr hne
      cases x <;> cases y <;> simp only [Rep] at hr ⊢
      · exact hr
      · rename_i c s
        refine ⟨?_, ?_, hr.2.2⟩
        · have := hr.1
          cases c <;> exact this
        · show upd σ.heap a t c = _
          rw [upd_other _ _ (fun h => hne (by rw [h]))]
          exact hr.2.1

theorem R.fresh_obj {L : Nat → Text} {σ : St} {ρ : Env} {g : Groups} (r : R L σ ρ g) {n : Nat} (hn : σ.cnt ≤ n) (q : Nat) :
    σ.place q ≠ .str (.dyn n) := by
  intro h
  have := r.rep q
  rw [h] at this
  cases hρ : ρ q <;> rw [hρ] at this <;> simp only [Rep] at this
  exact Nat.lt_irrefl _ (Nat.lt_of_lt_of_le this.1 hn)

/-- Sharing. -/
theorem share_ok {N : Int → Text} {L : Nat → Text} (hN : ∀ n, NoBackslash (N n)) (hL : ∀ k, NoBackslash (L k))
    {σ : St} {ρ : Env} {g : Groups} (r : R L σ ρ g) (p : Nat) (e : Src) (ht : e.tame) {v : SVal}
    (hv : value N L ρ e = some v) :
    ∃ w σ1, eval N σ e = .ok (w, σ1) ∧ ((∀ k, e ≠ .lit k) → ∀ k, w ≠ .str (.lit k)) ∧
      R L (share σ1 p w) (upd ρ p v) (g.join p e) := by
  obtain ⟨w, σ1, he, x, hr, hc⟩ := (eval_ok hN hL e r ht).1 v hv
  refine ⟨w, σ1, he, ?_, ?_⟩
  · intro hne k hk
    rcases hc with ⟨q, rfl, hw⟩ | ⟨k', rfl, _⟩ | ⟨_, _, h⟩
    · exact r.dyn q k (hw.symm.trans hk)
    · exact hne k' rfl
    · obtain ⟨n, hn, _⟩ := h _ hk
      cases hn
  · have r1 := x.r r
    have hro : ∀ q, upd σ1.ro p false q = false := by
      intro q
      by_cases hq : q = p
      · subst hq
        exact upd_same _ _ _
      · rw [upd_other _ _ hq]
        exact r1.ro q
    rcases hc with ⟨q, rfl, hw⟩ | ⟨k, rfl, hw⟩ | ⟨h1, h2, h⟩
    · have hp : w = σ1.place q := by rw [hw, x.place]
      have hvq : v = ρ q := by
        simp only [value, Option.some.injEq] at hv
        exact hv.symm
      have hsh : share σ1 p w = { σ1 with place := upd σ1.place p (σ1.place q), ro := upd σ1.ro p false } := by
        have hd : ∀ k, w ≠ .str (.lit k) := fun k hk => r1.dyn q k (hp.symm.trans hk)
        rw [← hp]
        unfold share
        split
        · exact absurd rfl (hd _)
        · rfl
      rw [hsh, hvq]
      exact r1.place_join p q _ hro
    · have hvk : v = .text (L k) := by
        simp only [value, Option.some.injEq] at hv
        exact hv.symm
      subst hvk hw
      have r2 := (ext_newStr σ1 (L k)).r r1
      have hnew := rep_newStr σ1 (hL k)
      have := r2.place_new p hnew (by intro k; simp [newStr])
        (by
          intro a ha q _
          simp only [newStr, Val.str.injEq] at ha
          subst ha
          exact r1.fresh_obj (Nat.le_refl _) q) (upd σ1.ro p false) hro
      simp only [share, r1.lits k, Groups.join]
      exact this
    · have hd : ∀ k, w ≠ .str (.lit k) := by
        intro k hk
        obtain ⟨n, hn, _⟩ := h _ hk
        cases hn
      have hsh : share σ1 p w = { σ1 with place := upd σ1.place p w, ro := upd σ1.ro p false } := by
        unfold share
        split
        · exact absurd rfl (hd _)
        · rfl
      have hj : g.join p e = g.fresh p := by
        cases e <;> first | rfl | exact absurd rfl (h1 _)
      rw [hsh, hj]
      refine r1.place_new p hr hd ?_ _ hro
      intro a ha q _
      obtain ⟨n, hn, hle⟩ := h a ha
      subst hn
      rw [x.place]
      exact r.fresh_obj hle q

/-- One statement that is fine. -/
theorem step_ok {N : Int → Text} {L : Nat → Text} (hN : ∀ n, NoBackslash (N n)) (hL : ∀ k, NoBackslash (L k))
    {σ : St} {ρ : Env} {g : Groups} (r : R L σ ρ g) (s : Stmt) (hf : Fine N L ρ g s) :
    (∀ ρ1, after N L ρ s = some ρ1 → ∃ σ1, step N σ s = .ok σ1 ∧ R L σ1 ρ1 (g.after ρ s)) ∧
      (after N L ρ s = none → step N σ s = .err) := by
  cases s with
  | store p e =>
    obtain ⟨ht, hal⟩ := hf
    obtain ⟨h1, h2⟩ := eval_ok hN hL e r ht
    cases hv : value N L ρ e with
    | none => exact ⟨by simp [after, hv], fun _ => by simp only [step, h2 hv, Out.bind]⟩
    | some v =>
      refine ⟨?_, by simp [after, hv]⟩
      intro ρ1 hρ1
      simp only [after, hv, Option.map_some, Option.some.injEq] at hρ1
      subst hρ1
      obtain ⟨w, σ1, he, x, hr, _⟩ := h1 v hv
      have r1 := x.r r
      simp only [step, he, Out.bind, store, r1.ro p, Bool.false_eq_true, if_false]
      cases w with
      | undef =>
        refine ⟨_, rfl, ?_⟩
        simp only [Groups.after]
        split
        · exact r1.place_plain p hr (by simp)
        · exact r1.place_new p hr (by simp) (by simp) σ1.ro r1.ro
      | int n =>
        refine ⟨_, rfl, ?_⟩
        simp only [Groups.after]
        split
        · exact r1.place_plain p hr (by simp)
        · exact r1.place_new p hr (by simp) (by simp) σ1.ro r1.ro
      | str a =>
        cases v with
        | undef => simp only [Rep] at hr
        | int n => simp only [Rep] at hr
        | text t =>
          have hp := r1.rep p
          have new : (ρ p).isText = false →
              R L { (newStr σ1 (σ1.heap a)).2 with place := upd (newStr σ1 (σ1.heap a)).2.place p (newStr σ1 (σ1.heap a)).1 }
                (upd ρ p (.text t)) (g.after ρ (.store p e)) := by
            intro hnt
            have r2 := (ext_newStr σ1 t).r r1
            have := r2.place_new p (rep_newStr σ1 hr.2.2) (by intro k; simp [newStr])
              (by
                intro a ha q _
                simp only [newStr, Val.str.injEq] at ha
                subst ha
                exact r1.fresh_obj (Nat.le_refl _) q) _ r2.ro
            rw [hr.2.1]
            simp only [Groups.after, hnt, Bool.false_eq_true, if_false]
            exact this
          cases hpl : σ1.place p with
          | undef =>
            refine ⟨_, rfl, new ?_⟩
            rw [hpl] at hp
            cases hρ : ρ p <;> rw [hρ] at hp <;> simp_all [Rep, SVal.isText]
          | int n =>
            refine ⟨_, rfl, new ?_⟩
            rw [hpl] at hp
            cases hρ : ρ p <;> rw [hρ] at hp <;> simp_all [Rep, SVal.isText]
          | str b =>
            have htx : (ρ p).isText = true := hp.isText.2 ⟨b, hpl⟩
            refine ⟨_, rfl, ?_⟩
            simp only [Groups.after, htx, if_true]
            rw [hr.2.1, setText_id hr.2.2]
            exact r1.write p hpl (hal htx ⟨_, hv, rfl⟩) hr.2.2
  | share p e =>
    have ht : e.tame := hf
    cases hv : value N L ρ e with
    | none =>
      exact ⟨by simp [after, hv], fun _ => by simp only [step, (eval_ok hN hL e r ht).2 hv, Out.bind]⟩
    | some v =>
      refine ⟨?_, by simp [after, hv]⟩
      intro ρ1 hρ1
      simp only [after, hv, Option.map_some, Option.some.injEq] at hρ1
      subst hρ1
      obtain ⟨w, σ1, he, _, hr⟩ := share_ok hN hL r p e ht hv
      exact ⟨_, by simp only [step, he, Out.bind], hr⟩
  | operand p e =>
    obtain ⟨ht, hne⟩ := hf
    cases hv : value N L ρ e with
    | none =>
      exact ⟨by simp [after, hv], fun _ => by simp only [step, (eval_ok hN hL e r ht).2 hv, Out.bind]⟩
    | some v =>
      refine ⟨?_, by simp [after, hv]⟩
      intro ρ1 hρ1
      simp only [after, hv, Option.map_some, Option.some.injEq] at hρ1
      subst hρ1
      obtain ⟨w, σ1, he, hw, hr⟩ := share_ok hN hL r p e ht hv
      refine ⟨_, ?_, hr⟩
      simp only [step, he, Out.bind]
      split
      · exact absurd rfl (hw hne _)
      · rfl
  | append p e =>
    obtain ⟨ht, hal⟩ := hf
    obtain ⟨h1, h2⟩ := eval_ok hN hL e r ht
    cases hv : value N L ρ e with
    | none =>
      refine ⟨?_, fun _ => by simp only [step, h2 hv, Out.bind]⟩
      intro ρ1 hρ1
      cases hρ : ρ p <;> simp [after, hv, hρ] at hρ1
    | some v =>
      obtain ⟨w, σ1, he, x, hr, _⟩ := h1 v hv
      have r1 := x.r r
      have hp := r1.rep p
      simp only [step, he, Out.bind, append, after, hv]
      cases hpl : σ1.place p with
      | undef =>
        rw [hpl] at hp
        cases hρ : ρ p <;> rw [hρ] at hp <;> simp only [Rep] at hp
        simp
      | int m =>
        rw [hpl] at hp
        cases hρ : ρ p <;> rw [hρ] at hp <;> simp only [Rep] at hp
        subst hp
        cases w <;> cases v <;> simp only [Rep] at hr
        · simp
        · subst hr
          refine ⟨?_, by simp⟩
          intro ρ1 hρ1
          simp only [Option.some.injEq] at hρ1
          subst hρ1
          exact ⟨_, rfl, r1.place_plain p rfl (by simp)⟩
        · simp
      | str a =>
        have htx : (ρ p).isText = true := hp.isText.2 ⟨a, hpl⟩
        rw [hpl] at hp
        cases hρ : ρ p <;> rw [hρ] at hp <;> simp only [Rep] at hp
        rename_i t
        refine ⟨?_, by simp⟩
        intro ρ1 hρ1
        simp only [Option.some.injEq] at hρ1
        subst hρ1
        obtain ⟨tw, nw⟩ := shown_rep hN hr
        refine ⟨_, rfl, ?_⟩
        rw [tw, hp.2.1]
        exact r1.write p hpl (hal htx) (noBackslash_append hp.2.2 nw)
  | edit p f =>
    obtain ⟨hf, hal⟩ := hf
    have hp := r.rep p
    simp only [step, after]
    cases hpl : σ.place p with
    | undef =>
      rw [hpl] at hp
      cases hρ : ρ p <;> rw [hρ] at hp <;> simp only [Rep] at hp
      simp
    | int m =>
      rw [hpl] at hp
      cases hρ : ρ p <;> rw [hρ] at hp <;> simp only [Rep] at hp
      simp
    | str a =>
      rw [hpl] at hp
      cases hρ : ρ p <;> rw [hρ] at hp <;> simp only [Rep] at hp
      rename_i t
      refine ⟨?_, by simp⟩
      intro ρ1 hρ1
      simp only [Option.some.injEq] at hρ1
      subst hρ1
      refine ⟨_, rfl, ?_⟩
      rw [hp.2.1]
      exact r.write p hpl hal (hf t hp.2.2)
  | editLit k f => exact absurd hf id
  | setter p k => exact absurd hf id

theorem sees_rep {σ : St} {p : Nat} {s : SVal} (h : Rep σ (σ.place p) s) : sees σ p = s := by
  unfold sees
  revert h
  generalize σ.place p = v
  intro h
  cases v <;> cases s <;> simp only [Rep] at h ⊢
  · rw [h]
  · rw [h.2.1]

theorem run_ok {N : Int → Text} {L : Nat → Text} (hN : ∀ n, NoBackslash (N n)) (hL : ∀ k, NoBackslash (L k))
    (ss : List Stmt) : ∀ {σ : St} {ρ : Env} {g : Groups}, R L σ ρ g → FineAll N L ρ g ss →
      Agrees (run N σ ss) (afterAll N L ρ ss) := by
  induction ss with
  | nil =>
    intro σ ρ g r _
    exact ⟨σ, rfl, fun p => sees_rep (r.rep p)⟩
  | cons s ss ih =>
    intro σ ρ g r hf
    obtain ⟨h1, h2⟩ := step_ok hN hL r s hf.1
    cases hs : after N L ρ s with
    | none =>
      simp only [afterAll, hs, run, h2 hs, Out.bind]
      exact rfl
    | some ρ1 =>
      obtain ⟨σ1, he, r1⟩ := h1 ρ1 hs
      simp only [afterAll, hs, run, he, Out.bind]
      exact ih r1 (hf.2 ρ1 hs)

theorem r_start {L : Nat → Text} : R L (start L) env0 groups0 :=
  ⟨fun _ => rfl, fun _ => trivial, fun _ _ => by simp [start], fun _ => rfl, fun _ _ _ => by simp [start],
    fun _ => by simp [groups0]⟩

/-! ## Literals -/

/-- No place refers to the object of a literal, and the texts of the literals are as they were. -/
structure Kept (L : Nat → Text) (σ : St) : Prop where
  lits : ∀ k, σ.heap (.lit k) = L k
  dyn : ∀ p k, σ.place p ≠ .str (.lit k)

theorem kept_newStr {L : Nat → Text} {σ : St} (h : Kept L σ) (t : Text) : Kept L (newStr σ t).2 := by
  refine ⟨?_, h.dyn⟩
  intro k
  show upd σ.heap (.dyn σ.cnt) (setText t) (.lit k) = _
  rw [upd_other _ _ (by simp)]
  exact h.lits k

theorem kept_place {L : Nat → Text} {σ : St} (h : Kept L σ) (p : Nat) {v : Val} (hv : ∀ k, v ≠ .str (.lit k)) (b : Nat → Bool) :
    Kept L { σ with place := upd σ.place p v, ro := b } := by
  refine ⟨h.lits, ?_⟩
  intro q k
  show upd σ.place p v q ≠ _
  by_cases hq : q = p
  · subst hq
    rw [upd_same]
    exact hv k
  · rw [upd_other _ _ hq]
    exact h.dyn q k

theorem kept_write {L : Nat → Text} {σ : St} (h : Kept L σ) {p : Nat} {a : Addr} (ha : σ.place p = .str a) (t : Text) :
    Kept L { σ with heap := upd σ.heap a t } := by
  refine ⟨?_, h.dyn⟩
  intro k
  show upd σ.heap _ _ _ = _
  rw [upd_other _ _ (fun e => h.dyn p k (by rw [ha, e]))]
  exact h.lits k

theorem kept_eval {N : Int → Text} {L : Nat → Text} (e : Src) : ∀ {σ σ1 : St} {w : Val}, Kept L σ →
    eval N σ e = .ok (w, σ1) → Kept L σ1 := by
  induction e with
  | undef => intro σ σ1 w h he; simp only [eval, Out.ok.injEq, Prod.mk.injEq] at he; rw [← he.2]; exact h
  | int n => intro σ σ1 w h he; simp only [eval, Out.ok.injEq, Prod.mk.injEq] at he; rw [← he.2]; exact h
  | lit k => intro σ σ1 w h he; simp only [eval, Out.ok.injEq, Prod.mk.injEq] at he; rw [← he.2]; exact h
  | place q => intro σ σ1 w h he; simp only [eval, Out.ok.injEq, Prod.mk.injEq] at he; rw [← he.2]; exact h
  | add a b iha ihb =>
    intro σ σ1 w h he
    simp only [eval] at he
    cases ha : eval N σ a with
    | err => rw [ha] at he; cases he
    | ub => rw [ha] at he; cases he
    | ok x =>
      obtain ⟨v, σ2⟩ := x
      simp only [ha, Out.bind] at he
      cases hb : eval N σ2 b with
      | err => rw [hb] at he; cases he
      | ub => rw [hb] at he; cases he
      | ok y =>
        obtain ⟨w', σ3⟩ := y
        simp only [hb] at he
        have h3 := ihb (iha h ha) hb
        cases v <;> cases w' <;> simp only [Out.ok.injEq, Prod.mk.injEq, reduceCtorEq] at he
        all_goals first
          | (rw [← he.2]; exact h3)
          | (have := congrArg Prod.snd he; simp only at this; rw [← this]; exact kept_newStr h3 _)
  | meth f a ih =>
    intro σ σ1 w h he
    simp only [eval] at he
    cases ha : eval N σ a with
    | err => rw [ha] at he; cases he
    | ub => rw [ha] at he; cases he
    | ok x =>
      obtain ⟨v, σ2⟩ := x
      simp only [ha, Out.bind] at he
      cases v <;> simp only [Out.ok.injEq, reduceCtorEq] at he
      have := congrArg Prod.snd he
      simp only at this
      rw [← this]
      exact kept_newStr (ih h ha) _

theorem kept_share {L : Nat → Text} {σ : St} (h : Kept L σ) (p : Nat) (v : Val) : Kept L (share σ p v) := by
  unfold share
  split
  · exact kept_place (kept_newStr h _) p (by intro k; simp [newStr]) _
  · rename_i hv
    exact kept_place h p (fun k hk => hv k hk) _

theorem kept_step {N : Int → Text} {L : Nat → Text} {σ σ1 : St} (h : Kept L σ) (s : Stmt)
    (h1 : ∀ k f, s ≠ .editLit k f) (h2 : ∀ p k, s ≠ .setter p k) (he : step N σ s = .ok σ1) : Kept L σ1 := by
  cases s with
  | store p e =>
    simp only [step] at he
    cases ha : eval N σ e with
    | err => rw [ha] at he; cases he
    | ub => rw [ha] at he; cases he
    | ok x =>
      obtain ⟨v, σ2⟩ := x
      simp only [ha, Out.bind, store] at he
      have k2 := kept_eval e h ha
      split at he
      · cases he
      · cases v with
        | undef => cases he; exact kept_place k2 p (by simp) _
        | int n => cases he; exact kept_place k2 p (by simp) _
        | str a =>
          cases hp : σ2.place p <;> simp only [hp] at he <;> cases he
          · exact kept_place (kept_newStr k2 _) p (by intro k; simp [newStr]) _
          · exact kept_place (kept_newStr k2 _) p (by intro k; simp [newStr]) _
          · exact kept_write k2 hp _
  | share p e =>
    simp only [step] at he
    cases ha : eval N σ e with
    | err => rw [ha] at he; cases he
    | ub => rw [ha] at he; cases he
    | ok x =>
      obtain ⟨v, σ2⟩ := x
      simp only [ha, Out.bind, Out.ok.injEq] at he
      rw [← he]
      exact kept_share (kept_eval e h ha) p v
  | operand p e =>
    simp only [step] at he
    cases ha : eval N σ e with
    | err => rw [ha] at he; cases he
    | ub => rw [ha] at he; cases he
    | ok x =>
      obtain ⟨v, σ2⟩ := x
      simp only [ha, Out.bind] at he
      split at he
      · cases he
      · simp only [Out.ok.injEq] at he
        rw [← he]
        exact kept_share (kept_eval e h ha) p _
  | append p e =>
    simp only [step] at he
    cases ha : eval N σ e with
    | err => rw [ha] at he; cases he
    | ub => rw [ha] at he; cases he
    | ok x =>
      obtain ⟨v, σ2⟩ := x
      simp only [ha, Out.bind, append] at he
      have k2 := kept_eval e h ha
      cases hp : σ2.place p <;> simp only [hp] at he
      · cases he
      · cases v <;> simp only [Out.ok.injEq, reduceCtorEq] at he
        rw [← he]
        exact kept_place k2 p (by simp) _
      · simp only [Out.ok.injEq] at he
        rw [← he]
        exact kept_write k2 hp _
  | edit p f =>
    simp only [step] at he
    cases hp : σ.place p <;> simp only [hp, Out.ok.injEq, reduceCtorEq] at he
    rw [← he]
    exact kept_write h hp _
  | editLit k f => exact absurd rfl (h1 k f)
  | setter p k => exact absurd rfl (h2 p k)

theorem kept_run {N : Int → Text} {L : Nat → Text} (ss : List Stmt) : ∀ {σ σ1 : St}, Kept L σ → SparesLiterals ss →
    run N σ ss = .ok σ1 → Kept L σ1 := by
  induction ss with
  | nil => intro σ σ1 h _ he; cases he; exact h
  | cons s ss ih =>
    intro σ σ1 h hs he
    simp only [run] at he
    cases h1 : step N σ s with
    | err => rw [h1] at he; cases he
    | ub => rw [h1] at he; cases he
    | ok σ2 =>
      simp only [h1, Out.bind] at he
      have := hs s (List.mem_cons_self ..)
      exact ih (kept_step h s this.1 this.2 h1) (fun x hx => hs x (List.mem_cons_of_mem _ hx)) he

end Verif.Vm.StrVal

namespace Verif.Vm.StrVal
open Verif

/-! ## Objects of places exist -/

/-- Every place refers to an object that exists. -/
def Sane (σ : St) : Prop := ∀ p a, σ.place p = .str a → Valid σ a

/-- The object of the element exists. -/
def ValidVal (σ : St) (v : Val) : Prop := ∀ a, v = .str a → Valid σ a

theorem Ext.sane {σ σ1 : St} (h : Ext σ σ1) (hs : Sane σ) : Sane σ1 := by
  intro p a hp
  rw [h.place] at hp
  exact h.valid (hs p a hp)

theorem valid_newStr (σ : St) (t : Text) : ValidVal (newStr σ t).2 (newStr σ t).1 := by
  intro a ha
  simp only [newStr, Val.str.injEq] at ha
  subst ha
  exact Nat.lt_succ_self _

theorem eval_ext {N : Int → Text} (e : Src) : ∀ {σ σ1 : St} {w : Val}, Sane σ → eval N σ e = .ok (w, σ1) →
    Ext σ σ1 ∧ ValidVal σ1 w := by
  induction e with
  | undef =>
    intro σ σ1 w _ he
    simp only [eval, Out.ok.injEq, Prod.mk.injEq] at he
    rw [← he.1, ← he.2]
    exact ⟨Ext.refl _, by simp [ValidVal]⟩
  | int n =>
    intro σ σ1 w _ he
    simp only [eval, Out.ok.injEq, Prod.mk.injEq] at he
    rw [← he.1, ← he.2]
    exact ⟨Ext.refl _, by simp [ValidVal]⟩
  | lit k =>
    intro σ σ1 w _ he
    simp only [eval, Out.ok.injEq, Prod.mk.injEq] at he
    rw [← he.1, ← he.2]
    refine ⟨Ext.refl _, ?_⟩
    intro a ha
    simp only [Val.str.injEq] at ha
    subst ha
    trivial
  | place q =>
    intro σ σ1 w h he
    simp only [eval, Out.ok.injEq, Prod.mk.injEq] at he
    rw [← he.1, ← he.2]
    exact ⟨Ext.refl _, fun a ha => h q a ha⟩
  | add a b iha ihb =>
    intro σ σ1 w h he
    simp only [eval] at he
    cases ha : eval N σ a with
    | err => rw [ha] at he; cases he
    | ub => rw [ha] at he; cases he
    | ok x =>
      obtain ⟨v, σ2⟩ := x
      simp only [ha, Out.bind] at he
      cases hb : eval N σ2 b with
      | err => rw [hb] at he; cases he
      | ub => rw [hb] at he; cases he
      | ok y =>
        obtain ⟨w', σ3⟩ := y
        simp only [hb] at he
        have x1 := (iha h ha).1
        have x3 := x1.trans (ihb (x1.sane h) hb).1
        have key : ∀ t, (newStr σ3 t) = (w, σ1) → Ext σ σ1 ∧ ValidVal σ1 w := by
          intro t ht
          have h1 := congrArg Prod.fst ht
          have h2 := congrArg Prod.snd ht
          simp only at h1 h2
          rw [← h1, ← h2]
          exact ⟨x3.trans (ext_newStr σ3 t), valid_newStr σ3 t⟩
        cases v <;> cases w' <;> simp only [Out.ok.injEq, Prod.mk.injEq, reduceCtorEq] at he
        case int.int =>
          rw [← he.1, ← he.2]
          exact ⟨x3, by simp [ValidVal]⟩
        all_goals exact key _ he
  | meth f a ih =>
    intro σ σ1 w h he
    simp only [eval] at he
    cases ha : eval N σ a with
    | err => rw [ha] at he; cases he
    | ub => rw [ha] at he; cases he
    | ok x =>
      obtain ⟨v, σ2⟩ := x
      simp only [ha, Out.bind] at he
      cases v <;> simp only [Out.ok.injEq, reduceCtorEq] at he
      have h1 := congrArg Prod.fst he
      have h2 := congrArg Prod.snd he
      simp only at h1 h2
      rw [← h1, ← h2]
      exact ⟨(ih h ha).1.trans (ext_newStr σ2 _), valid_newStr σ2 _⟩

theorem sane_place {σ : St} (h : Sane σ) (p : Nat) {v : Val} (hv : ValidVal σ v) (b : Nat → Bool) :
    Sane { σ with place := upd σ.place p v, ro := b } := by
  intro q a hq
  have : upd σ.place p v q = .str a := hq
  have key : Valid σ a := by
    by_cases hp : q = p
    · subst hp
      rw [upd_same] at this
      exact hv a this
    · rw [upd_other _ _ hp] at this
      exact h q a this
  cases a <;> exact key

theorem sane_write {σ : St} (h : Sane σ) (a : Addr) (t : Text) : Sane { σ with heap := upd σ.heap a t } := by
  intro q c hq
  have key : Valid σ c := h q c hq
  cases c <;> exact key

theorem sane_share {σ : St} (h : Sane σ) (p : Nat) {v : Val} (hv : ValidVal σ v) : Sane (share σ p v) := by
  unfold share
  split
  · exact sane_place ((ext_newStr σ _).sane h) p (valid_newStr σ _) _
  · exact sane_place h p hv _

theorem sane_step {N : Int → Text} {σ σ1 : St} (h : Sane σ) (s : Stmt) (he : step N σ s = .ok σ1) : Sane σ1 := by
  cases s with
  | store p e =>
    simp only [step] at he
    cases ha : eval N σ e with
    | err => rw [ha] at he; cases he
    | ub => rw [ha] at he; cases he
    | ok x =>
      obtain ⟨v, σ2⟩ := x
      simp only [ha, Out.bind, store] at he
      obtain ⟨x, hv⟩ := eval_ext e h ha
      have k2 := x.sane h
      split at he
      · cases he
      · cases v with
        | undef => cases he; exact sane_place k2 p hv _
        | int n => cases he; exact sane_place k2 p hv _
        | str a =>
          cases hp : σ2.place p <;> simp only [hp] at he <;> cases he
          · exact sane_place ((ext_newStr σ2 _).sane k2) p (valid_newStr σ2 _) _
          · exact sane_place ((ext_newStr σ2 _).sane k2) p (valid_newStr σ2 _) _
          · exact sane_write k2 _ _
  | share p e =>
    simp only [step] at he
    cases ha : eval N σ e with
    | err => rw [ha] at he; cases he
    | ub => rw [ha] at he; cases he
    | ok x =>
      obtain ⟨v, σ2⟩ := x
      simp only [ha, Out.bind, Out.ok.injEq] at he
      obtain ⟨x, hv⟩ := eval_ext e h ha
      rw [← he]
      exact sane_share (x.sane h) p hv
  | operand p e =>
    simp only [step] at he
    cases ha : eval N σ e with
    | err => rw [ha] at he; cases he
    | ub => rw [ha] at he; cases he
    | ok x =>
      obtain ⟨v, σ2⟩ := x
      simp only [ha, Out.bind] at he
      obtain ⟨x, hv⟩ := eval_ext e h ha
      split at he
      · cases he
      · simp only [Out.ok.injEq] at he
        rw [← he]
        exact sane_share (x.sane h) p hv
  | append p e =>
    simp only [step] at he
    cases ha : eval N σ e with
    | err => rw [ha] at he; cases he
    | ub => rw [ha] at he; cases he
    | ok x =>
      obtain ⟨v, σ2⟩ := x
      simp only [ha, Out.bind, append] at he
      obtain ⟨x, _⟩ := eval_ext e h ha
      have k2 := x.sane h
      cases hp : σ2.place p <;> simp only [hp] at he
      · cases he
      · cases v <;> simp only [Out.ok.injEq, reduceCtorEq] at he
        rw [← he]
        exact sane_place k2 p (by simp [ValidVal]) _
      · simp only [Out.ok.injEq] at he
        rw [← he]
        exact sane_write k2 _ _
  | edit p f =>
    simp only [step] at he
    cases hp : σ.place p <;> simp only [hp, Out.ok.injEq, reduceCtorEq] at he
    rw [← he]
    exact sane_write h _ _
  | editLit k f =>
    simp only [step, Out.ok.injEq] at he
    rw [← he]
    exact sane_write h _ _
  | setter p k =>
    simp only [step, Out.ok.injEq] at he
    rw [← he]
    refine sane_place h p ?_ _
    intro a ha
    simp only [Val.str.injEq] at ha
    subst ha
    trivial

theorem sane_run {N : Int → Text} (ss : List Stmt) : ∀ {σ σ1 : St}, Sane σ → run N σ ss = .ok σ1 → Sane σ1 := by
  induction ss with
  | nil => intro σ σ1 h he; cases he; exact h
  | cons s ss ih =>
    intro σ σ1 h he
    simp only [run] at he
    cases h1 : step N σ s with
    | err => rw [h1] at he; cases he
    | ub => rw [h1] at he; cases he
    | ok σ2 =>
      simp only [h1, Out.bind] at he
      exact ih (sane_step h s h1) he

theorem sane_start (L : Nat → Text) : Sane (start L) := by
  intro p a h
  simp [start] at h

end Verif.Vm.StrVal
