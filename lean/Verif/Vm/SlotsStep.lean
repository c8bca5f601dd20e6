import Verif.Vm.SlotsStore
/-
Helper lemmas: statements that assign to elements, add, remove and end variables, and the sweep.
-/
namespace Verif.Slots
open Verif Verif.SlotsSpec

theorem good_same {s s' : S} (hsl : s'.slot = s.slot) (hl : s'.live = s.live) {v : Val} (h : Good s v) : Good s' v := by
  cases v with
  | prim => trivial
  | obj o => obtain ⟨p, a, b⟩ := h; exact ⟨p, a, by rw [hl]; exact b⟩
  | slot k => obtain ⟨p, a, b⟩ := h; exact ⟨p, by rw [tgt_same hsl]; exact a, by rw [hl]; exact b⟩

/-! ### Assignment to elements -/

theorem pushElem_ok {G : Nat → Prop} {s : S} {A : Heap} (h : St G Z s A) {o k : Nat} {v : Val} (ho : o ∈ s.live) (hv : Good s v)
    (hro : A.Reach (fun q _ => q = o) o)
    (hX : ∀ X, tgt s v = some X → A.elem o k = some (.ref X) ∨ X ∈ s.zero ∨ A.Reach (fun q j => q = o ∧ j = k) X) :
    ∃ t, vmStore (pushElem s o k).2 (pushElem s o k).1 v = .ok t ∧ St G Z t (A.setElem o k (some (av s v))) := by
  obtain ⟨B, old, hB, hg, hw, hsome, hnone, _, hslot, hlive, hzero, _, hBA⟩ := ensure_ok h (l := .elem o k) ⟨ho, by simp [killIds]⟩
  have hw' : ∀ a, A.setElem o k (some a) = B.write (.elem o k) a := fun a => (hw a).symm
  have hv' : Good (ensure s (.elem o k)) v := good_same hslot hlive hv
  have hav : av (ensure s (.elem o k)) v = av s v := av_congr (tgt_same hslot v)
  rw [hw', ← hav]
  cases hold : old with
  | slot i =>
    rw [hold] at hg
    have e : pushElem s o k = (.slot i, ensure s (.elem o k)) := by simp only [pushElem, hg]
    rw [e]
    have hBA' : B = A := by
      rcases hBA with e | ⟨_, e⟩
      · exact e
      · rw [hold] at hnone; cases hnone e
    subst hBA'
    refine storeOver_ok hB hg hv' hro ?_
    intro X ht
    rw [hzero]
    exact hX X (by rw [← tgt_same hslot]; exact ht)
  | prim m =>
    rw [hold] at hg
    have e : pushElem s o k = (.slot (newSlot (ensure s (.elem o k)) (.elem o k)).1, (newSlot (ensure s (.elem o k)) (.elem o k)).2) := by
      simp only [pushElem, hg]
    rw [e]
    exact storeNew_ok hB hg (fun i e => by cases e) hv'
  | obj q =>
    rw [hold] at hg
    have e : pushElem s o k = (.slot (newSlot (ensure s (.elem o k)) (.elem o k)).1, (newSlot (ensure s (.elem o k)) (.elem o k)).2) := by
      simp only [pushElem, hg]
    rw [e]
    exact storeNew_ok hB hg (fun i e => by cases e) hv'

/-- Between brackets: the element must not hold a slot if an object is assigned. -/
theorem pushItem_ok {G : Nat → Prop} {s : S} {A : Heap} (h : St G Z s A) {o k : Nat} {v : Val} (ho : o ∈ s.live) (hv : Good s v)
    (hX : ∀ X, tgt s v = some X → ∀ q, A.elem o k ≠ some (.ref q)) :
    ∃ t, vmStore (pushItem s o k).2 (pushItem s o k).1 v = .ok t ∧ St G Z t (A.setElem o k (some (av s v))) := by
  obtain ⟨B, old, hB, hg, hw, hsome, hnone, _, hslot, hlive, hzero, _, hBA⟩ := ensure_ok h (l := .elem o k) ⟨ho, by simp [killIds]⟩
  have hw' : ∀ a, A.setElem o k (some a) = B.write (.elem o k) a := fun a => (hw a).symm
  have hv' : Good (ensure s (.elem o k)) v := good_same hslot hlive hv
  have hav : av (ensure s (.elem o k)) v = av s v := av_congr (tgt_same hslot v)
  rw [hw', ← hav]
  have e : pushItem s o k = (.slot (newSlot (ensure s (.elem o k)) (.elem o k)).1, (newSlot (ensure s (.elem o k)) (.elem o k)).2) := rfl
  rw [e]
  cases hold : old with
  | slot i =>
    rw [hold] at hg
    have hBA' : B = A := by
      rcases hBA with e | ⟨_, e⟩
      · exact e
      · rw [hold] at hnone; cases hnone e
    subst hBA'
    rcases hv'.cases with ⟨n, rfl⟩ | ⟨X, ht, _⟩
    · obtain ⟨hn, hd, hno⟩ := newSlot_ok hB (.elem o k)
      have hg' : (newSlot (ensure s (.elem o k)) (.elem o k)).2.get (.elem o k) = some (.slot i) := hg
      obtain ⟨t, e, hst, _⟩ := putSlot_ok hn hg' n
      refine ⟨t, ?_, hst⟩
      unfold vmStore
      simp only [hd, hg', dropOld, if_neg Bool.false_ne_true, e, Out.bind]
    · obtain ⟨X', ht', hl', ha', _⟩ : ∃ X', tgt (ensure s (.elem o k)) (.slot i) = some X' ∧ X' ∈ (ensure s (.elem o k)).live ∧
          av (ensure s (.elem o k)) (.slot i) = .ref X' ∧ True := by
        rcases (hB.good hg).cases with ⟨n, e⟩ | ⟨X', a, b, c, _⟩
        · cases e
        · exact ⟨X', a, b, c, trivial⟩
      have hel : B.elem o k = some (.ref X') := by
        rw [← hB.rl.elem k (by rw [hlive]; exact ho), hg]
        simp [ha']
      exact absurd hel (hX X (by rw [← tgt_same hslot]; exact ht) X')
  | prim m =>
    rw [hold] at hg
    exact storeNew_ok hB hg (fun i e => by cases e) hv'
  | obj q =>
    rw [hold] at hg
    exact storeNew_ok hB hg (fun i e => by cases e) hv'

/-! ### New elements without slot -/

theorem addPrim_ok {G : Nat → Prop} {s : S} {A : Heap} (h : St G Z s A) {o k : Nat} (ho : o ∈ s.live) (hg : s.get (.elem o k) = none) (n : Nat) :
    St G Z (s.put (.elem o k) (.prim n)) (A.setElem o k (some (.prim n))) := by
  have hi := Ins.put_new h.j.nd hg (.prim n)
  refine ⟨?_, ?_, ?_, h.sf.write hi.get (fun _ _ _ e => by cases e)⟩
  · exact J_ins h.j hi hg ⟨ho, by simp [killIds]⟩ (fun _ e => by cases e) (fun _ e => by cases e) (fun q => by simp [tgt, b2n]) rfl rfl rfl rfl rfl rfl rfl
  · intro l' i hk
    rw [hi.get] at hk
    split at hk
    · cases hk
    · exact h.act l' i hk
  · exact h.rl.write (s2 := s.put (.elem o k) (.prim n)) (l := .elem o k) (v := .prim n) rfl rfl hi.get (fun _ _ => rfl)
      (fun _ _ e => by cases e) (fun p j e => by cases e; exact h.j.bo ho)

theorem addObj_ok {G : Nat → Prop} {s : S} {A : Heap} (h : St G Z s A) {o k p : Nat} (ho : o ∈ s.live) (hg : s.get (.elem o k) = none)
    (hp : p ∈ s.live) (hsf : p = o → G o) :
    ∃ t, share (s.put (.elem o k) (.obj p)) p = .ok t ∧ St G Z t (A.setElem o k (some (.ref p))) := by
  have hi0 := Ins.put_new h.j.nd hg (.obj p)
  have hi : Ins (sh s p) (sh (s.put (.elem o k) (.obj p)) p) (.elem o k) (.obj p) := ⟨hi0.nd, hi0.get, hi0.cP⟩
  refine ⟨_, share_eq hp fun h0 => h.j.zer.2 ⟨hp, h0, by simp [killIds]⟩, ?_, ?_, ?_,
    Sf.write (s2 := sh (s.put (.elem o k) (.obj p)) p) h.sf (get_put s _ _) (fun q i e e' => by cases e; cases e'; exact hsf rfl)⟩
  · refine J_ins (h.j.sh (o := p) hp) hi hg ⟨ho, by simp [killIds]⟩ (fun _ e => by cases e) ?_ ?_ rfl rfl rfl rfl rfl rfl rfl
    · intro q e
      cases e
      exact hp
    · intro q
      have h1 := tv_tgt (s := sh s p) (v := .obj p) (fun k => by simp) q
      rw [h1]; rfl
  · intro l' i hk
    have hk : (s.put (.elem o k) (.obj p)).get l' = some (.slot i) := hk
    rw [get_put] at hk
    split at hk
    · cases hk
    · exact h.act l' i hk
  · have := h.rl.write (s2 := sh (s.put (.elem o k) (.obj p)) p) (l := .elem o k) (v := .obj p) rfl rfl (get_put s _ _) (fun _ _ => rfl)
      (fun _ _ e => by cases e) (fun p j e => by cases e; exact h.j.bo ho)
    exact this

/-! ### Removal -/

theorem Rl.del {G : Nat → Prop} {s s1 : S} {A B : Heap} (r : Rl s A) (j : J G Z s []) {l : Loc} {v : Val} (hg : s.get l = some v) (hs : RelSame s s1 l v)
    (hB : (∀ x, l = .var x → B = A.setVar x (.prim 0)) ∧ ∀ o k, l = .elem o k → B = A.setElem o k none) : Rl s1 B := by
  have g1 : ∀ l', s1.get l' = if l' = l then none else s.get l' := fun l' => by
    rw [← get_del]; simp only [S.get, hs.mem]
  have hav : ∀ {l' u}, l' ≠ l → s.get l' = some u → av s1 u = av s u := by
    intro l' u hne hu
    apply av_congr; apply tgt_slot
    rintro i rfl
    apply hs.slot
    rintro rfl
    obtain ⟨_, e1⟩ := j.slt hu
    obtain ⟨_, e2⟩ := j.slt hg
    rw [e1] at e2; cases e2
    exact hne rfl
  have hm : ∀ l', l' ≠ l → (s1.get l').map (av s1) = (s.get l').map (av s) := by
    intro l' hne
    rw [g1, if_neg hne]
    cases hu : s.get l' with
    | none => rfl
    | some u => simp [hav hne hu]
  have hself : s1.get l = none := by rw [g1, if_pos rfl]
  have hvs : ∀ x k, s1.get (.var x) ≠ some (.slot k) := by
    intro x k
    rw [g1]
    split
    · simp
    · exact r.vs x k
  cases l with
  | var y =>
    obtain rfl := hB.1 y rfl
    refine ⟨?_, ?_, hs.nextO.trans r.nx, hvs, r.fr⟩
    · intro x
      by_cases hx : x = y
      · subst hx; rw [hself]; simp [Heap.setVar]
      · rw [hm _ (by simpa using hx)]
        simp only [Heap.setVar, hx, if_false]
        exact r.var x
    · intro o k ho
      rw [hm _ (by simp)]
      exact r.elem k (by rw [← hs.live]; exact ho)
  | elem p j =>
    obtain rfl := hB.2 p j rfl
    refine ⟨?_, ?_, hs.nextO.trans r.nx, hvs, ?_⟩
    · intro x; rw [hm _ (by simp)]; exact r.var x
    · intro o k ho
      by_cases hx : o = p ∧ k = j
      · obtain ⟨rfl, rfl⟩ := hx
        rw [hself]; simp [Heap.setElem]
      · rw [hm _ (by simpa using hx)]
        simp only [Heap.setElem, hx, if_false]
        exact r.elem k (by rw [← hs.live]; exact ho)
    · intro o k ho
      simp only [Heap.setElem]
      split
      · rfl
      · exact r.fr k ho

/-- A stack element is released and removed. -/
theorem drop_ok {G : Nat → Prop} {s : S} {A B : Heap} (h : St G Z s A) {l : Loc} {v : Val} (this : Nat) (hg : s.get l = some v)
    (hG : v = .obj this → G this)
    (hB : (∀ x, l = .var x → B = A.setVar x (.prim 0)) ∧ ∀ o k, l = .elem o k → B = A.setElem o k none) :
    ∃ t, ((release (s.del l) this v).bind fun r => run r.1 r.2) = .ok t ∧ St G Z t B := by
  obtain ⟨s1, w, e, hj, hs, _⟩ := release_ok (W0 := []) (W1 := []) this h.j hg hG (fun _ => rfl) rfl (fun _ _ e => by cases e)
  rw [List.append_nil] at hj
  have r1 := h.rl.del h.j hg hs hB
  have a1 : Act s1 := by
    intro l' i hi
    have hi' : s1.get l' = (s.del l).get l' := by simp only [S.get, hs.mem]
    rw [hi', get_del] at hi
    split at hi
    · cases hi
    · next hne =>
      rw [hs.slot i]
      · exact h.act l' i hi
      · rintro rfl
        obtain ⟨_, e1⟩ := h.j.slt hi
        obtain ⟨_, e2⟩ := h.j.slt hg
        rw [e1] at e2; cases e2
        exact hne rfl
  obtain ⟨t, et, jt, ft, _⟩ := run_ok hj
  have sf1 : Sf G s1 := by
    intro q i hi
    have hi' : s1.get (.elem q i) = (s.del l).get (.elem q i) := by simp only [S.get, hs.mem]
    rw [hi', get_del] at hi
    split at hi
    · cases hi
    · exact h.sf q i hi
  refine ⟨t, ?_, jt, a1.frame ft jt, r1.frame ft jt, sf1.frame ft jt⟩
  rw [e]; exact et

theorem del_none {s : S} {l : Loc} (h : s.get l = none) : s.del l = s := by
  have : s.mem.filter (fun e => decide (e.1 ≠ l)) = s.mem := by
    apply List.filter_eq_self.2
    intro e he
    simp only [decide_eq_true_eq]
    rintro rfl
    have hn : s.mem.lookup e.1 = none := h
    exact absurd rfl (bne_iff_ne.1 (List.lookup_eq_none_iff.1 hn e he))
  unfold S.del
  rw [this]

theorem setVar_self {A : Heap} {x : Nat} (h : A.var x = .prim 0) : A.setVar x (.prim 0) = A := by
  apply heap_ext
  · funext y
    simp only [Heap.setVar]
    split
    · next e => rw [e, h]
    · rfl
  · rfl
  · rfl

theorem leave_ok {G : Nat → Prop} {s : S} {A : Heap} (h : St G Z s A) (x : Nat) : ∃ t, leaveVar s x = .ok t ∧ St G Z t (A.setVar x (.prim 0)) := by
  have hB : (∀ y, Loc.var x = .var y → A.setVar x (.prim 0) = A.setVar y (.prim 0)) ∧
      ∀ o k, Loc.var x = .elem o k → A.setVar x (.prim 0) = A.setElem o k none :=
    ⟨fun y e => by cases e; rfl, fun _ _ e => by cases e⟩
  cases hg : s.get (.var x) with
  | none =>
    refine ⟨s, by simp only [leaveVar, hg, del_none hg], ?_⟩
    have : A.var x = .prim 0 := by rw [← h.rl.var x, hg]; rfl
    rw [setVar_self this]; exact h
  | some v =>
    cases v with
    | prim n =>
      obtain ⟨t, e, ht⟩ := drop_ok h 0 hg (fun e => by cases e) hB
      refine ⟨t, ?_, ht⟩
      simp only [leaveVar, hg]
      simpa [release, Out.bind, run, drain] using e
    | obj o =>
      obtain ⟨t, e, ht⟩ := drop_ok h (o + 1) hg (fun e => by cases e) hB
      refine ⟨t, ?_, ht⟩
      simp only [leaveVar, hg]
      simpa [release, Out.bind] using e
    | slot k => exact absurd hg (h.rl.vs x k)

/-! ### The sweep -/

theorem J_kill {G : Nat → Prop} {s : S} (h : J G Z s []) {o : Nat} (ho : o ∈ s.zero) : J G Z { s with zero := s.zero.erase o } [.kill o (s.cells o)] := by
  have hz := h.zer.1 ho
  have hid : killIds [.kill o (s.cells o)] = [o] := rfl
  refine ⟨h.nd, h.ln, h.zn.erase o, h.cn, h.own, h.tgl, h.slt, h.fwd, h.ref, h.rn, ?_, ?_, ?_, ?_, ?_, h.cyc, h.bo, h.bs⟩
  · intro q hq
    have := h.ex hq
    simp only [List.count_nil] at this
    have h2 : List.count (Work.unref q) [Work.kill o (s.cells o)] = 0 := by simp
    rw [h2]; exact this
  · intro q hq; simp at hq
  · intro q
    rw [hid, h.zn.mem_erase_iff, h.zer]
    simp only [killIds, List.filterMap_nil, List.not_mem_nil, not_false_eq_true, and_true, List.mem_singleton]
    exact ⟨fun ⟨a, b, c⟩ => ⟨b, c, a⟩, fun ⟨a, b, c⟩ => ⟨c, a, b⟩⟩
  · rw [hid]; simp
  · intro q ls hq
    rw [List.mem_singleton] at hq
    cases hq
    refine ⟨hz.1, hz.2.1, nodup_cells h.nd _, ?_⟩
    intro l
    rw [mem_cells]
    rfl

theorem sweep_ok {G : Nat → Prop} : ∀ (os : List Nat) {s : S} {A : Heap}, St G Z s A → s.zero = os → ∃ t, sweepAll s os = .ok t ∧ St G Z t A ∧ t.zero = []
  | [], s, A, h, hz => ⟨s, rfl, h, hz⟩
  | o :: os, s, A, h, hz => by
    have ho : o ∈ s.zero := by rw [hz]; simp
    have hl := (h.j.zer.1 ho).1
    obtain ⟨t, et, jt, ft, _⟩ := run_ok (J_kill h.j ho)
    have ht : St G Z t A := ⟨jt, Act.frame (s := { s with zero := s.zero.erase o }) h.act ft jt,
      Rl.frame (s := { s with zero := s.zero.erase o }) (h.rl.same rfl rfl rfl rfl) ft jt,
      Sf.frame (s := { s with zero := s.zero.erase o }) h.sf ft jt⟩
    have hzt : t.zero = os := by
      rw [ft.zero]
      show s.zero.erase o = os
      rw [hz]; simp
    obtain ⟨t', e, h1, h2⟩ := sweep_ok os ht hzt
    refine ⟨t', ?_, h1, h2⟩
    simp only [sweepAll, hl, not_true_eq_false, if_false, et, Out.bind]
    exact e

end Verif.Slots
