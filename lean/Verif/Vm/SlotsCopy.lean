import Verif.Vm.SlotsStep
/-
Helper lemmas: literals, and copying with `extend` and `+`.
-/
namespace Verif.Slots
open Verif Verif.SlotsSpec

/-! ### Contents that are stale while the destructors run -/

theorem put_keys {s : S} {l : Loc} (h : (s.get l).isSome) (v : Val) : (s.put l v).mem.map (·.1) = s.mem.map (·.1) := by
  simp only [S.put, h, if_true, List.map_map]
  apply List.map_congr_left
  intro e _
  simp only [Function.comp]
  split
  · next e1 => exact e1.symm
  · rfl

theorem cells_put {s : S} {l : Loc} (h : (s.get l).isSome) (v : Val) (o : Nat) : (s.put l v).cells o = s.cells o := by
  unfold S.cells
  rw [put_keys h]

theorem put_mem {s : S} {l : Loc} (h : (s.get l).isSome) (v : Val) :
    s.put l v = { s with mem := s.mem.map (fun e => if e.1 = l then (l, v) else e) } := by
  simp only [S.put, h, if_true]

theorem put_put {s : S} {l : Loc} (h : (s.get l).isSome) (v u : Val) : (s.put l v).put l u = s.put l u := by
  have h1 : ((s.put l v).get l).isSome := by rw [get_put, if_pos rfl]; rfl
  rw [put_mem h1, put_mem h, put_mem h]
  simp only [List.map_map]
  congr 1
  apply List.map_congr_left
  intro e _
  simp only [Function.comp]
  by_cases hne : e.1 = l
  · simp [hne]
  · simp [hne]

theorem put_self {s : S} (hn : Nd s) {l : Loc} {v : Val} (h : s.get l = some v) : s.put l v = s := by
  rw [put_mem (by rw [h]; rfl)]
  have : s.mem.map (fun e => if e.1 = l then (l, v) else e) = s.mem := by
    conv => rhs; rw [← List.map_id s.mem]
    apply List.map_congr_left
    intro e he
    split
    · next e1 =>
      have h2 : s.get e.1 = some e.2 := mem_lookup hn he
      rw [e1, h] at h2
      have h3 : v = e.2 := Option.some.inj h2
      rw [h3, ← e1]; rfl
    · rfl
  rw [this]

theorem put_put_new {s : S} {l : Loc} (h : s.get l = none) (v u : Val) : (s.put l v).put l u = s.put l u := by
  have h1 : ((s.put l v).get l).isSome := by rw [get_put, if_pos rfl]; rfl
  rw [put_mem h1]
  have h0 : (s.get l).isSome = false := by rw [h]; rfl
  simp only [S.put, h0, Bool.false_eq_true, if_false, List.map_append, List.map_cons, List.map_nil, if_true]
  congr 2
  conv => rhs; rw [← List.map_id s.mem]
  apply List.map_congr_left
  intro e he
  rw [if_neg]
  · rfl
  · rintro rfl
    exact absurd rfl (bne_iff_ne.1 (List.lookup_eq_none_iff.1 h e he))

theorem del_put {s : S} {l l' : Loc} (h : (s.get l).isSome) (hne : l' ≠ l) (v : Val) :
    (s.put l v).del l' = (s.del l').put l v := by
  have h1 : ((s.del l').get l).isSome := by rw [get_del, if_neg (Ne.symm hne)]; exact h
  rw [put_mem h, put_mem h1]
  simp only [S.del]
  congr 1
  rw [List.filter_map]
  congr 1
  apply List.filter_congr
  intro e _
  simp only [Function.comp]
  split
  · next e1 => rw [e1]
  · rfl

theorem release_put {s : S} {l : Loc} (v : Val) (t : Nat) (u : Val) :
    release (s.put l v) t u = (release s t u).map fun r => ({ r.1 with mem := (s.put l v).mem }, r.2) := by
  cases u with
  | prim n => rfl
  | obj o => rfl
  | slot k =>
    have := release_mem s (s.put l v).mem t t k
    rw [← this]
    rfl

theorem release_keeps {s : S} {t : Nat} {u : Val} {r : S × List Work} (h : release s t u = .ok r) :
    r.1.mem = s.mem ∧ r.1.live = s.live ∧ killIds r.2 = [] := by
  have hul : ∀ {k o u}, unlink s k o = .ok u → u.mem = s.mem ∧ u.live = s.live := by
    intro k o u hu
    unfold unlink at hu
    split at hu
    · cases hu
    · split at hu
      · cases hu
      · simp only at hu
        split at hu
        · split at hu
          · cases hu; exact ⟨rfl, rfl⟩
          · cases hu
        · cases hu; exact ⟨rfl, rfl⟩
  unfold release at h
  cases u with
  | prim => cases h; exact ⟨rfl, rfl, rfl⟩
  | obj o => cases h; refine ⟨rfl, rfl, ?_⟩; simp only; split <;> rfl
  | slot k =>
    simp only at h
    split at h
    · cases h
    · split at h
      · cases h; exact ⟨rfl, rfl, rfl⟩
      · next o _ =>
        cases hu : unlink s k o with
        | ok u => rw [hu] at h; cases h; exact ⟨(hul hu).1, (hul hu).2, rfl⟩
        | err => rw [hu] at h; cases h
        | ub => rw [hu] at h; cases h

/-- Containers that are being destroyed do not exist afterwards. -/
theorem drain_dead : ∀ (n : Nat) {s s' : S} {w : List Work}, s.live.Nodup → drain n s w = .ok s' →
    (∀ o, o ∈ s'.live → o ∈ s.live) ∧ ∀ o, o ∈ killIds w → o ∉ s'.live
  | n, s, s', [], _, h => by
    cases n <;> (simp only [drain, Out.ok.injEq] at h; subst h; exact ⟨fun _ h => h, by simp [killIds]⟩)
  | 0, s, s', _ :: _, _, h => by simp [drain] at h
  | n + 1, s, s', .unref o :: w, hn, h => by
    simp only [drain] at h
    split at h
    · cases h
    · split at h
      · cases h
      · split at h
        · obtain ⟨h1, h2⟩ := drain_dead n (by exact hn) h
          refine ⟨h1, fun q hq => h2 q ?_⟩
          rw [killIds_kill]
          exact List.mem_cons_of_mem _ hq
        · obtain ⟨h1, h2⟩ := drain_dead n (by exact hn) h
          exact ⟨h1, fun q hq => h2 q hq⟩
  | n + 1, s, s', .kill o [] :: w, hn, h => by
    simp only [drain] at h
    split at h
    · cases h
    · split at h
      · obtain ⟨h1, h2⟩ := drain_dead n (s := { s with live := s.live.erase o }) (hn.erase o) h
        refine ⟨fun q hq => List.mem_of_mem_erase (h1 q hq), ?_⟩
        intro q hq
        rw [killIds_kill] at hq
        rcases List.mem_cons.1 hq with rfl | hq
        · intro hq'
          exact (hn.mem_erase_iff.1 (h1 _ hq')).1 rfl
        · exact h2 q hq
      · cases h
  | n + 1, s, s', .kill o (l :: ls) :: w, hn, h => by
    simp only [drain] at h
    split at h
    · cases h
    · next v _ =>
      cases hr : release (s.del l) o v with
      | err => rw [hr] at h; cases h
      | ub => rw [hr] at h; cases h
      | ok r =>
        rw [hr] at h
        obtain ⟨k1, k2, k3⟩ := release_keeps hr
        have hl : r.1.live = s.live := k2
        obtain ⟨h1, h2⟩ := drain_dead n (by rw [hl]; exact hn) h
        refine ⟨fun q hq => by rw [← hl]; exact h1 q hq, ?_⟩
        intro q hq
        apply h2
        rw [killIds_append, k3, List.nil_append, killIds_kill]
        rw [killIds_kill] at hq
        exact hq

/-- Only the elements of a container are among those to release. -/
def OwnLocs (w : List Work) : Prop := ∀ o ls, .kill o ls ∈ w → ∀ l ∈ ls, ∃ k, l = .elem o k

theorem drain_put {o k : Nat} (v : Val) : ∀ (n : Nat) {s s' : S} {w : List Work}, s.live.Nodup → OwnLocs w →
    (s.get (.elem o k)).isSome → drain n s w = .ok s' → o ∈ s'.live →
    drain n (s.put (.elem o k) v) w = .ok (s'.put (.elem o k) v)
  | n, s, s', [], _, _, _, h, _ => by
    cases n <;> (simp only [drain, Out.ok.injEq] at h; subst h; rfl)
  | 0, s, s', _ :: _, _, _, _, h, _ => by simp [drain] at h
  | n + 1, s, s', .unref q :: w, hn, hw, hg, h, ho => by
    have hw1 : OwnLocs w := fun p ls hp => hw p ls (List.mem_cons_of_mem _ hp)
    simp only [drain] at h ⊢
    have e1 : (s.put (.elem o k) v).live = s.live := rfl
    have e2 : (s.put (.elem o k) v).obj = s.obj := rfl
    rw [e1, e2, cells_put hg]
    split at h
    · cases h
    · next hl =>
      rw [if_neg hl]
      split at h
      · cases h
      · next h0 =>
        rw [if_neg h0]
        let s1 := s.setObj q { s.obj q with shares := (s.obj q).shares - 1 }
        have hc : (s.put (.elem o k) v).setObj q { s.obj q with shares := (s.obj q).shares - 1 } = s1.put (.elem o k) v := rfl
        rw [hc]
        split at h
        · next h1 =>
          rw [if_pos h1]
          refine drain_put v n (s := s1) hn ?_ hg h ho
          intro p ls hp l hl'
          rcases List.mem_cons.1 hp with e | hp
          · cases e
            exact (mem_cells.1 hl').2
          · exact hw1 p ls hp l hl'
        · next h1 =>
          rw [if_neg h1]
          exact drain_put v n (s := s1) hn hw1 hg h ho
  | n + 1, s, s', .kill q [] :: w, hn, hw, hg, h, ho => by
    have hw1 : OwnLocs w := fun p ls hp => hw p ls (List.mem_cons_of_mem _ hp)
    simp only [drain] at h ⊢
    have e1 : (s.put (.elem o k) v).live = s.live := rfl
    have e2 : (s.put (.elem o k) v).obj = s.obj := rfl
    rw [e1, e2]
    split at h
    · cases h
    · next hl =>
      rw [if_neg hl]
      split at h
      · next h0 =>
        rw [if_pos h0]
        exact drain_put v n (s := { s with live := s.live.erase q }) (hn.erase q) hw1 hg h ho
      · cases h
  | n + 1, s, s', .kill q (l :: ls) :: w, hn, hw, hg, h, ho => by
    have hdead := (drain_dead (n + 1) hn h).2 q (by rw [killIds_kill]; simp)
    have hqo : q ≠ o := by rintro rfl; exact hdead ho
    obtain ⟨j, rfl⟩ := hw q (l :: ls) (by simp) l (by simp)
    have hne : Loc.elem q j ≠ .elem o k := by simp [hqo]
    simp only [drain] at h ⊢
    rw [get_put, if_neg hne]
    split at h
    · cases h
    · next u hu =>
      rw [del_put hg hne]
      have hg1 : ((s.del (.elem q j)).get (.elem o k)).isSome := by rw [get_del, if_neg (Ne.symm hne)]; exact hg
      rw [release_put]
      cases hr : release (s.del (.elem q j)) q u with
      | err => rw [hr] at h; cases h
      | ub => rw [hr] at h; cases h
      | ok r =>
        rw [hr] at h
        obtain ⟨k1, k2, k3⟩ := release_keeps hr
        have hg2 : (r.1.get (.elem o k)).isSome := by
          have : r.1.get (.elem o k) = (s.del (.elem q j)).get (.elem o k) := by simp only [S.get, k1]
          rw [this]; exact hg1
        have e3 : ({ r.1 with mem := ((s.del (.elem q j)).put (.elem o k) v).mem } : S) = r.1.put (.elem o k) v := by
          rw [put_mem hg2, put_mem hg1]
          simp only [k1]
        simp only [Out.map, Out.bind, e3]
        have hl : r.1.live = s.live := k2
        refine drain_put v n (by rw [hl]; exact hn) ?_ hg2 h ho
        intro p ms hp l' hl'
        rcases List.mem_append.1 hp with hp | hp
        · have : p ∈ killIds r.2 := mem_killIds.2 ⟨ms, hp⟩
          rw [k3] at this; cases this
        · rcases List.mem_cons.1 hp with e | hp
          · cases e
            exact hw q (.elem q j :: ls) (by simp) l' (List.mem_cons_of_mem _ hl')
          · exact hw p ms (List.mem_cons_of_mem _ hp) l' hl'

/-! ### An element that is overwritten by key -/

/-- The element `k` of `o` is released and written; `o` survives since it waits or since a variable leads to it. -/
theorem releaseElem_ok {G : Nat → Prop} {s : S} {A : Heap} (h : St G Z s A) {o k : Nat} (ho : o ∈ s.live)
    (hro : o ∈ s.zero ∨ A.Reach (fun q _ => q = o) o) :
    ∃ u, releaseElem s o k = .ok u ∧ (∀ n, St G Z (u.put (.elem o k) (.prim n)) (A.write (.elem o k) (.prim n))) ∧ u.zero = s.zero ∧
      (u.get (.elem o k)).isSome ∧ (∀ m, s.get (.elem o k) = some (.prim m) → u = s) ∧
      (∀ {l i}, l ≠ .elem o k → u.get l = some (.slot i) → u.slot i = s.slot i) ∧
      (∀ x, u.get (.var x) = s.get (.var x)) ∧ (∀ {p j}, p ∈ u.live → ¬ (p = o ∧ j = k) → u.get (.elem p j) = s.get (.elem p j)) := by
  cases hg : s.get (.elem o k) with
  | none =>
    have hu : ((s.put (.elem o k) (.prim 0)).get (.elem o k)).isSome := by rw [get_put, if_pos rfl]; rfl
    refine ⟨s.put (.elem o k) (.prim 0), by simp only [releaseElem, hg], ?_, rfl, hu, (fun m e => by cases e), (fun _ _ => rfl),
      (fun x => by rw [get_put, if_neg (by simp)]), (fun _ hne => by rw [get_put, if_neg (by simpa using hne)])⟩
    intro n
    rw [put_put_new hg]
    exact addPrim_ok h ho hg n
  | some old =>
    -- the memory with the old contents overwritten
    obtain ⟨s1, w, e, hj, hs, hw⟩ := release_ok (W0 := []) (W1 := []) o h.j hg (fun e => h.sf o k (by rw [hg, e])) (fun _ => rfl) rfl (fun _ _ e => by cases e)
    rw [List.append_nil] at hj
    have hgs : (s.get (.elem o k)).isSome := by rw [hg]; rfl
    have hkw : killIds w = [] := (release_keeps e).2.2
    let s2 : S := { s1 with mem := (s.put (.elem o k) (.prim 0)).mem }
    have hi0 := Ins.put_old h.j.nd hg (.prim 0)
    have g1 : ∀ l', s1.get l' = (s.del (.elem o k)).get l' := fun l' => by simp only [S.get, hs.mem]
    have hi : Ins s1 s2 (.elem o k) (.prim 0) := by
      refine ⟨hi0.nd, ?_, ?_⟩
      · intro l'; rw [g1]; exact hi0.get l'
      · intro P; rw [hs.mem]; exact hi0.cP P
    have j2 : J G Z s2 w := J_ins hj hi (by rw [g1, get_del, if_pos rfl]) ⟨by rw [hs.live]; exact ho, by rw [hkw]; simp⟩
      (fun _ e => by cases e) (fun _ e => by cases e) (fun q => by simp [tgt, b2n]) rfl rfl rfl rfl rfl rfl rfl
    have gs : ∀ l', s2.get l' = if l' = .elem o k then some (.prim 0) else s.get l' := get_put s _ _
    have hsl : ∀ {l' d}, l' ≠ .elem o k → s.get l' = some (.slot d) → s2.slot d = s.slot d := by
      intro l' d hne hd
      apply hs.slot
      rintro rfl
      obtain ⟨_, e3⟩ := h.j.slt hd
      obtain ⟨_, e4⟩ := h.j.slt hg
      rw [e3] at e4; cases e4
      exact hne rfl
    have r2 : Rl s2 (A.write (.elem o k) (.prim 0)) :=
      h.rl.write (s2 := s2) (v := .prim 0) hs.live hs.nextO gs hsl (fun _ _ e => by cases e) (fun p j e => by cases e; exact h.j.bo ho)
    have a2 : Act s2 := by
      intro l' d hd
      rw [gs] at hd
      split at hd
      · cases hd
      · next hne => rw [hsl hne hd]; exact h.act l' d hd
    obtain ⟨t, et, jt, ft, _⟩ := run_ok j2
    have rt := r2.frame ft jt
    have hzt : t.zero = s.zero := ft.zero.trans hs.zero
    have hot : o ∈ t.live := by
      rcases hro with hz | hro
      · exact (jt.zer.1 (by rw [hzt]; exact hz)).1
      · refine rt.reach_live jt (av0 := fun q _ => q = o) (reach_mono (A := A) (B := A.write (.elem o k) (.prim 0)) (fun _ => rfl) ?_ hro)
        intro q j hne
        refine ⟨?_, hne⟩
        simp [Heap.write, Heap.setElem, hne]
    have gt : t.get (.elem o k) = some (.prim 0) := by rw [ft.elem k hot, gs, if_pos rfl]
    have gts : (t.get (.elem o k)).isSome := by rw [gt]; rfl
    have ht : St G Z t (A.write (.elem o k) (.prim 0)) := ⟨jt, a2.frame ft jt, rt,
      Sf.frame (s := s2) (h.sf.write gs (fun _ _ _ e => by cases e)) ft jt⟩
    have g2s : (s2.get (.elem o k)).isSome := by rw [gs, if_pos rfl]; rfl
    -- the same with the old contents still there
    have hrun := drain_put (o := o) (k := k) old (budget s2 w) (s := s2) (s' := t) (w := w) j2.ln ?_ g2s et hot
    · have hput2 : s2.put (.elem o k) old = { s1 with mem := s.mem } := by
        have h3 : (s.put (.elem o k) (.prim 0)).put (.elem o k) old = s := by rw [put_put hgs, put_self h.j.nd hg]
        have h4 : (s2.put (.elem o k) old).mem = s.mem := by
          have : (s2.put (.elem o k) old).mem = ((s.put (.elem o k) (.prim 0)).put (.elem o k) old).mem := by
            rw [put_mem g2s, put_mem (s := s.put (.elem o k) (.prim 0)) (by rw [get_put, if_pos rfl]; rfl)]
          rw [this, h3]
        rw [← h4, put_mem g2s]
      have hbud : budget s2 w = budget ({ s1 with mem := s.mem } : S) w := by
        have : s2.mem.length = s.mem.length := by
          have := congrArg List.length (put_keys hgs (.prim 0))
          simp only [List.length_map] at this
          exact this
        simp only [budget, this]
        rfl
      have hrel : release s o old = .ok ({ s1 with mem := s.mem }, w) := by
        cases old with
        | prim n => cases e; rfl
        | obj q => cases e; rfl
        | slot i =>
          have := release_mem (s.del (.elem o k)) s.mem o o i
          rw [e] at this
          exact this
      refine ⟨t.put (.elem o k) old, ?_, ?_, hzt, by rw [get_put, if_pos rfl]; rfl, ?_, ?_, ?_, ?_⟩
      · simp only [releaseElem, hg, hrel, Out.bind, run]
        rw [← hbud, ← hput2]
        exact hrun
      · intro n
        rw [put_put gts]
        have h5 := put_ok ht gt ⟨hot, by simp [killIds]⟩ (fun i e => by cases e) n
        rw [write_write] at h5
        exact h5
      · intro m hm
        cases hm
        cases e
        have : t = s2 := by
          have : Out.ok t = Out.ok s2 := by rw [← et]; simp only [run, drain]
          exact Out.ok.inj this
        rw [this, hput2]
        rfl
      · intro l i hne hi'
        rw [get_put, if_neg hne] at hi'
        show t.slot i = s.slot i
        have hb := ft.get_back jt hi'
        rw [ft.slot hi']
        rw [gs, if_neg hne] at hb
        exact hsl hne hb
      · intro x
        rw [get_put, if_neg (by simp), ft.var, gs, if_neg (by simp)]
      · intro p j hp hne
        have hne' : Loc.elem p j ≠ .elem o k := by simpa using hne
        rw [get_put, if_neg hne', ft.elem j hp, gs, if_neg hne']
    · intro q ls hq
      have : q ∈ killIds w := mem_killIds.2 ⟨ls, hq⟩
      rw [hkw] at this; cases this

end Verif.Slots
