import Verif.Vm.SlotsOps
/-
Helper lemmas: assignment to elements of containers, through slots.
-/
namespace Verif.Slots
open Verif Verif.SlotsSpec

theorem J.noslot {G : Nat → Prop} {τ : Nat → Nat} {s : S} {w : List Work} (h : J G τ s w) {k : Nat} (hk : s.slot k = none) (l : Loc) : s.get l ≠ some (.slot k) := by
  intro e
  obtain ⟨_, e2⟩ := h.slt e
  rw [hk] at e2; cases e2

theorem newSlot_ok {G : Nat → Prop} {s : S} {A : Heap} (h : St G Z s A) (l : Loc) :
    St G Z (newSlot s l).2 A ∧ (newSlot s l).2.slot (newSlot s l).1 = some ⟨none, l⟩ ∧
      (∀ l', (newSlot s l).2.get l' ≠ some (.slot (newSlot s l).1)) := by
  have hk : s.slot s.nextS = none := by
    cases e : s.slot s.nextS with
    | none => rfl
    | some sl => exact absurd (h.j.bs e) (Nat.lt_irrefl _)
  have hno := h.j.noslot hk
  have hsl : ∀ j, (newSlot s l).2.slot j = if j = s.nextS then some ⟨none, l⟩ else s.slot j := fun _ => rfl
  have hsl' : ∀ {l' j}, s.get l' = some (.slot j) → (newSlot s l).2.slot j = s.slot j := by
    intro l' j hj
    rw [hsl, if_neg]
    rintro rfl
    exact hno _ hj
  refine ⟨⟨?_, ?_, ?_, h.sf⟩, ?_, hno⟩
  · refine J_slot (k := s.nextS) h.j rfl rfl rfl rfl rfl rfl (Nat.le_succ _) hno (by rw [hk]; simp) ?_ (Nat.lt_succ_self _) ?_
    · rw [hsl, if_pos rfl]; simp
    · intro j hj; rw [hsl, if_neg hj]
  · intro l' j hj
    rw [hsl' hj]; exact h.act l' j hj
  · have ha : ∀ {l' v}, s.get l' = some v → av (newSlot s l).2 v = av s v := by
      intro l' v hv
      apply av_congr; apply tgt_slot
      rintro j rfl
      exact hsl' hv
    have hm : ∀ l', ((newSlot s l).2.get l').map (av (newSlot s l).2) = (s.get l').map (av s) := by
      intro l'
      have e : (newSlot s l).2.get l' = s.get l' := rfl
      rw [e]
      cases hv : s.get l' with
      | none => rfl
      | some v => simp [ha hv]
    exact ⟨fun x => by rw [hm]; exact h.rl.var x, fun k ho => by rw [hm]; exact h.rl.elem k ho, h.rl.nx, h.rl.vs, h.rl.fr⟩
  · rw [hsl]; exact if_pos rfl

/-- The effect of `assignSlot` on a slot that refers to nothing. -/
def asg (s : S) (d X : Nat) (l : Loc) : S :=
  let s1 := ((s.setObj X { s.obj X with refs := (s.obj X).refs ++ [d] }).setSlot d (some ⟨some X, l⟩)).put l (.slot d)
  if X ∈ s1.cyc then s1 else { s1 with cyc := s1.cyc ++ [X] }

theorem assign_eq {s : S} {d X : Nat} {l : Loc} (hd : s.slot d = some ⟨none, l⟩) (hX : X ∈ s.live) :
    assignSlot s d X = .ok (asg s d X l) := by
  simp only [assignSlot, setSrc, hd, Out.bind, hX, not_true_eq_false, if_false, ne_eq, Out.map]
  rfl

theorem asg_fields (s : S) (d X : Nat) (l : Loc) : (asg s d X l).mem = (s.put l (.slot d)).mem ∧ (asg s d X l).live = s.live ∧
    (asg s d X l).zero = s.zero ∧ (asg s d X l).nextO = s.nextO ∧ (asg s d X l).nextS = s.nextS ∧
    (∀ q, ((asg s d X l).obj q).shares = (s.obj q).shares) ∧
    (∀ q, ((asg s d X l).obj q).refs = if q = X then (s.obj X).refs ++ [d] else (s.obj q).refs) ∧
    (∀ j, (asg s d X l).slot j = if j = d then some ⟨some X, l⟩ else s.slot j) ∧
    (∀ q, q ∈ (asg s d X l).cyc ↔ q ∈ s.cyc ∨ q = X) ∧ (s.cyc.Nodup → (asg s d X l).cyc.Nodup) := by
  have hcyc : (((s.setObj X { s.obj X with refs := (s.obj X).refs ++ [d] }).setSlot d (some ⟨some X, l⟩)).put l (.slot d)).cyc = s.cyc := rfl
  by_cases hX : X ∈ s.cyc
  · have e : asg s d X l = ((s.setObj X { s.obj X with refs := (s.obj X).refs ++ [d] }).setSlot d (some ⟨some X, l⟩)).put l (.slot d) := by
      simp only [asg, hcyc, hX, if_true]
    rw [e]
    refine ⟨rfl, rfl, rfl, rfl, rfl, ?_, ?_, fun j => rfl, ?_, fun h => h⟩
    · intro q
      show (if q = X then _ else s.obj q).shares = _
      split
      · next e => rw [e]
      · rfl
    · intro q
      show (if q = X then _ else s.obj q).refs = _
      split <;> rfl
    · intro q
      rw [hcyc]
      exact ⟨Or.inl, fun h => h.elim id fun e => e ▸ hX⟩
  · have e : asg s d X l = { (((s.setObj X { s.obj X with refs := (s.obj X).refs ++ [d] }).setSlot d (some ⟨some X, l⟩)).put l (.slot d)) with cyc := s.cyc ++ [X] } := by
      simp only [asg, hcyc, hX, if_false]
    rw [e]
    refine ⟨rfl, rfl, rfl, rfl, rfl, ?_, ?_, fun j => rfl, ?_, ?_⟩
    · intro q
      show (if q = X then _ else s.obj q).shares = _
      split
      · next e => rw [e]
      · rfl
    · intro q
      show (if q = X then _ else s.obj q).refs = _
      split <;> rfl
    · intro q; simp
    · intro h
      refine List.nodup_append.2 ⟨h, by simp, ?_⟩
      intro a ha b hb hab
      rw [List.mem_singleton] at hb
      rw [hab, hb] at ha
      exact hX ha

theorem fin_ok {G : Nat → Prop} {s : S} {A : Heap} {o k : Nat} {old : Val} {d X : Nat} (j : J G Z s []) (r : Rl s A) (sf : Sf G s)
    (act : ∀ l' i, l' ≠ .elem o k → s.get l' = some (.slot i) → (s.slot i).bind (·.src) ≠ none)
    (hg : s.get (.elem o k) = some old) (hd : s.slot d = some ⟨none, .elem o k⟩) (hX : X ∈ s.live)
    (hold : old = .slot d ∨ (∀ i, old ≠ .slot i) ∧ ∀ l', s.get l' ≠ some (.slot d)) :
    ∃ t, ((assignSlot s d X).bind fun s => share s X) = .ok t ∧ St G (tv old) t (A.write (.elem o k) (.ref X)) ∧
      (∀ q, old = .obj q → q ∈ t.live) ∧ ∀ q, q ∈ s.zero → q ≠ X → q ∈ t.zero := by
  have ho : o ∈ s.live := j.own hg
  obtain ⟨f1, f2, f3, f4, f5, f6, f7, f8, f9, f10⟩ := asg_fields s d X (.elem o k)
  have hdS : d < s.nextS := j.bs hd
  -- the memory without the old entry
  obtain ⟨s0, h0, m0, l0, z0, O0, S0, b0, c0, sl0, k0⟩ : ∃ s0 : S, J G (tv old) s0 [] ∧ s0.mem = (s.del (.elem o k)).mem ∧ s0.live = s.live ∧
      s0.zero = s.zero ∧ s0.nextO = s.nextO ∧ s0.nextS = s.nextS ∧ s0.obj = s.obj ∧ s0.cyc = s.cyc ∧
      (∀ i, i ≠ d → s0.slot i = s.slot i) ∧ (∀ p l', s0.slot d ≠ some ⟨some p, l'⟩) := by
    rcases hold with rfl | ⟨h1, h2⟩
    · obtain ⟨s1, w, e, hj, hs, _⟩ := release_ok (W0 := []) (W1 := []) 0 j hg (fun e => by cases e) (fun _ => rfl) rfl (fun _ _ e => by cases e)
      have hd' : (s.del (.elem o k)).slot d = some ⟨none, .elem o k⟩ := hd
      simp only [release, hd'] at e
      cases e
      refine ⟨_, hj, rfl, rfl, rfl, rfl, rfl, rfl, rfl, ?_, ?_⟩
      · intro i hi; simp [S.setSlot, hi]; rfl
      · intro p l'; simp [S.setSlot]
    · have hτ : (fun q => Z q + b2n (decide (tgt s old = some q))) = tv old := by
        funext q; rw [tv_tgt h1]; simp
      refine ⟨s.del (.elem o k), hτ ▸ J_del j hg h1, rfl, rfl, rfl, rfl, rfl, rfl, rfl, fun _ _ => rfl, ?_⟩
      intro p l' e
      have e : s.slot d = _ := e
      rw [hd] at e; cases e
  have g0 : ∀ l', s0.get l' = if l' = .elem o k then none else s.get l' := by
    intro l'; rw [← get_del]; simp only [S.get, m0]
  have hkm : ∀ l', s0.get l' ≠ some (.slot d) := by
    intro l' e
    rw [g0] at e
    split at e
    · cases e
    · next hne =>
      obtain ⟨_, e2⟩ := j.slt e
      rw [hd] at e2; cases e2
      exact hne rfl
  have hi0 := Ins.put_old j.nd hg (.slot d)
  have hX0 : X ∈ s0.live := by rw [l0]; exact hX
  let t := sh (asg s d X (.elem o k)) X
  have hi : Ins (sh s0 X) t (.elem o k) (.slot d) := by
    refine ⟨?_, ?_, ?_⟩
    · show (t.mem.map (·.1)).Nodup
      have : t.mem = (s.put (.elem o k) (.slot d)).mem := f1
      rw [this]; exact hi0.nd
    · intro l'
      have h1 : t.get l' = (s.put (.elem o k) (.slot d)).get l' := by
        have : t.mem = (s.put (.elem o k) (.slot d)).mem := f1
        simp only [S.get, this]
      have h2 : (sh s0 X).get l' = s0.get l' := rfl
      rw [h1, h2, hi0.get, g0, get_del]
    · intro P
      have h1 : t.mem = (s.put (.elem o k) (.slot d)).mem := f1
      have h2 : (sh s0 X).mem = (s.del (.elem o k)).mem := m0
      rw [h1, h2]; exact hi0.cP P
  have hz : t.zero = (sh s0 X).zero := by
    simp only [t, sh]
    rw [f6, f3, b0, z0]
  have ht : J G (tv old) t [] := by
    refine J_assign (h0.sh hX0) hi (by show s0.get _ = none; rw [g0, if_pos rfl]) ⟨by show o ∈ s0.live; rw [l0]; exact ho, by simp [killIds]⟩ k0 hkm
      (by show d < s0.nextS; rw [S0]; exact hdS) hX0 (fun _ => rfl) ?_ hz ?_ ?_ ?_ ?_ ?_ ?_ ?_
    · show (asg s d X _).live = s0.live; rw [f2, l0]
    · show (asg s d X _).nextO = s0.nextO; rw [f4, O0]
    · show (asg s d X _).nextS = s0.nextS; rw [f5, S0]
    · intro q
      show ((sh (asg s d X _) X).obj q).shares = _
      rw [sh_shares, sh_shares, f6, b0]
    · intro q
      show ((sh (asg s d X _) X).obj q).refs = _
      rw [sh_refs, sh_refs, sh_refs, f7, b0]
    · intro i
      show (asg s d X _).slot i = if i = d then _ else s0.slot i
      rw [f8]
      split
      · rfl
      · next hne => exact (sl0 i hne).symm
    · intro q
      show q ∈ (asg s d X _).cyc ↔ q ∈ s0.cyc ∨ _
      rw [f9, c0]
    · exact f10 j.cn
  have hgt : ∀ l', t.get l' = if l' = .elem o k then some (.slot d) else s.get l' := by
    intro l'
    rw [hi.get]
    split
    · rfl
    · next hne =>
      show s0.get l' = _
      rw [g0, if_neg hne]
  have hslt : ∀ i, t.slot i = if i = d then some ⟨some X, .elem o k⟩ else s.slot i := f8
  have hsame : ∀ {l' i}, l' ≠ .elem o k → s.get l' = some (.slot i) → t.slot i = s.slot i := by
    intro l' i hne hi'
    rw [hslt, if_neg]
    rintro rfl
    obtain ⟨_, e2⟩ := j.slt hi'
    rw [hd] at e2; cases e2
    exact hne rfl
  refine ⟨t, ?_, ⟨ht, ?_, ?_, sf.write hgt (fun _ _ _ e => by cases e)⟩, ?_, ?_⟩
  · rw [assign_eq hd hX]
    simp only [Out.bind]
    apply share_eq
    · rw [f2]; exact hX
    · intro h; rw [f6] at h; rw [f3]; exact j.zer.2 ⟨hX, h, by simp [killIds]⟩
  · intro l' i hi'
    rw [hgt] at hi'
    split at hi'
    · cases hi'; rw [hslt, if_pos rfl]; simp
    · next hne => rw [hsame hne hi']; exact act l' i hne hi'
  · have hav : av t (.slot d) = .ref X := av_ref (by simp [tgt, hslt])
    have := r.write (s2 := t) (l := .elem o k) (v := .slot d) f2 f4 hgt hsame (fun _ _ e => by cases e)
      (fun p i e => by cases e; exact j.bo ho)
    rw [hav] at this
    exact this
  · rintro q rfl
    have hq := j.tgl hg rfl
    show q ∈ (asg s d X _).live; rw [f2]; exact hq
  · intro q hq hne
    show q ∈ if _ then (asg s d X _).zero.erase X else (asg s d X _).zero
    rw [f3]
    split
    · exact (List.mem_erase_of_ne hne).2 hq
    · exact hq

/-! ### A slot leaves its container -/

/-- Neither `unlink` nor, on a slot, `release` look at stack elements. -/
theorem unlink_mem (s : S) (m : List (Loc × Val)) (k p : Nat) :
    unlink { s with mem := m } k p = (unlink s k p).map fun u => { u with mem := m } := by
  unfold unlink
  by_cases h1 : p ∈ s.live
  · by_cases h2 : k ∈ (s.obj p).refs
    · simp only [h1, h2, not_true_eq_false, if_false]
      by_cases h3 : (s.obj p).refs.erase k = []
      · simp only [h3, if_true]
        by_cases h4 : p ∈ s.cyc
        · have h4' : p ∈ (s.setObj p { s.obj p with refs := [] }).cyc := h4
          have h4'' : p ∈ (({ s with mem := m } : S).setObj p { s.obj p with refs := [] }).cyc := h4
          rw [if_pos h4', if_pos h4'']; rfl
        · have h4' : p ∉ (s.setObj p { s.obj p with refs := [] }).cyc := h4
          have h4'' : p ∉ (({ s with mem := m } : S).setObj p { s.obj p with refs := [] }).cyc := h4
          rw [if_neg h4', if_neg h4'']; rfl
      · simp only [h3, if_false]; rfl
    · simp only [h1, h2, not_true_eq_false, not_false_eq_true, if_false, if_true]; rfl
  · simp only [h1, not_false_eq_true, if_true]; rfl

theorem release_mem (s : S) (m : List (Loc × Val)) (t t' k : Nat) :
    release { s with mem := m } t (.slot k) = (release s t' (.slot k)).map fun r => ({ r.1 with mem := m }, r.2) := by
  cases hk : s.slot k with
  | none => simp only [release, hk, Out.map]
  | some sl =>
    cases hs : sl.src with
    | none => simp only [release, hk, hs, Out.map]; rfl
    | some o =>
      simp only [release, hk, hs, unlink_mem]
      cases unlink s k o <;> rfl

/-- Over an element that holds a slot: the slot is deleted, the container it referred to gives back a share. -/
theorem putSlot_ok {G : Nat → Prop} {s : S} {A : Heap} (h : St G Z s A) {o k i : Nat} (hg : s.get (.elem o k) = some (.slot i)) (n : Nat) :
    ∃ t, deleteSlot (s.put (.elem o k) (.prim n)) i = .ok t ∧ St G Z t (A.write (.elem o k) (.prim n)) ∧
      t.zero = s.zero := by
  obtain ⟨s1, w, e, hj, hs, _⟩ := release_ok (W0 := []) (W1 := []) 0 h.j hg (fun e => by cases e) (fun _ => rfl) rfl (fun _ _ e => by cases e)
  rw [List.append_nil] at hj
  have ho : o ∈ s.live := h.j.own hg
  let s2 : S := { s1 with mem := (s.put (.elem o k) (.prim n)).mem }
  have e2 : release (s.put (.elem o k) (.prim n)) (s.put (.elem o k) (.prim n)).nextO (.slot i) = .ok (s2, w) := by
    have := release_mem (s.del (.elem o k)) (s.put (.elem o k) (.prim n)).mem (s.put (.elem o k) (.prim n)).nextO 0 i
    rw [e] at this
    exact this
  have hi0 := Ins.put_old h.j.nd hg (.prim n)
  have g1 : ∀ l', s1.get l' = (s.del (.elem o k)).get l' := fun l' => by simp only [S.get, hs.mem]
  have hi : Ins s1 s2 (.elem o k) (.prim n) := by
    refine ⟨hi0.nd, ?_, ?_⟩
    · intro l'; rw [g1]; exact hi0.get l'
    · intro P; rw [hs.mem]; exact hi0.cP P
  have hkw : killIds w = [] := by
    have : ∀ x, x ∉ killIds w := by
      intro x hx
      obtain ⟨ls, hl⟩ := mem_killIds.1 hx
      rename_i hw
      rcases hw with rfl | ⟨q, rfl⟩
      · cases hl
      · simp at hl
    exact List.eq_nil_iff_forall_not_mem.2 this
  have j2 : J G Z s2 w := J_ins hj hi (by rw [g1, get_del, if_pos rfl]) ⟨by rw [hs.live]; exact ho, by rw [hkw]; simp⟩
    (fun _ e => by cases e) (fun _ e => by cases e) (fun q => by simp [tgt, b2n]) rfl rfl rfl rfl rfl rfl rfl
  have gs : ∀ l', s2.get l' = if l' = .elem o k then some (.prim n) else s.get l' := get_put s _ _
  have hsl : ∀ {l' d}, l' ≠ .elem o k → s.get l' = some (.slot d) → s2.slot d = s.slot d := by
    intro l' d hne hd
    apply hs.slot
    intro ed
    cases ed
    obtain ⟨_, e3⟩ := h.j.slt hd
    obtain ⟨_, e4⟩ := h.j.slt hg
    rw [e3] at e4; cases e4
    exact hne rfl
  have r2 : Rl s2 (A.write (.elem o k) (.prim n)) :=
    h.rl.write (s2 := s2) (v := .prim n) hs.live hs.nextO gs hsl (fun _ _ e => by cases e) (fun p j e => by cases e; exact h.j.bo ho)
  have a2 : Act s2 := by
    intro l' d hd
    rw [gs] at hd
    split at hd
    · cases hd
    · next hne => rw [hsl hne hd]; exact h.act l' d hd
  obtain ⟨t, et, jt, ft, _⟩ := run_ok j2
  have sf2 : Sf G s2 := h.sf.write gs (fun _ _ _ e => by cases e)
  refine ⟨t, ?_, ⟨jt, a2.frame ft jt, r2.frame ft jt, sf2.frame ft jt⟩, ft.zero.trans hs.zero⟩
  unfold deleteSlot
  rw [e2]
  exact et

/-- A slot that refers to nothing and that no stack element holds is deleted. -/
theorem dropIdle_ok {G : Nat → Prop} {s : S} {A : Heap} (h : St G Z s A) {d : Nat} {l : Loc} (hd : s.slot d = some ⟨none, l⟩)
    (hno : ∀ l', s.get l' ≠ some (.slot d)) : ∃ t, dropIdle s d = .ok t ∧ St G Z t A := by
  refine ⟨s.setSlot d none, ?_, ?_, ?_, ?_, h.sf⟩
  · simp only [dropIdle, hd, if_true, deleteSlot, release, Out.bind, run, drain]
  · refine J_slot (k := d) h.j rfl rfl rfl rfl rfl rfl (Nat.le_refl _) hno (by rw [hd]; simp) (by simp [S.setSlot]) (h.j.bs hd) ?_
    intro i hi; simp [S.setSlot, hi]
  · intro l' i hi
    have hne : i ≠ d := by rintro rfl; exact hno l' hi
    have : (s.setSlot d none).slot i = s.slot i := by simp [S.setSlot, hne]
    rw [this]; exact h.act l' i hi
  · have ha : ∀ {l' v}, s.get l' = some v → av (s.setSlot d none) v = av s v := by
      intro l' v hv
      apply av_congr; apply tgt_slot
      rintro i rfl
      have hne : i ≠ d := by rintro rfl; exact hno l' hv
      simp [S.setSlot, hne]
    have hm : ∀ l', ((s.setSlot d none).get l').map (av (s.setSlot d none)) = (s.get l').map (av s) := by
      intro l'
      have e : (s.setSlot d none).get l' = s.get l' := rfl
      rw [e]
      cases hv : s.get l' with
      | none => rfl
      | some v => simp [ha hv]
    exact ⟨fun x => by rw [hm]; exact h.rl.var x, fun k ho => by rw [hm]; exact h.rl.elem k ho, h.rl.nx, h.rl.vs, h.rl.fr⟩

theorem Ins.self {s : S} (hn : Nd s) {l : Loc} {v : Val} (hg : s.get l = some v) : Ins (s.del l) s l v := by
  refine ⟨hn, ?_, cP_del hn hg⟩
  intro l'
  rw [get_del]
  split
  · next e => rw [e, hg]
  · rfl

/-- The slot of an element is moved from one container to another; the old one gives back its share and may be destroyed,
but the element and the new container must survive. -/
theorem assignOver_ok {G : Nat → Prop} {s : S} {A : Heap} (h : St G Z s A) {o k i p X : Nat} (hg : s.get (.elem o k) = some (.slot i))
    (hs : s.slot i = some ⟨some p, .elem o k⟩) (hpX : p ≠ X) (hro : A.Reach (fun q _ => q = o) o)
    (hX : X ∈ s.zero ∨ A.Reach (fun q j => q = o ∧ j = k) X) :
    ∃ t, ((assignSlot s i X).bind fun s => share s X) = .ok t ∧ St G Z t (A.write (.elem o k) (.ref X)) := by
  have ho : o ∈ s.live := h.j.own hg
  obtain ⟨s1, w, e, hj, hsame, _⟩ := release_ok (W0 := []) (W1 := []) 0 h.j hg (fun e => by cases e) (fun _ => rfl) rfl (fun _ _ e => by cases e)
  rw [List.append_nil] at hj
  have hs' : (s.del (.elem o k)).slot i = some ⟨some p, .elem o k⟩ := hs
  obtain ⟨u, hu, e1, e2⟩ : ∃ u, unlink (s.del (.elem o k)) i p = .ok u ∧ s1 = u.setSlot i none ∧ w = [.unref p] := by
    simp only [release, hs'] at e
    cases hu : unlink (s.del (.elem o k)) i p with
    | ok u => rw [hu] at e; cases e; exact ⟨u, rfl, rfl, rfl⟩
    | err => rw [hu] at e; cases e
    | ub => rw [hu] at e; cases e
  subst e2
  have hu' : unlink s i p = .ok { u with mem := s.mem } := by
    have := unlink_mem (s.del (.elem o k)) s.mem i p
    rw [hu] at this
    exact this
  have hum : u.mem = (s.del (.elem o k)).mem := by rw [← hsame.mem, e1]; rfl
  have hul : u.live = s.live := by rw [← show s1.live = s.live from hsame.live, e1]; rfl
  have huO : u.nextO = s.nextO := by rw [← show s1.nextO = s.nextO from hsame.nextO, e1]; rfl
  have huz : u.zero = s.zero := by rw [← show s1.zero = s.zero from hsame.zero, e1]; rfl
  let sH : S := ({ u with mem := s.mem } : S).setSlot i (some ⟨none, .elem o k⟩)
  have hiS : i < s1.nextS := by rw [hsame.nextS]; exact h.j.bs hs
  have g1 : ∀ l', s1.get l' = (s.del (.elem o k)).get l' := fun l' => by simp only [S.get, hsame.mem]
  have hno : ∀ l', s1.get l' ≠ some (.slot i) := by
    intro l' e
    rw [g1, get_del] at e
    split at e
    · cases e
    · next hne =>
      obtain ⟨_, e2⟩ := h.j.slt e
      rw [hs] at e2; cases e2
      exact hne rfl
  have j1 : J G Z (s1.setSlot i (some ⟨none, .elem o k⟩)) [.unref p] := by
    refine J_slot (k := i) hj rfl rfl rfl rfl rfl rfl (Nat.le_refl _) hno ?_ ?_ hiS ?_
    · intro q l'; rw [e1]; simp [S.setSlot]
    · intro q l'; simp [S.setSlot]
    · intro d hd; simp [S.setSlot, hd]
  have hsl1 : ∀ d, d ≠ i → u.slot d = s1.slot d := by intro d hd; rw [e1]; simp [S.setSlot, hd]
  have hslH : sH.slot = (s1.setSlot i (some ⟨none, .elem o k⟩)).slot := by
    funext d
    by_cases hd : d = i
    · subst hd; simp [sH, S.setSlot]
    · simp only [sH, S.setSlot, hd, if_false]; exact hsl1 d hd
  have hiH : Ins (s1.setSlot i (some ⟨none, .elem o k⟩)) sH (.elem o k) (.slot i) := by
    have h0 := Ins.self h.j.nd hg
    refine ⟨h0.nd, ?_, ?_⟩
    · intro l'
      have : (s1.setSlot i (some ⟨none, .elem o k⟩)).get l' = s1.get l' := rfl
      rw [this, g1]; exact h0.get l'
    · intro P
      have : (s1.setSlot i (some ⟨none, .elem o k⟩)).mem = (s.del (.elem o k)).mem := hsame.mem
      rw [this]; exact h0.cP P
  have jH : J G Z sH [.unref p] := by
    refine J_ins j1 hiH ?_ ⟨?_, by simp [killIds]⟩ ?_ (fun _ e => by cases e) (fun q => by simp [tgt, b2n, S.setSlot]) ?_ ?_ hslH ?_ ?_ ?_ ?_
    · have : (s1.setSlot i (some ⟨none, .elem o k⟩)).get (.elem o k) = s1.get (.elem o k) := rfl
      rw [this, g1, get_del, if_pos rfl]
    · show o ∈ s1.live; rw [hsame.live]; exact ho
    · intro d e; cases e; simp [S.setSlot]
    · show u.live = s1.live; rw [e1]; rfl
    · show u.obj = s1.obj; rw [e1]; rfl
    · show u.zero = s1.zero; rw [e1]; rfl
    · show u.cyc = s1.cyc; rw [e1]; rfl
    · show u.nextO = s1.nextO; rw [e1]; rfl
    · show u.nextS = s1.nextS; rw [e1]; rfl
  have gH : ∀ l', sH.get l' = s.get l' := fun _ => rfl
  have hsH : ∀ {l' d}, l' ≠ .elem o k → s.get l' = some (.slot d) → sH.slot d = s.slot d := by
    intro l' d hne hd
    have hdi : d ≠ i := by
      rintro rfl
      obtain ⟨_, e3⟩ := h.j.slt hd
      rw [hs] at e3; cases e3
      exact hne rfl
    have : sH.slot d = s1.slot d := by simp only [sH, S.setSlot, hdi, if_false]; exact hsl1 d hdi
    rw [this]
    exact hsame.slot d (fun e => by cases e; exact hdi rfl)
  have hsi : sH.slot i = some ⟨none, .elem o k⟩ := by simp [sH, S.setSlot]
  have rH : Rl sH (A.write (.elem o k) (.prim 0)) := by
    have := h.rl.write (s2 := sH) (l := .elem o k) (v := .slot i) hul huO ?_ hsH (fun _ _ e => by cases e)
      (fun q j e => by cases e; exact h.j.bo ho)
    · have hav : av sH (.slot i) = .prim 0 := by simp [av, tgt, hsi]
      rw [hav] at this; exact this
    · intro l'
      rw [gH]
      split
      · next e => rw [e, hg]
      · rfl
  obtain ⟨t, et, jt, ft, _⟩ := run_ok jH
  have rt := rH.frame ft jt
  have hot : o ∈ t.live := by
    refine rt.reach_live jt (av0 := fun q _ => q = o) (reach_mono (A := A) (B := A.write (.elem o k) (.prim 0)) (fun _ => rfl) ?_ hro)
    intro q j hne
    refine ⟨?_, hne⟩
    simp [Heap.write, Heap.setElem, hne]
  have hXt : X ∈ t.live := by
    rcases hX with hX | hX
    · suffices hz : X ∈ t.zero from (jt.zer.1 hz).1
      rw [ft.zero]
      show X ∈ u.zero
      rw [huz]; exact hX
    · refine rt.reach_live jt (av0 := fun q j => q = o ∧ j = k) (reach_mono (A := A) (B := A.write (.elem o k) (.prim 0)) (fun _ => rfl) ?_ hX)
      intro q j hne
      refine ⟨?_, hne⟩
      simp only [Heap.write, Heap.setElem, hne, if_false]
  have gt : t.get (.elem o k) = some (.slot i) := by rw [ft.elem k hot]; exact hg
  have st : t.slot i = some ⟨none, .elem o k⟩ := by rw [ft.slot gt]; exact hsi
  have hact : ∀ l' d, l' ≠ .elem o k → t.get l' = some (.slot d) → (t.slot d).bind (·.src) ≠ none := by
    intro l' d hne hd
    have hd0 : s.get l' = some (.slot d) := ft.get_back jt hd
    rw [ft.slot hd, hsH hne hd0]
    exact h.act l' d hd0
  obtain ⟨t', e', hst, _⟩ := fin_ok jt rt (Sf.frame (s := sH) (fun o k hk => h.sf o k hk) ft jt) hact gt st hXt (Or.inl rfl)
  rw [write_write] at hst
  refine ⟨t', ?_, hst⟩
  rw [← e', assign_eq st hXt]
  have : assignSlot s i X = .ok (asg t i X (.elem o k)) := by
    simp only [assignSlot, setSrc, hs, hpX, if_false, hu', Out.bind]
    have et' : run (({ u with mem := s.mem } : S).setSlot i (some ⟨none, .elem o k⟩)) [.unref p] = .ok t := et
    simp only [et', hXt, not_true_eq_false, if_false, st, ne_eq, Out.map]
    rfl
  rw [this]

/-! ### Assignment to an element -/

theorem write_self {A : Heap} {o k : Nat} {a : AVal} (h : A.elem o k = some a) : A.write (.elem o k) a = A := by
  apply heap_ext
  · rfl
  · funext p j
    simp only [Heap.write, Heap.setElem]
    split
    · next e => rw [e.1, e.2, h]
    · rfl
  · rfl

/-- Through a new slot, over an element that holds none. -/
theorem storeNew_ok {G : Nat → Prop} {s : S} {A : Heap} (h : St G Z s A) {o k : Nat} {old v : Val} (hg : s.get (.elem o k) = some old)
    (hold : ∀ i, old ≠ .slot i) (hv : Good s v) :
    ∃ t, vmStore (newSlot s (.elem o k)).2 (.slot (newSlot s (.elem o k)).1) v = .ok t ∧ St G Z t (A.write (.elem o k) (av s v)) := by
  obtain ⟨hn, hd, hno⟩ := newSlot_ok h (.elem o k)
  have hg' : (newSlot s (.elem o k)).2.get (.elem o k) = some old := hg
  have ho : o ∈ s.live := h.j.own hg
  have hlv : (newSlot s (.elem o k)).2.live = s.live := rfl
  generalize hnd : (newSlot s (.elem o k)).1 = d at *
  generalize hns : (newSlot s (.elem o k)).2 = s1 at *
  have hown : Own s1 [] (.elem o k) := ⟨by rw [hlv]; exact ho, by simp [killIds]⟩
  unfold vmStore
  simp only [hd, hg']
  rcases hv.cases with ⟨n, rfl⟩ | ⟨X, ht, hol, ha, htg⟩
  · have h1 := put_ok hn hg' hown hold n
    have hno' : ∀ l', (s1.put (.elem o k) (.prim n)).get l' ≠ some (.slot d) := by
      intro l' e
      rw [get_put] at e
      split at e
      · cases e
      · exact hno l' e
    simp only
    cases old with
    | prim m =>
      obtain ⟨t, e, ht⟩ := dropIdle_ok h1 (d := d) (l := .elem o k) hd hno'
      exact ⟨t, e, ht⟩
    | obj q =>
      obtain ⟨e, h3⟩ := St.ub h1 (hn.j.tgl hg' rfl)
      obtain ⟨t, e2, ht⟩ := dropIdle_ok h3 (d := d) (l := .elem o k) hd hno'
      refine ⟨t, ?_, ht⟩
      simp only [dropOld, e, Out.bind]
      exact e2
    | slot i => exact absurd rfl (hold i)
  · have htg' : target s1 v = .ok X := by
      apply target_ok
      rw [← ht]
      apply tgt_slot
      rintro i rfl
      have hne : i ≠ s.nextS := by
        rintro rfl
        cases hi : s.slot s.nextS with
        | none => simp [tgt, hi] at ht
        | some sl => exact absurd (h.j.bs hi) (Nat.lt_irrefl _)
      rw [← hns]
      simp [newSlot, S.setSlot, hne]
    obtain ⟨t, e, hst, hsl, _⟩ := fin_ok hn.j hn.rl hn.sf (fun l' i _ hi => hn.act l' i hi) hg' hd (X := X) (by rw [hlv]; exact hol) (Or.inr ⟨hold, hno⟩)
    have hmain : ∃ t, ((target s1 v).bind fun o' => if (none : Option Nat) = some o' then .ok s1 else
        (assignSlot s1 d o').bind fun s => (share s o').bind fun s => dropOld s old true) = .ok t ∧
        St G Z t (A.write (.elem o k) (av s v)) := by
      rw [htg', ha]
      have e' : ((assignSlot s1 d X).bind fun s => (share s X).bind fun s => dropOld s old true) =
          ((assignSlot s1 d X).bind fun s => share s X).bind fun s => dropOld s old true := by
        cases assignSlot s1 d X <;> rfl
      show ∃ t, (if (none : Option Nat) = some X then .ok s1 else
        (assignSlot s1 d X).bind fun s => (share s X).bind fun s => dropOld s old true) = .ok t ∧ St G Z t (A.write (.elem o k) (.ref X))
      rw [if_neg (by simp), e', e]
      simp only [Out.bind]
      cases old with
      | prim m => exact ⟨t, rfl, hst⟩
      | obj q =>
        obtain ⟨e, h3⟩ := St.ub hst (hsl q rfl)
        exact ⟨_, e, h3⟩
      | slot i => exact absurd rfl (hold i)
    cases v with
    | prim => cases ht
    | obj => exact hmain
    | slot => exact hmain

/-- Through the slot the element holds. -/
theorem storeOver_ok {G : Nat → Prop} {s : S} {A : Heap} (h : St G Z s A) {o k i : Nat} {v : Val} (hg : s.get (.elem o k) = some (.slot i))
    (hv : Good s v) (hro : A.Reach (fun q _ => q = o) o)
    (hX : ∀ X, tgt s v = some X → A.elem o k = some (.ref X) ∨ X ∈ s.zero ∨ A.Reach (fun q j => q = o ∧ j = k) X) :
    ∃ t, vmStore s (.slot i) v = .ok t ∧ St G Z t (A.write (.elem o k) (av s v)) := by
  obtain ⟨src, hs⟩ := h.j.slt hg
  have ho : o ∈ s.live := h.j.own hg
  unfold vmStore
  simp only [hs, hg]
  rcases hv.cases with ⟨n, rfl⟩ | ⟨X, ht, hol, ha, htg⟩
  · obtain ⟨t, e, hst, _⟩ := putSlot_ok h hg n
    refine ⟨t, ?_, hst⟩
    simp only [dropOld, if_neg Bool.false_ne_true, e, Out.bind]
  · have hsrc : src ≠ none := by
      have := h.act _ _ hg
      rw [hs] at this; exact this
    obtain ⟨p, rfl⟩ := Option.ne_none_iff_exists'.1 hsrc
    have hel : A.elem o k = some (.ref p) := by
      rw [← h.rl.elem k ho, hg]
      simp [av, tgt, hs]
    have hmain : ∃ t, ((target s v).bind fun o' => if (some p : Option Nat) = some o' then .ok s else
        (assignSlot s i o').bind fun s => (share s o').bind fun s => dropOld s (.slot i) true) = .ok t ∧
        St G Z t (A.write (.elem o k) (av s v)) := by
      rw [htg, ha]
      by_cases hpX : p = X
      · subst hpX
        refine ⟨s, by simp [Out.bind], ?_⟩
        rw [write_self hel]; exact h
      · have hX' : X ∈ s.zero ∨ A.Reach (fun q j => q = o ∧ j = k) X := by
          rcases hX X ht with hX | hX
          · rw [hel] at hX
            simp only [Option.some.injEq, AVal.ref.injEq] at hX
            exact absurd hX hpX
          · exact hX
        obtain ⟨t, e, hst⟩ := assignOver_ok h hg hs hpX hro hX'
        refine ⟨t, ?_, hst⟩
        have e' : ((assignSlot s i X).bind fun s => (share s X).bind fun s => dropOld s (.slot i) true) =
          ((assignSlot s i X).bind fun s => share s X).bind fun s => dropOld s (.slot i) true := by
          cases assignSlot s i X <;> rfl
        have : ¬ (some p : Option Nat) = some X := by simpa using hpX
        show (if (some p : Option Nat) = some X then _ else _) = _
        rw [if_neg this]
        rw [e', e]
        rfl
    cases v with
    | prim => cases ht
    | obj => exact hmain
    | slot => exact hmain

end Verif.Slots
