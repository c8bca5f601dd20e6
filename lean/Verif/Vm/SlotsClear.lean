import Verif.Vm.SlotsLit
/-
Helper lemmas: `clear`.
-/
namespace Verif.Slots
open Verif Verif.SlotsSpec

/-- What cutting slots does to a heap: elements that refer to an object no variable refers to may become `undefined`. -/
structure Cut (A B : Heap) : Prop where
  var : B.var = A.var
  next : B.next = A.next
  elem : ∀ o k, B.elem o k = A.elem o k ∨
    ∃ q, A.elem o k = some (.ref q) ∧ B.elem o k = some (.prim 0) ∧ ∀ x, A.var x ≠ .ref q

theorem Cut.refl (A : Heap) : Cut A A := ⟨rfl, rfl, fun _ _ => Or.inl rfl⟩

theorem Cut.trans {A B C : Heap} (h : Cut A B) (g : Cut B C) : Cut A C := by
  refine ⟨g.var.trans h.var, g.next.trans h.next, ?_⟩
  intro o k
  rcases g.elem o k with e | ⟨q, e1, e2, e3⟩
  · rcases h.elem o k with e' | ⟨q, e1, e2, e3⟩
    · exact Or.inl (e.trans e')
    · exact Or.inr ⟨q, e1, e.trans e2, e3⟩
  · rcases h.elem o k with e' | ⟨q', e1', e2', e3'⟩
    · exact Or.inr ⟨q, e' ▸ e1, e2, fun x => by rw [← h.var]; exact e3 x⟩
    · rw [e2'] at e1; cases e1

/-! ### Containers that variables refer to have more shares than slots -/

theorem countP_ge {α : Type} [DecidableEq α] (P : α → Bool) : ∀ (L m : List α), L.Nodup → (∀ a ∈ L, a ∈ m ∧ P a = true) → L.length ≤ m.countP P
  | [], _, _, _ => Nat.zero_le _
  | a :: L, m, hn, h => by
    obtain ⟨h1, h2⟩ := List.nodup_cons.1 hn
    obtain ⟨ham, haP⟩ := h a (by simp)
    have ih := countP_ge P L (m.erase a) h2 ?_
    · have hp : (a :: m.erase a).Perm m := (List.perm_cons_erase ham).symm
      have := hp.countP_eq P
      rw [List.countP_cons_of_pos haP] at this
      simp only [List.length_cons]
      omega
    · intro b hb
      obtain ⟨hbm, hbP⟩ := h b (List.mem_cons_of_mem _ hb)
      refine ⟨(List.mem_erase_of_ne ?_).2 hbm, hbP⟩
      rintro rfl
      exact h1 hb

theorem get_mem {s : S} {l : Loc} {v : Val} (h : s.get l = some v) : (l, v) ∈ s.mem := by
  have h : s.mem.lookup l = some v := h
  generalize s.mem = m at h
  induction m with
  | nil => cases h
  | cons e m ih =>
    obtain ⟨l', v'⟩ := e
    rw [List.lookup_cons] at h
    by_cases hl : l == l'
    · rw [hl] at h
      cases h
      rw [beq_iff_eq] at hl
      subst hl
      exact List.mem_cons_self ..
    · simp only [Bool.not_eq_true] at hl
      rw [hl] at h
      exact List.mem_cons_of_mem _ (ih h)

theorem var_shares {G : Nat → Prop} {s : S} {A : Heap} (h : St G Z s A) {x c : Nat} (hx : A.var x = .ref c) :
    (s.obj c).refs.length < (s.obj c).shares := by
  have hc : c ∈ s.live := h.rl.reach_live h.j (.var (avoid := fun _ _ => False) hx)
  have hgx : s.get (.var x) = some (.obj c) := by
    have := h.rl.var x
    rw [hx] at this
    cases hg : s.get (.var x) with
    | none => rw [hg] at this; cases this
    | some v =>
      rw [hg] at this
      cases v with
      | prim => cases this
      | obj q => cases this; rfl
      | slot k => exact absurd hg (h.rl.vs x k)
  let f : Nat → Loc × Val := fun k => (((s.slot k).map (·.cell)).getD (.var 0), .slot k)
  have hle := countP_ge (fun e => decide (tgt s e.2 = some c)) ((.var x, .obj c) :: (s.obj c).refs.map f) s.mem ?_ ?_
  · simp only [List.length_cons, List.length_map] at hle
    have h2 := h.j.cnt hc
    have h3 : Slots.cnt s c = s.mem.countP (fun e => decide (tgt s e.2 = some c)) := rfl
    omega
  · refine List.nodup_cons.2 ⟨?_, ?_⟩
    · intro hm
      obtain ⟨k, _, e⟩ := List.mem_map.1 hm
      cases congrArg Prod.snd e
    · refine (List.pairwise_map.2 ?_)
      refine (h.j.rn hc).imp ?_
      intro a b hab e
      have := congrArg Prod.snd e
      simp only [f, Val.slot.injEq] at this
      exact hab this
  · intro e he
    rcases List.mem_cons.1 he with rfl | he
    · exact ⟨get_mem hgx, by simp [tgt]⟩
    · obtain ⟨k, hk, rfl⟩ := List.mem_map.1 he
      obtain ⟨l, hl⟩ := h.j.ref hc hk
      obtain ⟨_, _, hg⟩ := h.j.fwd hl
      have e : f k = (l, .slot k) := by simp [f, hl]
      rw [e]
      exact ⟨get_mem hg, by simp [tgt, hl]⟩

/-! ### One slot is cut -/

theorem J.forget {G : Nat → Prop} {s : S} {c : Nat} (h : J G Z s [.unref c]) : J G (one c) s [] := by
  refine ⟨h.nd, h.ln, h.zn, h.cn, h.own, h.tgl, h.slt, h.fwd, h.ref, h.rn, ?_, ?_, ?_, ?_, ?_, h.cyc, h.bo, h.bs⟩
  · intro o ho
    obtain ⟨e, h1, h2⟩ := h.ex ho
    refine ⟨e, ?_, h2⟩
    rw [← h1]
    by_cases hq : o = c
    · subst hq; simp [one]
    · have : ¬ c = o := fun h => hq h.symm
      simp [one, hq, List.count_cons, this]
  · intro o e; cases e
  · intro o
    exact h.zer
  · exact List.nodup_nil
  · intro o ls e; cases e

theorem cutOne_ok {G : Nat → Prop} {s : S} {A : Heap} (h : St G Z s A) {c k : Nat} {ks : List Nat} (hc : c ∈ s.live) (hr : (s.obj c).refs = k :: ks)
    (hv : ∀ x, A.var x ≠ .ref c) :
    ∃ l t B, s.slot k = some ⟨some c, l⟩ ∧ unrefBlock (s.setObj c { s.obj c with refs := ks }) c = .ok t ∧
      t.get l = some (.slot k) ∧ (∃ sl, t.slot k = some sl) ∧
      (((t.setSlot k none).put l (.prim 0)).obj c).refs = ks ∧ (((t.setSlot k none).put l (.prim 0))).live = s.live ∧
      (((t.setSlot k none).put l (.prim 0))).cyc = s.cyc ∧
      St G Z { (t.setSlot k none).put l (.prim 0) with cyc := if ks = [] then s.cyc.erase c else s.cyc } B ∧ Cut A B := by
  obtain ⟨l, hl⟩ := h.j.ref hc (k := k) (by rw [hr]; simp)
  obtain ⟨_, _, hg⟩ := h.j.fwd hl
  obtain ⟨o, j, rfl⟩ : ∃ o j, l = .elem o j := by
    cases l with
    | var x => exact absurd hg (h.rl.vs x k)
    | elem o j => exact ⟨o, j, rfl⟩
  have ho : o ∈ s.live := h.j.own hg
  have hgs : (s.get (.elem o j)).isSome := by rw [hg]; rfl
  obtain ⟨s1, w, e, hj, hs, _⟩ := release_ok (W0 := []) (W1 := []) 0 h.j hg (fun e => by cases e) (fun _ => rfl) rfl (fun _ _ e => by cases e)
  rw [List.append_nil] at hj
  have hl' : (s.del (.elem o j)).slot k = some ⟨some c, .elem o j⟩ := hl
  have hcy : c ∈ s.cyc := h.j.cyc.2 ⟨hc, by rw [hr]; simp⟩
  have hu := unlink_eq (s := s) (l := .elem o j) hc (k := k) (by rw [hr]; simp)
  rw [hr] at hu
  simp only [List.erase_cons_head, hcy, if_true] at hu
  obtain ⟨e1, rfl⟩ : s1 = ({ (s.del (.elem o j)).setObj c { s.obj c with refs := ks } with cyc := if ks = [] then s.cyc.erase c else s.cyc } : S).setSlot k none ∧
      w = [.unref c] := by
    simp only [release, hl'] at e
    rw [hu] at e
    split at e
    · next hk => cases e; simp only [hk, if_true]; exact ⟨rfl, trivial⟩
    · next hk => cases e; simp only [hk, if_false]; exact ⟨rfl, trivial⟩
  -- the element is `undefined` now
  let s2 : S := { s1 with mem := (s.put (.elem o j) (.prim 0)).mem }
  have hi0 := Ins.put_old h.j.nd hg (.prim 0)
  have g1 : ∀ l', s1.get l' = (s.del (.elem o j)).get l' := fun l' => by simp only [S.get, hs.mem]
  have hi : Ins s1 s2 (.elem o j) (.prim 0) := by
    refine ⟨hi0.nd, ?_, ?_⟩
    · intro l'; rw [g1]; exact hi0.get l'
    · intro P; rw [hs.mem]; exact hi0.cP P
  have j2 : J G Z s2 [.unref c] := J_ins hj hi (by rw [g1, get_del, if_pos rfl]) ⟨by rw [hs.live]; exact ho, by simp [killIds]⟩
    (fun _ e => by cases e) (fun _ e => by cases e) (fun q => by simp [tgt, b2n]) rfl rfl rfl rfl rfl rfl rfl
  have gs : ∀ l', s2.get l' = if l' = .elem o j then some (.prim 0) else s.get l' := get_put s _ _
  have hsl : ∀ {l' d}, l' ≠ .elem o j → s.get l' = some (.slot d) → s2.slot d = s.slot d := by
    intro l' d hne hd
    apply hs.slot
    intro ed
    cases ed
    obtain ⟨_, e3⟩ := h.j.slt hd
    obtain ⟨_, e4⟩ := h.j.slt hg
    rw [e3] at e4; cases e4
    exact hne rfl
  have r2 : Rl s2 (A.write (.elem o j) (.prim 0)) :=
    h.rl.write (s2 := s2) (v := .prim 0) hs.live hs.nextO gs hsl (fun _ _ e => by cases e) (fun p i e => by cases e; exact h.j.bo ho)
  have a2 : Act s2 := by
    intro l' d hd
    rw [gs] at hd
    split at hd
    · cases hd
    · next hne => rw [hsl hne hd]; exact h.act l' d hd
  have hc2 : c ∈ s2.live := by rw [← show s2.live = s.live from hs.live] at hc; exact hc
  have sf2 : Sf G s2 := by
    intro p i e
    rw [gs] at e
    split at e
    · cases e
    · exact h.sf p i e
  obtain ⟨e4, h4⟩ := St.ub (s := s2) ⟨j2.forget, a2, r2, sf2⟩ hc2
  have hsh : (s2.obj c).shares = (s.obj c).shares := by
    show (s1.obj c).shares = _
    exact hs.shares c
  have h0 : (s.obj c).shares ≠ 0 := by
    have := j2.cnt hc2
    simp only [List.count_cons_self, List.count_nil] at this
    omega
  let sa : S := s.setObj c { s.obj c with refs := ks }
  have hsa : (sa.obj c) = { s.obj c with refs := ks } := by simp [sa, S.setObj]
  have hub : unrefBlock sa c = .ok (ub sa c) := by
    have hla : c ∈ sa.live := hc
    by_cases h1 : (s.obj c).shares = 1
    · simp only [unrefBlock, hla, not_true_eq_false, if_false, hsa, h1, if_true, ub]; rfl
    · simp only [unrefBlock, hla, not_true_eq_false, if_false, hsa, h0, h1, ub]; rfl
  refine ⟨.elem o j, ub sa c, A.write (.elem o j) (.prim 0), hl, hub, hg, ⟨_, hl⟩, ?_, rfl, rfl, ?_, ?_⟩
  · show (((ub sa c).obj c).refs) = ks
    simp [ub, S.setObj, sa]
  · have heq : ({ ((ub sa c).setSlot k none).put (.elem o j) (.prim 0) with cyc := if ks = [] then s.cyc.erase c else s.cyc } : S) = ub s2 c := by
      have hput : (((ub sa c).setSlot k none).put (.elem o j) (.prim 0)).mem = (s.put (.elem o j) (.prim 0)).mem := rfl
      have ho2 : (s2.obj c) = { s.obj c with refs := ks } := by
        show s1.obj c = _
        rw [e1]; simp [S.setSlot, S.setObj]
      have hobj : (ub sa c).obj = (ub s2 c).obj := by
        funext q
        simp only [ub, hsa, ho2]
        by_cases hq : q = c
        · simp [S.setObj, hq]
        · have h1 : sa.obj q = s.obj q := by simp [sa, S.setObj, hq]
          have h2 : s2.obj q = s.obj q := by
            show s1.obj q = _
            rw [e1]; simp [S.setSlot, S.setObj, hq]; rfl
          simp only [S.setObj, hq, if_false, h1, h2]
      have hzero : (ub sa c).zero = (ub s2 c).zero := by
        have h2 : s2.zero = s.zero := hs.zero
        simp only [ub, hsa, ho2, h2]
        rfl
      have hslots : ((ub sa c).setSlot k none).slot = (ub s2 c).slot := by
        have : (ub s2 c).slot = s1.slot := rfl
        rw [this, e1]
        rfl
      have hcyc : (ub s2 c).cyc = if ks = [] then s.cyc.erase c else s.cyc := by
        have : (ub s2 c).cyc = s1.cyc := rfl
        rw [this, e1]
        rfl
      have hlive : (ub s2 c).live = s.live := hs.live
      have hnO : (ub s2 c).nextO = s.nextO := hs.nextO
      have hnS : (ub s2 c).nextS = s.nextS := hs.nextS
      have hext : ∀ a b : S, a.mem = b.mem → a.live = b.live → a.obj = b.obj → a.slot = b.slot → a.zero = b.zero → a.cyc = b.cyc →
          a.nextO = b.nextO → a.nextS = b.nextS → a = b := by
        intro a b h1 h2 h3 h4 h5 h6 h7 h8
        cases a; cases b; simp_all
      exact hext _ _ hput hlive.symm hobj hslots hzero hcyc.symm hnO.symm hnS.symm
    rw [heq]
    exact h4
  · refine ⟨rfl, rfl, ?_⟩
    intro p i
    by_cases hp : p = o ∧ i = j
    · obtain ⟨rfl, rfl⟩ := hp
      refine Or.inr ⟨c, ?_, by simp [Heap.write, Heap.setElem], hv⟩
      rw [← h.rl.elem i ho, hg]
      simp [av, tgt, hl]
    · exact Or.inl (by simp only [Heap.write, Heap.setElem, hp, if_false])

theorem cut_ok {c : Nat} {G : Nat → Prop} : ∀ (ks : List Nat) {s : S} {A : Heap} (k : Nat), St G Z s A → c ∈ s.live → (s.obj c).refs = k :: ks →
    (∀ x, A.var x ≠ .ref c) →
    ∃ t B, cutSlots s c (k :: ks) = .ok t ∧ St G Z { t with cyc := t.cyc.erase c } B ∧ Cut A B ∧ t.live = s.live
  | [], s, A, k, h, hc, hr, hv => by
    obtain ⟨l, t, B, h1, h2, h3, ⟨sl, h4⟩, h5, h6, h7, h8, h9⟩ := cutOne_ok h hc hr hv
    have hm : ¬ k ∉ (s.obj c).refs := by rw [hr]; simp
    have he : (s.obj c).refs.erase k = [] := by rw [hr]; simp
    refine ⟨(t.setSlot k none).put l (.prim 0), B, ?_, ?_, h9, h6⟩
    · simp only [cutSlots, h1, if_neg hm, he, h2, Out.bind, h3, h4]
    · rw [h7]; exact h8
  | k' :: ks, s, A, k, h, hc, hr, hv => by
    obtain ⟨l, t, B, h1, h2, h3, ⟨sl, h4⟩, h5, h6, h7, h8, h9⟩ := cutOne_ok h hc hr hv
    have hm : ¬ k ∉ (s.obj c).refs := by rw [hr]; simp
    have he : (s.obj c).refs.erase k = k' :: ks := by rw [hr]; simp
    have hst : St G Z ((t.setSlot k none).put l (.prim 0)) B := by
      rw [if_neg (by simp), ← h7] at h8
      exact h8
    obtain ⟨t', B', e, g1, g2, g3⟩ := cut_ok ks k' hst (by rw [h6]; exact hc) h5 (by rw [h9.var]; exact hv)
    refine ⟨t', B', ?_, g1, h9.trans g2, g3.trans h6⟩
    rw [cutSlots]
    simp only [h1, if_neg hm, he, h2, Out.bind, h3, h4]
    exact e

theorem deref_ok {G : Nat → Prop} : ∀ (cs : List Nat) {s : S} {A : Heap}, St G Z s A → (∀ c ∈ cs, c ∈ s.live) →
    ∃ t B, derefCyclic s cs = .ok t ∧ St G Z t B ∧ Cut A B
  | [], s, A, h, _ => ⟨s, A, rfl, h, Cut.refl A⟩
  | c :: cs, s, A, h, hl => by
    have hc := hl c (by simp)
    simp only [derefCyclic, hc, not_true_eq_false, if_false]
    split
    · next hcond =>
      obtain ⟨h1, h2⟩ := hcond
      have hv : ∀ x, A.var x ≠ .ref c := by
        intro x hx
        have := var_shares h hx
        omega
      cases hr : (s.obj c).refs with
      | nil => exact absurd hr h1
      | cons k ks =>
        obtain ⟨t, B, e, g1, g2, g3⟩ := cut_ok ks k h hc hr hv
        rw [e]
        obtain ⟨t', B', e', g1', g2'⟩ := deref_ok cs g1 (fun q hq => by
          show q ∈ t.live
          rw [g3]; exact hl q (List.mem_cons_of_mem _ hq))
        exact ⟨t', B', e', g1', g2.trans g2'⟩
    · exact deref_ok cs h (fun q hq => hl q (List.mem_cons_of_mem _ hq))

theorem leaves_ok {G : Nat → Prop} : ∀ (xs : List Nat) {s : S} {A : Heap}, St G Z s A → ∃ t B, leaveVars s xs = .ok t ∧ St G Z t B ∧
    (∀ x, B.var x = if x ∈ xs then .prim 0 else A.var x) ∧ B.elem = A.elem
  | [], s, A, h => ⟨s, A, rfl, h, fun x => by simp, rfl⟩
  | y :: xs, s, A, h => by
    obtain ⟨t, e, h1⟩ := leave_ok h y
    obtain ⟨t', B, e', h2, h3, h4⟩ := leaves_ok xs h1
    refine ⟨t', B, ?_, h2, ?_, h4⟩
    · simp only [leaveVars, e, Out.bind]; exact e'
    · intro x
      rw [h3]
      by_cases hx : x ∈ xs
      · simp [hx]
      · by_cases hy : x = y <;> simp [hx, hy, Heap.setVar]

theorem clear_ok {G : Nat → Prop} {s : S} {A : Heap} (h : St G Z s A) (xs : List Nat) : ∃ t B, clear s xs = .ok t ∧ St G Z t B ∧ t.zero = [] ∧
    (∀ x, B.var x = if x ∈ xs then .prim 0 else A.var x) ∧
    ∀ o k, B.elem o k = A.elem o k ∨ ∃ q, A.elem o k = some (.ref q) ∧ B.elem o k = some (.prim 0) ∧ ∀ x, A.var x ≠ .ref q := by
  obtain ⟨s1, A1, e1, h1, c1⟩ := deref_ok s.cyc h (fun c hc => (h.j.cyc.1 hc).1)
  obtain ⟨s2, A2, e2, h2, v2, m2⟩ := leaves_ok xs h1
  obtain ⟨s3, e3, h3, z3⟩ := sweep_ok s2.zero h2 rfl
  refine ⟨s3, A2, ?_, h3, z3, ?_, ?_⟩
  · simp only [clear, e1, e2, Out.bind]; exact e3
  · intro x; rw [v2, c1.var]
  · intro o k; rw [m2]; exact c1.elem o k

end Verif.Slots
