import Verif.Vm.SlotsLemmas
/-
Helper lemmas on the destructors of `Verif/Vm/Slots.lean`: they end, keep the invariant, and leave alone what survives.
-/
namespace Verif.Slots
open Verif

theorem killIds_append (a b : List Work) : killIds (a ++ b) = killIds a ++ killIds b := by
  simp [killIds, List.filterMap_append]

theorem mem_of_count {w w' : List Work} (h : ∀ q, w'.count (.unref q) = w.count (.unref q)) {q : Nat}
    (hq : Work.unref q ∈ w') : Work.unref q ∈ w := by
  rw [← List.count_pos_iff] at hq ⊢
  have := h q; omega

/-- The entry of `l` is gone, and its slot if it held one. -/
theorem J_core {G : Nat → Prop} {τ τ' : Nat → Nat} {s s1 : S} {W0 W1 w : List Work} {l : Loc} {v : Val} (h : J G τ s W0) (hg : s.get l = some v)
    (hm : s1.mem = (s.del l).mem) (hl : s1.live = s.live) (hz : s1.zero = s.zero) (hO : s1.nextO = s.nextO)
    (hS : s1.nextS = s.nextS) (hsh : ∀ q, (s1.obj q).shares = (s.obj q).shares)
    (hs : ∀ k, v ≠ .slot k → s1.slot k = s.slot k) (hs' : ∀ k, v = .slot k → s1.slot k = none)
    (hr : ∀ q j, q ∈ s.live → (j ∈ (s1.obj q).refs ↔ j ∈ (s.obj q).refs ∧ v ≠ .slot j))
    (hrn : ∀ q, q ∈ s.live → (s1.obj q).refs.Nodup)
    (hcy : ∀ q, q ∈ s1.cyc ↔ q ∈ s.live ∧ (s1.obj q).refs ≠ []) (hcn : s1.cyc.Nodup)
    (hw : ∀ q, w.count (.unref q) ≤ b2n (decide (tgt s v = some q))) (hwk : killIds w = [])
    (hτ : ∀ q, (w.count (.unref q) + τ' q = b2n (decide (tgt s v = some q)) + τ q) ∨ (G q ∧ τ' q = τ q))
    (hc : ∀ q, W1.count (.unref q) = W0.count (.unref q)) (hk : killIds W1 = killIds W0)
    (hd : ∀ q ls, .kill q ls ∈ W1 → ls.Nodup ∧ ∀ l', l' ∈ ls ↔ ((s.del l).get l').isSome ∧ ∃ k, l' = .elem q k) :
    J G τ' s1 (w ++ W1) := by
  have hget : ∀ l', s1.get l' = if l' = l then none else s.get l' := by
    intro l'; rw [← get_del]; simp only [S.get, hm]
  have hold : ∀ {l' u}, s1.get l' = some u → l' ≠ l ∧ s.get l' = some u := by
    intro l' u hu
    rw [hget] at hu
    split at hu
    · cases hu
    · next hne => exact ⟨hne, hu⟩
  have hslot : ∀ {l' k}, s1.get l' = some (.slot k) → s1.slot k = s.slot k := by
    intro l' k hu
    obtain ⟨hne, hu⟩ := hold hu
    apply hs
    rintro rfl
    obtain ⟨_, e1⟩ := h.slt hu
    obtain ⟨_, e2⟩ := h.slt hg
    rw [e1] at e2; cases e2; exact hne rfl
  have htgt : ∀ {l' u}, s1.get l' = some u → tgt s1 u = tgt s u := by
    intro l' u hu
    cases u with
    | prim => rfl
    | obj => rfl
    | slot k => simp only [tgt, hslot hu]
  have hn1 : Nd s1 := by unfold Nd; rw [hm]; exact nd_del h.nd l
  have hcnt : ∀ q, cnt s1 q + b2n (decide (tgt s v = some q)) = cnt s q := by
    intro q
    have e1 : cnt s1 q = s1.mem.countP fun e => decide (tgt s e.2 = some q) := by
      apply cP_congr hn1
      intro l' u hu
      simp only [htgt hu]
    rw [e1, hm]
    exact (cP_del h.nd hg _).symm
  have hww : ∀ q, (w ++ W1).count (.unref q) = w.count (.unref q) + W0.count (.unref q) := by
    intro q; rw [List.count_append, hc]
  have hkk : killIds (w ++ W1) = killIds W0 := by rw [killIds_append, hwk, hk]; rfl
  have hkw : ∀ {q ls}, Work.kill q ls ∈ w ++ W1 → Work.kill q ls ∈ W1 := by
    intro q ls hq
    rcases List.mem_append.1 hq with hq | hq
    · have : q ∈ killIds w := mem_killIds.2 ⟨ls, hq⟩
      rw [hwk] at this; cases this
    · exact hq
  refine ⟨hn1, hl ▸ h.ln, hz ▸ h.zn, hcn, ?_, ?_, ?_, ?_, ?_, ?_, ?_, ?_, ?_, hkk ▸ h.dyn, ?_, ?_, ?_, ?_⟩
  · intro o k u hu; rw [hl]; exact h.own (hold hu).2
  · intro l' u o hu ho
    rw [hl]; rw [htgt hu] at ho
    exact h.tgl (hold hu).2 ho
  · intro l' k hu
    rw [hslot hu]; exact h.slt (hold hu).2
  · intro k o l' hk1
    have hv : v ≠ .slot k := by
      intro hv; rw [hs' k hv] at hk1; cases hk1
    rw [hs k hv] at hk1
    obtain ⟨a, b, c⟩ := h.fwd hk1
    refine ⟨hl ▸ a, (hr o k a).2 ⟨b, hv⟩, ?_⟩
    rw [hget]
    split
    · next he =>
      subst he; rw [hg] at c; cases c; exact absurd rfl hv
    · exact c
  · intro o k ho hk1
    rw [hl] at ho
    obtain ⟨a, b⟩ := (hr o k ho).1 hk1
    rw [hs k b]
    exact h.ref ho a
  · intro o ho; exact hrn o (hl ▸ ho)
  · intro o ho
    rw [hl] at ho
    obtain ⟨e, h1, h2⟩ := h.ex ho
    have h3 := hcnt o
    have h4 := hw o
    rw [hww, hsh]
    rcases hτ o with h5 | ⟨h5, h6⟩
    · exact ⟨e, by omega, h2⟩
    · exact ⟨e + (b2n (decide (tgt s v = some o)) - w.count (.unref o)), by omega, fun _ => h5⟩
  · intro o ho
    rw [hl]
    rcases List.mem_append.1 ho with ho | ho
    · have hp := List.count_pos_iff.2 ho
      have := hw o
      have ht : tgt s v = some o := by
        by_cases ht : tgt s v = some o
        · exact ht
        · simp only [ht, decide_false, b2n, Bool.false_eq_true, if_false] at this; omega
      exact h.tgl hg ht
    · exact h.unr (mem_of_count hc ho)
  · intro o; rw [hz, hl, hsh, hkk]; exact h.zer
  · intro o ls hq
    obtain ⟨a, b⟩ := hd o ls (hkw hq)
    have : o ∈ killIds W0 := by rw [← hk]; exact mem_killIds.2 ⟨ls, hkw hq⟩
    obtain ⟨ls0, h0⟩ := mem_killIds.1 this
    obtain ⟨c, d, _⟩ := h.dy h0
    refine ⟨hl ▸ c, by rw [hsh]; exact d, a, fun l' => ?_⟩
    rw [b l', hget, get_del]
  · intro o; rw [hl]; exact hcy o
  · intro o ho; rw [hO]; exact h.bo (hl ▸ ho)
  · intro k sl hk1
    rw [hS]
    by_cases hv : v = .slot k
    · rw [hs' k hv] at hk1; cases hk1
    · rw [hs k hv] at hk1; exact h.bs hk1

theorem unlink_eq {s : S} {l : Loc} {k p : Nat} (hp : p ∈ s.live) (hk : k ∈ (s.obj p).refs) :
    unlink (s.del l) k p =
      let s1 := (s.del l).setObj p { s.obj p with refs := (s.obj p).refs.erase k }
      if (s.obj p).refs.erase k = [] then
        if p ∈ s.cyc then .ok { s1 with cyc := s1.cyc.erase p } else .err
      else .ok s1 := by
  have h1 : p ∈ (s.del l).live := hp
  have h2 : k ∈ ((s.del l).obj p).refs := hk
  simp only [unlink, h1, h2, not_true_eq_false, if_false]
  rfl

/-- What `release` leaves as it was. -/
structure RelSame (s s1 : S) (l : Loc) (v : Val) : Prop where
  mem : s1.mem = (s.del l).mem
  live : s1.live = s.live
  zero : s1.zero = s.zero
  nextO : s1.nextO = s.nextO
  nextS : s1.nextS = s.nextS
  shares : ∀ q, (s1.obj q).shares = (s.obj q).shares
  slot : ∀ k, v ≠ .slot k → s1.slot k = s.slot k

theorem del_obj (s : S) (l : Loc) : (s.del l).obj = s.obj := rfl

theorem release_ok {G : Nat → Prop} {τ : Nat → Nat} {s : S} {W0 W1 : List Work} {l : Loc} {v : Val} (this : Nat) (h : J G τ s W0)
    (hg : s.get l = some v) (hG : v = .obj this → G this)
    (hc : ∀ q, W1.count (.unref q) = W0.count (.unref q)) (hk : killIds W1 = killIds W0)
    (hd : ∀ q ls, .kill q ls ∈ W1 → ls.Nodup ∧ ∀ l', l' ∈ ls ↔ ((s.del l).get l').isSome ∧ ∃ k, l' = .elem q k) :
    ∃ s1 w, release (s.del l) this v = .ok (s1, w) ∧ J G τ s1 (w ++ W1) ∧ RelSame s s1 l v ∧
      (w = [] ∨ ∃ q, w = [.unref q]) := by
  cases v with
  | prim n =>
    refine ⟨s.del l, [], rfl, ?_, ⟨rfl, rfl, rfl, rfl, rfl, fun _ => rfl, fun _ _ => rfl⟩, Or.inl rfl⟩
    exact J_core h hg rfl rfl rfl rfl rfl (fun _ => rfl) (fun _ _ => rfl) (fun _ e => by cases e)
      (fun q j _ => by simp [del_obj]) (fun q hq => h.rn hq) (fun q => h.cyc) h.cn (by simp) rfl (fun q => Or.inl (by simp [tgt, b2n])) hc hk hd
  | obj p =>
    refine ⟨s.del l, if p = this then [] else [.unref p], rfl, ?_, ⟨rfl, rfl, rfl, rfl, rfl, fun _ => rfl, fun _ _ => rfl⟩, ?_⟩
    · refine J_core h hg rfl rfl rfl rfl rfl (fun _ => rfl) (fun _ _ => rfl) (fun _ e => by cases e)
        (fun q j _ => by simp [del_obj]) (fun q hq => h.rn hq) (fun q => h.cyc) h.cn ?_ ?_ ?_ hc hk hd
      · intro q
        split
        · simp
        · simp only [List.count_cons, List.count_nil, tgt, b2n]
          by_cases hq : p = q <;> simp [hq]
      · split <;> rfl
      · intro q
        split
        · next e =>
          by_cases hq : q = this
          · exact Or.inr ⟨by rw [hq]; exact hG (by rw [e]), rfl⟩
          · refine Or.inl ?_
            have : ¬ p = q := fun e' => hq (by rw [← e', e])
            simp [tgt, b2n, this]
        · refine Or.inl ?_
          simp only [List.count_cons, List.count_nil, tgt, b2n]
          by_cases hq : p = q <;> simp [hq]
    · split
      · exact Or.inl rfl
      · exact Or.inr ⟨p, rfl⟩
  | slot k =>
    obtain ⟨src, hsl⟩ := h.slt hg
    have hsl' : (s.del l).slot k = some ⟨src, l⟩ := hsl
    have hset : ∀ (t : S), t.slot = s.slot → (∀ j, Val.slot k ≠ .slot j → (t.setSlot k none).slot j = s.slot j) ∧
        (∀ j, Val.slot k = .slot j → (t.setSlot k none).slot j = none) := by
      intro t ht
      constructor
      · intro j hj
        have : j ≠ k := fun e => hj (by rw [e])
        simp [S.setSlot, this, ht]
      · intro j hj
        cases hj; simp [S.setSlot]
    cases src with
    | none =>
      have hnk : ∀ q, q ∈ s.live → k ∉ (s.obj q).refs := by
        intro q hq hk1
        obtain ⟨_, e⟩ := h.ref hq hk1
        rw [hsl] at e; cases e
      refine ⟨(s.del l).setSlot k none, [], by simp [release, hsl'], ?_,
        ⟨rfl, rfl, rfl, rfl, rfl, fun _ => rfl, (hset (s.del l) rfl).1⟩, Or.inl rfl⟩
      refine J_core h hg rfl rfl rfl rfl rfl (fun _ => rfl) (hset (s.del l) rfl).1 (hset (s.del l) rfl).2 ?_
        (fun q hq => h.rn hq) (fun q => h.cyc) h.cn (by simp) rfl (fun q => Or.inl (by simp [tgt, b2n, hsl])) hc hk hd
      intro q j hq
      constructor
      · intro hj; exact ⟨hj, fun e => by cases e; exact hnk q hq hj⟩
      · exact fun hj => hj.1
    | some p =>
      obtain ⟨hp, hkr, _⟩ := h.fwd hsl
      have hother : ∀ q, q ∈ s.live → q ≠ p → k ∉ (s.obj q).refs := by
        intro q hq hne hk1
        obtain ⟨_, e⟩ := h.ref hq hk1
        rw [hsl] at e; cases e; exact hne rfl
      have hpc : p ∈ s.cyc := h.cyc.2 ⟨hp, fun e => by rw [e] at hkr; cases hkr⟩
      have htw : ∀ q, [Work.unref p].count (.unref q) ≤ b2n (decide (tgt s (.slot k) = some q)) := by
        intro q
        simp only [List.count_cons, List.count_nil, tgt, hsl, b2n, Option.bind_some]
        by_cases hq : p = q <;> simp [hq]
      have htt : ∀ q, ([Work.unref p].count (.unref q) + τ q = b2n (decide (tgt s (.slot k) = some q)) + τ q) ∨ (G q ∧ τ q = τ q) := by
        intro q
        refine Or.inl ?_
        simp only [List.count_cons, List.count_nil, tgt, hsl, b2n, Option.bind_some]
        by_cases hq : p = q <;> simp [hq]
      have hmr : ∀ q j, q ∈ s.live → (j ∈ (if q = p then (s.obj p).refs.erase k else (s.obj q).refs) ↔
          j ∈ (s.obj q).refs ∧ Val.slot k ≠ .slot j) := by
        intro q j hq
        by_cases hqp : q = p
        · subst hqp
          simp only [if_true, (h.rn hp).mem_erase_iff, ne_eq, Val.slot.injEq]
          exact ⟨fun ⟨a, b⟩ => ⟨b, fun e => a e.symm⟩, fun ⟨a, b⟩ => ⟨fun e => b e.symm, a⟩⟩
        · simp only [hqp, if_false]
          exact ⟨fun hj => ⟨hj, fun e => by cases e; exact hother q hq hqp hj⟩, fun hj => hj.1⟩
      let s2 := (s.del l).setObj p { s.obj p with refs := (s.obj p).refs.erase k }
      have hobj : ∀ q, (s2.obj q).refs = if q = p then (s.obj p).refs.erase k else (s.obj q).refs := by
        intro q; simp only [s2, S.setObj]; split <;> rfl
      have hshr : ∀ q, (s2.obj q).shares = (s.obj q).shares := by
        intro q; simp only [s2, S.setObj]; split
        · next e => rw [e]
        · rfl
      have hrn2 : ∀ q, q ∈ s.live → (s2.obj q).refs.Nodup := by
        intro q hq; rw [hobj]; split
        · exact (h.rn hp).erase k
        · exact h.rn hq
      by_cases hr0 : (s.obj p).refs.erase k = []
      · refine ⟨({ s2 with cyc := s2.cyc.erase p } : S).setSlot k none, [.unref p], ?_, ?_,
          ⟨rfl, rfl, rfl, rfl, rfl, hshr, (hset _ rfl).1⟩, Or.inr ⟨p, rfl⟩⟩
        · have hu : unlink (s.del l) k p = .ok { s2 with cyc := s2.cyc.erase p } := by
            rw [unlink_eq hp hkr, if_pos hr0, if_pos hpc]
          simp only [release, hsl', hu]; rfl
        · refine J_core h hg rfl rfl rfl rfl rfl hshr (hset _ rfl).1 (hset _ rfl).2 ?_ hrn2 ?_ (h.cn.erase p) htw rfl htt hc hk hd
          · intro q j hq
            rw [← hmr q j hq, ← hobj]; rfl
          · intro q
            show q ∈ s.cyc.erase p ↔ q ∈ s.live ∧ (s2.obj q).refs ≠ []
            rw [h.cn.mem_erase_iff, h.cyc, hobj]
            by_cases hqp : q = p
            · simp [hqp, hr0]
            · simp [hqp]
      · refine ⟨s2.setSlot k none, [.unref p], ?_, ?_, ⟨rfl, rfl, rfl, rfl, rfl, hshr, (hset _ rfl).1⟩, Or.inr ⟨p, rfl⟩⟩
        · have hu : unlink (s.del l) k p = .ok s2 := by rw [unlink_eq hp hkr, if_neg hr0]
          simp only [release, hsl', hu]; rfl
        · refine J_core h hg rfl rfl rfl rfl rfl hshr (hset _ rfl).1 (hset _ rfl).2 ?_ hrn2 ?_ h.cn htw rfl htt hc hk hd
          · intro q j hq
            rw [← hmr q j hq, ← hobj]; rfl
          · intro q
            show q ∈ s.cyc ↔ q ∈ s.live ∧ (s2.obj q).refs ≠ []
            rw [h.cyc, hobj]
            by_cases hqp : q = p
            · subst hqp
              simp only [if_true, ne_eq, hr0, not_false_eq_true, and_true]
              exact ⟨fun h => h.1, fun h => ⟨h, fun e => by rw [e] at hkr; cases hkr⟩⟩
            · simp [hqp]

/-! ### The destructors -/

/-- What the destructors leave alone. -/
structure Fr (s s' : S) : Prop where
  var : ∀ x, s'.get (.var x) = s.get (.var x)
  elem : ∀ {o} k, o ∈ s'.live → s'.get (.elem o k) = s.get (.elem o k)
  slot : ∀ {l k}, s'.get l = some (.slot k) → s'.slot k = s.slot k
  live : ∀ {o}, o ∈ s'.live → o ∈ s.live
  zero : s'.zero = s.zero
  nextO : s'.nextO = s.nextO
  nextS : s'.nextS = s.nextS

theorem Fr.refl (s : S) : Fr s s := ⟨fun _ => rfl, fun _ _ => rfl, fun _ => rfl, fun h => h, rfl, rfl, rfl⟩

theorem Fr.trans {a b c : S} (h : Fr a b) (g : Fr b c) (hb : ∀ {l k}, c.get l = some (.slot k) → b.get l = some (.slot k)) :
    Fr a c :=
  ⟨fun x => (g.var x).trans (h.var x), fun k ho => (g.elem k ho).trans (h.elem k (g.live ho)),
    fun hk => (g.slot hk).trans (h.slot (hb hk)), fun ho => h.live (g.live ho), g.zero.trans h.zero, g.nextO.trans h.nextO,
    g.nextS.trans h.nextS⟩

def isUnref : Work → Bool
  | .unref _ => true
  | .kill _ _ => false

def meas (s : S) (w : List Work) : Nat := w.countP isUnref + 2 * s.mem.length + 2 * s.live.length

theorem meas_le (s : S) (w : List Work) : meas s w ≤ budget s w := by
  have : w.countP isUnref ≤ w.length := List.countP_le_length
  unfold meas budget; omega

theorem setObj_shares (s : S) (o n q : Nat) : ((s.setObj o { s.obj o with shares := n }).obj q).shares =
    if q = o then n else (s.obj q).shares := by
  simp only [S.setObj]; split <;> rfl

theorem setObj_refs (s : S) (o n q : Nat) : ((s.setObj o { s.obj o with shares := n }).obj q).refs = (s.obj q).refs := by
  simp only [S.setObj]; split
  · next h => rw [h]
  · rfl

theorem killIds_unref (o : Nat) (w : List Work) : killIds (.unref o :: w) = killIds w := rfl

theorem killIds_kill (o : Nat) (ls : List Loc) (w : List Work) : killIds (.kill o ls :: w) = o :: killIds w := rfl

/-- The share counter of `o` changes; the rest of the memory does not. -/
theorem J_shares {G : Nat → Prop} {τ τ' : Nat → Nat} {s : S} {w w' : List Work} (h : J G τ s w) (o n : Nat)
    (hcnt : ∀ {q}, q ∈ s.live → ∃ e, cnt s q + w'.count (.unref q) + τ' q + e = (if q = o then n else (s.obj q).shares) ∧ (e ≠ 0 → G q))
    (hunr : ∀ {q}, .unref q ∈ w' → q ∈ s.live) {z : List Nat} (hzn : z.Nodup)
    (hzer : ∀ {q}, q ∈ z ↔ q ∈ s.live ∧ (if q = o then n else (s.obj q).shares) = 0 ∧ q ∉ killIds w')
    (hdyn : (killIds w').Nodup)
    (hdy : ∀ {q ls}, .kill q ls ∈ w' → q ∈ s.live ∧ (if q = o then n else (s.obj q).shares) = 0 ∧ ls.Nodup ∧
      ∀ l, l ∈ ls ↔ (s.get l).isSome ∧ ∃ k, l = .elem q k) :
    J G τ' { s.setObj o { s.obj o with shares := n } with zero := z } w' := by
  refine ⟨h.nd, h.ln, hzn, h.cn, h.own, h.tgl, h.slt, ?_, ?_, ?_, ?_, hunr, ?_, hdyn, ?_, ?_, h.bo, h.bs⟩
  · intro k q l hk
    obtain ⟨a, b, c⟩ := h.fwd hk
    exact ⟨a, (setObj_refs s o n q).symm ▸ b, c⟩
  · intro q k hq hk
    exact h.ref hq ((setObj_refs s o n q) ▸ hk)
  · intro q hq
    show ((s.setObj o _).obj q).refs.Nodup
    rw [setObj_refs]; exact h.rn hq
  · intro q hq
    show ∃ e, cnt s q + _ + _ + e = ((s.setObj o _).obj q).shares ∧ _
    rw [setObj_shares]; exact hcnt hq
  · intro q
    show _ ↔ q ∈ s.live ∧ ((s.setObj o _).obj q).shares = 0 ∧ _
    rw [setObj_shares]; exact hzer
  · intro q ls hq
    show q ∈ s.live ∧ ((s.setObj o _).obj q).shares = 0 ∧ _
    rw [setObj_shares]; exact hdy hq
  · intro q
    show q ∈ s.cyc ↔ q ∈ s.live ∧ ((s.setObj o _).obj q).refs ≠ []
    rw [setObj_refs]; exact h.cyc

theorem drain_ok {G : Nat → Prop} {τ : Nat → Nat} : ∀ (n : Nat) (s : S) (w : List Work), J G τ s w → meas s w ≤ n →
    ∃ s', drain n s w = .ok s' ∧ J G τ s' [] ∧ Fr s s' ∧ ∀ o, o ∈ killIds w → o ∉ s'.live := by
  intro n
  induction n with
  | zero =>
    intro s w h hm
    cases w with
    | nil => exact ⟨s, rfl, h, Fr.refl s, fun _ h => by cases h⟩
    | cons x w =>
      exfalso
      cases x with
      | unref o => simp [meas, isUnref] at hm
      | kill o ls =>
        have := (h.dy (List.mem_cons_self ..)).1
        have := List.length_pos_of_mem this
        unfold meas at hm; omega
  | succ n ih =>
    intro s w h hm
    cases w with
    | nil => exact ⟨s, rfl, h, Fr.refl s, fun _ h => by cases h⟩
    | cons x w =>
      cases x with
      | unref o =>
        have ho : o ∈ s.live := h.unr (List.mem_cons_self ..)
        have hc := h.cnt ho
        simp only [List.count_cons_self] at hc
        have hs0 : (s.obj o).shares ≠ 0 := by omega
        have hok : o ∉ killIds w := by
          intro hk
          obtain ⟨ls, hl⟩ := mem_killIds.1 hk
          exact hs0 (h.dy (List.mem_cons_of_mem _ hl)).2.1
        have hmeas : meas s w < meas s (.unref o :: w) := by
          have : (Work.unref o :: w).countP isUnref = w.countP isUnref + 1 := List.countP_cons_of_pos rfl
          unfold meas; omega
        by_cases h1 : (s.obj o).shares = 1
        · have hJ : J G τ (s.setObj o { s.obj o with shares := (s.obj o).shares - 1 }) (.kill o (s.cells o) :: w) := by
            refine J_shares h o ((s.obj o).shares - 1) ?_ ?_ h.zn ?_ ?_ ?_
            · intro q hq
              obtain ⟨e, this, hG⟩ := h.ex hq
              by_cases hqo : q = o
              · subst hqo
                simp only [List.count_cons_self] at this
                have e1 : (Work.kill q (s.cells q) :: w).count (.unref q) = w.count (.unref q) := by simp [List.count_cons]
                rw [if_pos rfl, e1]; exact ⟨e, by omega, hG⟩
              · have e1 : (Work.kill o (s.cells o) :: w).count (.unref q) = w.count (.unref q) := by simp [List.count_cons]
                have e2 : (Work.unref o :: w).count (.unref q) = w.count (.unref q) := by
                  rw [List.count_cons]; simp [Ne.symm hqo]
                rw [if_neg hqo, e1]; rw [e2] at this; exact ⟨e, this, hG⟩
            · intro q hq
              rcases List.mem_cons.1 hq with hq | hq
              · cases hq
              · exact h.unr (List.mem_cons_of_mem _ hq)
            · intro q
              rw [h.zer, killIds_unref, killIds_kill]
              by_cases hqo : q = o
              · subst hqo; simp [hs0]
              · simp [hqo]
            · rw [killIds_kill]; exact List.nodup_cons.2 ⟨hok, h.dyn⟩
            · intro q ls hq
              rcases List.mem_cons.1 hq with hq | hq
              · cases hq
                exact ⟨ho, by simp [h1], nodup_cells h.nd o, fun l => mem_cells⟩
              · obtain ⟨a, b, c⟩ := h.dy (List.mem_cons_of_mem _ hq)
                have : q ≠ o := by rintro rfl; exact hs0 b
                exact ⟨a, by rw [if_neg this]; exact b, c⟩
          obtain ⟨s', e, j, f, d⟩ := ih _ _ hJ (by
            have : meas (s.setObj o { s.obj o with shares := (s.obj o).shares - 1 }) (.kill o (s.cells o) :: w) = meas s w := by
              simp [meas, isUnref, S.setObj]
            omega)
          refine ⟨s', ?_, j, ⟨f.var, f.elem, f.slot, f.live, f.zero, f.nextO, f.nextS⟩, fun q hq => d q ?_⟩
          · simp only [drain, ho, not_true_eq_false, if_false, hs0]
            rw [if_pos h1]; exact e
          · rw [killIds_kill]; exact List.mem_cons_of_mem _ hq
        · have hJ : J G τ (s.setObj o { s.obj o with shares := (s.obj o).shares - 1 }) w := by
            refine J_shares h o ((s.obj o).shares - 1) ?_ ?_ h.zn ?_ h.dyn ?_
            · intro q hq
              obtain ⟨e, this, hG⟩ := h.ex hq
              by_cases hqo : q = o
              · subst hqo
                simp only [List.count_cons_self] at this
                rw [if_pos rfl]; exact ⟨e, by omega, hG⟩
              · have e2 : (Work.unref o :: w).count (.unref q) = w.count (.unref q) := by
                  rw [List.count_cons]; simp [Ne.symm hqo]
                rw [if_neg hqo]; rw [e2] at this; exact ⟨e, this, hG⟩
            · intro q hq; exact h.unr (List.mem_cons_of_mem _ hq)
            · intro q
              rw [h.zer, killIds_unref]
              by_cases hqo : q = o
              · subst hqo
                have : (s.obj q).shares - 1 ≠ 0 := by omega
                simp [hs0, this]
              · simp [hqo]
            · intro q ls hq
              obtain ⟨a, b, c⟩ := h.dy (List.mem_cons_of_mem _ hq)
              have : q ≠ o := by rintro rfl; exact hs0 b
              exact ⟨a, by rw [if_neg this]; exact b, c⟩
          obtain ⟨s', e, j, f, d⟩ := ih _ _ hJ (by
            have : meas (s.setObj o { s.obj o with shares := (s.obj o).shares - 1 }) w = meas s w := rfl
            omega)
          refine ⟨s', ?_, j, ⟨f.var, f.elem, f.slot, f.live, f.zero, f.nextO, f.nextS⟩, fun q hq => d q hq⟩
          simp only [drain, ho, not_true_eq_false, if_false, hs0]
          rw [if_neg h1]; exact e
      | kill o ls =>
        obtain ⟨ho, hs0, hln, hlm⟩ := h.dy (List.mem_cons_self ..)
        have hdyn := h.dyn
        rw [killIds_kill] at hdyn
        have hok := (List.nodup_cons.1 hdyn).1
        have hc := h.cnt ho
        cases ls with
        | nil =>
          have hcz : cnt s o = 0 := by omega
          have hrefs := h.refs_nil ho hcz
          have hcount : ∀ q, w.count (.unref q) = (Work.kill o [] :: w).count (.unref q) := by
            intro q; simp [List.count_cons]
          have hme : ∀ q, q ∈ s.live.erase o ↔ q ≠ o ∧ q ∈ s.live := fun q => h.ln.mem_erase_iff
          have hnot : ∀ {l v}, s.get l = some v → tgt s v ≠ some o := by
            intro l v hg ht
            have := cP_zero hcz hg
            simp [ht] at this
          have hJ : J G τ { s with live := s.live.erase o } w := by
            refine ⟨h.nd, h.ln.erase o, h.zn, h.cn, ?_, ?_, h.slt, ?_, ?_, ?_, ?_, ?_, ?_, (List.nodup_cons.1 hdyn).2, ?_, ?_, ?_, h.bs⟩
            · intro q k v hg
              refine (hme q).2 ⟨?_, h.own hg⟩
              rintro rfl
              have := (hlm (.elem q k)).2 ⟨by
                have hg' : s.get (.elem q k) = some v := hg
                rw [hg']; rfl, k, rfl⟩
              cases this
            · intro l v q hg ht
              refine (hme q).2 ⟨?_, h.tgl hg ht⟩
              rintro rfl
              exact hnot hg ht
            · intro k q l hk
              obtain ⟨a, b, c⟩ := h.fwd hk
              refine ⟨(hme q).2 ⟨?_, a⟩, b, c⟩
              rintro rfl
              rw [hrefs] at b; cases b
            · intro q k hq hk; exact h.ref ((hme q).1 hq).2 hk
            · intro q hq; exact h.rn ((hme q).1 hq).2
            · intro q hq
              rw [hcount]
              exact h.ex ((hme q).1 hq).2
            · intro q hq
              refine (hme q).2 ⟨?_, h.unr (List.mem_cons_of_mem _ hq)⟩
              rintro rfl
              have := List.count_pos_iff.2 hq
              rw [hcount] at this
              omega
            · intro q
              show q ∈ s.zero ↔ q ∈ s.live.erase o ∧ _
              rw [h.zer, killIds_kill, hme]
              simp only [List.mem_cons, not_or]
              exact ⟨fun ⟨a, b, c, d⟩ => ⟨⟨c, a⟩, b, d⟩, fun ⟨⟨c, a⟩, b, d⟩ => ⟨a, b, c, d⟩⟩
            · intro q ls hq
              obtain ⟨a, b⟩ := h.dy (List.mem_cons_of_mem _ hq)
              refine ⟨(hme q).2 ⟨?_, a⟩, b⟩
              rintro rfl
              exact hok (mem_killIds.2 ⟨ls, hq⟩)
            · intro q
              show q ∈ s.cyc ↔ q ∈ s.live.erase o ∧ _
              rw [h.cyc, hme]
              constructor
              · rintro ⟨a, b⟩
                refine ⟨⟨?_, a⟩, b⟩
                rintro rfl
                exact b hrefs
              · rintro ⟨⟨_, a⟩, b⟩; exact ⟨a, b⟩
            · intro q hq; exact h.bo ((hme q).1 hq).2
          obtain ⟨s', e, j, f, d⟩ := ih _ _ hJ (by
            have h1 : (s.live.erase o).length = s.live.length - 1 := List.length_erase_of_mem ho
            have h2 := List.length_pos_of_mem ho
            have h3 : meas { s with live := s.live.erase o } w = w.countP isUnref + 2 * s.mem.length + 2 * (s.live.erase o).length := rfl
            have h4 : meas s (.kill o [] :: w) = w.countP isUnref + 2 * s.mem.length + 2 * s.live.length := by
              simp [meas, isUnref]
            omega)
          refine ⟨s', ?_, j, ⟨f.var, f.elem, f.slot, fun hq => ((hme _).1 (f.live hq)).2, f.zero, f.nextO, f.nextS⟩, ?_⟩
          · simp only [drain, ho, not_true_eq_false, if_false]
            rw [if_pos hrefs]; exact e
          · intro q hq
            rw [killIds_kill] at hq
            rcases List.mem_cons.1 hq with rfl | hq
            · intro hq'; exact ((hme q).1 (f.live hq')).1 rfl
            · exact d q hq
        | cons l ls =>
          obtain ⟨hl1, k0, hl2⟩ := (hlm l).1 (List.mem_cons_self ..)
          obtain ⟨v, hg⟩ := Option.isSome_iff_exists.1 hl1
          obtain ⟨hlnot, hlsn⟩ := List.nodup_cons.1 hln
          obtain ⟨s1, x, he, hJ, hsame, hx⟩ := release_ok (W1 := .kill o ls :: w) o h hg (fun e => by
              have hcz : cnt s o = 0 := by omega
              have := cP_zero hcz hg
              simp [e, tgt] at this)
            (fun q => by simp [List.count_cons]) rfl (by
              intro q ms hq
              rcases List.mem_cons.1 hq with hq | hq
              · cases hq
                refine ⟨hlsn, fun l' => ?_⟩
                rw [get_del]
                by_cases hll : l' = l
                · subst hll; simp [hlnot]
                · rw [if_neg hll, ← hlm l']; simp [hll]
              · obtain ⟨_, _, c, d⟩ := h.dy (List.mem_cons_of_mem _ hq)
                refine ⟨c, fun l' => ?_⟩
                rw [d l', get_del]
                by_cases hll : l' = l
                · subst hll
                  rw [if_pos rfl]
                  constructor
                  · rintro ⟨_, k, e⟩
                    rw [hl2] at e; cases e
                    exact absurd (mem_killIds.2 ⟨ms, hq⟩) hok
                  · rintro ⟨e, _⟩; cases e
                · rw [if_neg hll])
          have hget : ∀ l', s1.get l' = if l' = l then none else s.get l' := by
            intro l'; rw [← get_del]; simp only [S.get, hsame.mem]
          obtain ⟨s', e, j, f, d⟩ := ih _ _ hJ (by
            have h1 := len_del h.nd hg
            have h3 : meas s1 (x ++ .kill o ls :: w) = x.countP isUnref + w.countP isUnref + 2 * (s.del l).mem.length + 2 * s.live.length := by
              simp [meas, isUnref, hsame.mem, hsame.live]
            have h4 : meas s (.kill o (l :: ls) :: w) = w.countP isUnref + 2 * s.mem.length + 2 * s.live.length := by
              simp [meas, isUnref]
            have h5 : x.countP isUnref ≤ 1 := by
              rcases hx with rfl | ⟨q, rfl⟩ <;> simp [isUnref]
            omega)
          have hdead : o ∉ s'.live := d o (by rw [killIds_append, killIds_kill]; simp)
          refine ⟨s', ?_, j, ⟨?_, ?_, ?_, ?_, f.zero.trans hsame.zero, f.nextO.trans hsame.nextO, f.nextS.trans hsame.nextS⟩, ?_⟩
          · simp only [drain, hg, he]; exact e
          · intro y
            rw [f.var, hget, if_neg]
            rw [hl2]; intro e; cases e
          · intro q k hq
            rw [f.elem k hq, hget, if_neg]
            rw [hl2]; intro e; cases e
            exact hdead hq
          · intro l' k hk
            by_cases hv : v = .slot k
            · have hne : l' ≠ l := by
                rintro rfl
                have := f.slot hk
                cases hl2
                exact hdead (j.own hk)
              obtain ⟨_, e2⟩ := h.slt (l := l) (k := k) (by rw [hg, hv])
              have hs1 : s.get l' = some (.slot k) := by
                cases l' with
                | var y => rw [f.var, hget, if_neg hne] at hk; exact hk
                | elem q i => rw [f.elem i (j.own hk), hget, if_neg hne] at hk; exact hk
              obtain ⟨_, e3⟩ := h.slt hs1
              rw [e2] at e3; cases e3; exact absurd rfl hne
            · rw [f.slot hk, hsame.slot k hv]
          · intro q hq; rw [← hsame.live]; exact f.live hq
          · intro q hq
            apply d
            rw [killIds_append, killIds_kill]
            rw [killIds_kill] at hq
            exact List.mem_append_right _ hq

/-- The destructors, with the fuel they are given. -/
theorem run_ok {G : Nat → Prop} {τ : Nat → Nat} {s : S} {w : List Work} (h : J G τ s w) :
    ∃ s', run s w = .ok s' ∧ J G τ s' [] ∧ Fr s s' ∧ ∀ o, o ∈ killIds w → o ∉ s'.live :=
  drain_ok _ s w h (meas_le s w)

end Verif.Slots
