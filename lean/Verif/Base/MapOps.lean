import Verif.Base.MapLemmas
/- Effect of each map operation on the invariant (helper lemmas). -/
set_option linter.unusedSectionVars false
namespace Verif.Map
open Verif
variable {K : Type u} {V : Type v} [Ord K] [Std.TransOrd K] [Std.LawfulEqOrd K]
variable {m : MapS K V} {its : List (K × Nat)} {r : List Nat} {l : List (K × V)}

theorem Inv.get_some (I : Inv m its r l) {k : K} {v : V} (h : (k, v) ∈ l) : get m k = .ok (some v) := by
  obtain ⟨i, hi, hik, hs⟩ := I.search_some (List.mem_map.2 ⟨(k, v), h, rfl⟩)
  unfold get
  rw [hs]
  have : ((i : Int) ≠ -1) := by omega
  simp only [Out.bind, this, ne_eq, not_false_eq_true, if_true]
  rw [rdItem_eq I.take hi]
  simp only
  obtain ⟨p, s, hr, lp, v', ls, hl, hv, _, _, h1, h2, _, _⟩ := I.locate (k := k) (n := its[i].2)
    (by have := List.getElem_mem hi; simp only at hik; rw [← hik]; exact this)
  rw [hv]
  have : v' = v := by
    rw [hl] at h
    simp at h
    rcases h with h | h | h
    · exact absurd rfl (h1 _ h)
    · exact h.symm
    · exact absurd rfl (h2 _ h)
  simp [this]

theorem Inv.get_none (I : Inv m its r l) {k : K} (h : k ∉ l.map (·.1)) : get m k = .ok none := by
  unfold get; rw [I.search_none h]; simp [Out.bind]

theorem Inv.exist_eq (I : Inv m its r l) [DecidableEq K] (k : K) :
    exist m k = .ok (decide (k ∈ l.map (·.1))) := by
  unfold exist
  by_cases h : k ∈ l.map (·.1)
  · obtain ⟨i, hi, _, hs⟩ := I.search_some h
    rw [hs]
    have : ((i : Int) ≠ -1) := by omega
    simp only [Out.map, h, decide_true, this, ne_eq, not_false_eq_true]
  · rw [I.search_none h]; simp only [Out.map, h, decide_false]; simp

theorem Inv.set_existing (I : Inv m its r l) [DecidableEq K] {k : K} (v : V) (slot : Nat)
    (h : k ∈ l.map (·.1)) :
    ∃ m', set slot m k v = .ok (m', .ok ()) ∧
      Inv m' its r (l.map fun p => if p.1 = k then (k, v) else p) := by
  obtain ⟨i, hi, hik, hs⟩ := I.search_some h
  unfold set
  rw [hs]
  have : ((i : Int) ≠ -1) := by omega
  simp only [Out.bind, this, ne_eq, not_false_eq_true, if_true]
  rw [rdItem_eq I.take hi]
  simp only
  refine ⟨_, rfl, ?_⟩
  obtain ⟨p, s, hr, lp, v', ls, hl, hv, e1, e2, h1, h2, n1, n2⟩ := I.locate (k := k) (n := its[i].2)
    (by have := List.getElem_mem hi; rw [← hik]; exact this)
  refine ⟨I.cells, I.cnt, I.take, I.sorted, I.perm, I.ring, I.key, ?_, I.fresh⟩
  have hkn := I.key _ (List.getElem_mem hi)
  rw [hr, hl]
  simp only [List.map_append, List.map_cons, if_true]
  have ep : p.map (fun n => (m.nkey n, if n = its[i].2 then some v else m.nval n)) =
      p.map (fun n => (m.nkey n, m.nval n)) := by
    apply List.map_congr_left; intro x hx
    have : x ≠ its[i].2 := fun e => n1 (e ▸ hx)
    simp [this]
  have es : s.map (fun n => (m.nkey n, if n = its[i].2 then some v else m.nval n)) =
      s.map (fun n => (m.nkey n, m.nval n)) := by
    apply List.map_congr_left; intro x hx
    have : x ≠ its[i].2 := fun e => n2 (e ▸ hx)
    simp [this]
  have elp : lp.map (fun p => if p.1 = k then (k, v) else p) = lp := by
    conv => rhs; rw [← List.map_id lp]
    apply List.map_congr_left; intro x hx; simp [h1 x hx]
  have els : ls.map (fun p => if p.1 = k then (k, v) else p) = ls := by
    conv => rhs; rw [← List.map_id ls]
    apply List.map_congr_left; intro x hx; simp [h2 x hx]
  rw [ep, es, e1, e2, elp, els, hkn, hik]

/-- `pushSlot` makes room without touching the stored items. -/
theorem pushSlot_room (hc : m.items.length = m.cap) (hcnt : m.count = its.length)
    (ht : m.items.take its.length = its.map some) {slot : Nat} (hslot : 0 < slot)
    (hmax : its.length + slot < maxItems) :
    ∃ items' cap', pushSlot slot m = .ok { m with items := items', cap := cap', count := its.length + 1 } ∧
      items'.length = cap' ∧ items'.take its.length = its.map some ∧ its.length + 1 ≤ cap' := by
  have hle : its.length ≤ m.items.length := by
    have := congrArg List.length ht; simp at this; omega
  unfold pushSlot
  by_cases h0 : m.cap = 0
  · have hnil : its = [] := List.eq_nil_of_length_eq_zero (by omega)
    subst hnil
    simp only [h0, if_true]
    have h2 : m.count = 0 := hcnt
    have : ¬ (slot = 0) := by omega
    simp only [h2, this, if_false]
    exact ⟨_, _, rfl, by simp, by simp, by simp; omega⟩
  · simp only [h0, if_false]
    by_cases hf : m.cap = m.count
    · have : ¬ (m.cap + slot ≥ maxItems) := by omega
      simp only [hf, if_true]
      rw [← hf]
      simp only [this, if_false]
      refine ⟨_, _, by rw [hf, hcnt], by simp; omega, ?_, by omega⟩
      rw [List.take_append_of_le_length (by omega), ht]
    · simp only [hf, if_false]
      exact ⟨_, _, by rw [hcnt], hc, ht, by omega⟩

omit [Std.TransOrd K] [Std.LawfulEqOrd K] in
theorem search_heap_irrel (m : MapS K V) (h : Ring.Heap) (hd : Ring.Hdr) (f : Nat) (k : K) :
    slotPos { m with heap := h, hdr := hd, fresh := f } k = slotPos m k := rfl

theorem Inv.slotPos_eq (I : Inv m its r l) {k : K} (h : k ∉ l.map (·.1)) :
    ∃ q : Nat, slotPos m k = .ok q ∧ q ≤ its.length ∧
        (∀ i : Nat, (hi' : i < its.length) → i < q → compare its[i].1 k = .lt) ∧
        (∀ i : Nat, (hi' : i < its.length) → q ≤ i → compare k its[i].1 = .lt) := by
  have habs : ∀ p ∈ its, p.1 ≠ k := by
    intro p hp e; exact h (I.keys_perm.mem_iff.1 (e ▸ List.mem_map_of_mem hp))
  have hc := I.cnt
  unfold slotPos
  by_cases h0 : m.count > 0
  · simp only [h0, if_true]
    have e : (m.count : Int) - 1 = ((its.length - 1 : Nat) : Int) := by omega
    rw [e, rdItem_eq I.take (by omega)]
    simp only [Out.bind]
    split
    · rename_i hlt
      refine ⟨its.length, by rw [hc], Nat.le_refl _, ?_, ?_⟩
      · intro i hi _
        by_cases hie : i = its.length - 1
        · subst hie; exact hlt
        · exact cmp_trans (I.sorted.lt (show i < its.length - 1 by omega) (by omega)) hlt
      · intro i hi hq; omega
    · rename_i hlt
      apply slotLoop_eq I.take I.sorted k habs _ 0 _ rfl (by omega) (by omega) (by omega)
      · intro i _ hneg; omega
      · intro i hi hge
        have hie : i = its.length - 1 := by omega
        subst hie
        cases hcmp : compare its[its.length - 1].1 k with
        | lt => exact absurd hcmp hlt
        | eq => exact absurd (cmp_eq.1 hcmp) (habs _ (List.getElem_mem hi))
        | gt => exact cmp_gt.1 hcmp
  · simp only [h0, if_false]
    exact ⟨0, rfl, by omega, by intro i _ hneg; omega, by intro i hi _; omega⟩

theorem Inv.set_new (I : Inv m its r l) {k : K} (v : V) {slot : Nat} (hslot : 0 < slot)
    (h : k ∉ l.map (·.1)) (hmax : l.length + slot < maxItems) :
    ∃ m' its' r', set slot m k v = .ok (m', .ok ()) ∧ Inv m' its' r' (l ++ [(k, v)]) ∧ ∀ x ∈ its, x ∈ its' := by
  have hlen := I.len
  have hfr : m.fresh ∉ r := fun hh => Nat.lt_irrefl _ (I.fresh _ hh)
  obtain ⟨h', hd', ea, ra, _⟩ := Ring.append_ring I.ring hfr
  obtain ⟨q, eq, hq, hq1, hq2⟩ := I.slotPos_eq h
  obtain ⟨items', cap', ep, c1, c2, c3⟩ := pushSlot_room
    (m := { m with heap := h', hdr := hd', fresh := m.fresh + 1 }) (its := its)
    I.cells I.cnt I.take hslot (by omega)
  unfold set
  rw [I.search_none h]
  simp only [Out.bind, ne_eq, not_true_eq_false, if_false]
  rw [ea]
  simp only
  unfold newSlot
  rw [search_heap_irrel, eq]
  simp only [Out.bind]
  rw [ep]
  simp only
  have en : (((its.length + 1 : Nat) : Int) - 1 - (q : Int)).toNat = its.length - q := by omega
  have ei : ((its.length + 1 : Nat) : Int) - 1 = ((its.length : Nat) : Int) := by omega
  rw [en, ei, Vector.shiftRightLoop_eq _ _ _ (by omega) (by omega)]
  simp only
  rw [Vector.wr_nat _ _ _ (by simp; omega)]
  simp only
  refine ⟨_, its.take q ++ (k, m.fresh) :: its.drop q, r ++ [m.fresh], rfl, ?_, ?_⟩
  rotate_left
  · intro x hx
    rw [← List.take_append_drop q its] at hx
    simp only [List.mem_append, List.mem_cons] at hx ⊢
    rcases hx with hx | hx
    · exact .inl hx
    · exact .inr (.inr hx)
  have hqq : its.length - (its.length - q) = q := by omega
  rw [hqq]
  refine ⟨?_, ?_, ?_, ?_, ?_, ra, ?_, ?_, ?_⟩
  · simp; omega
  · simp; omega
  · -- content of the cells
    have g : ∀ j (hj : j < its.length), ∃ hj' : j < items'.length, items'[j] = some its[j] := by
      intro j hj
      refine ⟨by omega, ?_⟩
      have : (items'.take its.length)[j]? = (its.map some)[j]? := by rw [c2]
      rw [List.getElem?_take_of_lt hj] at this
      simp [hj] at this
      rw [List.getElem?_eq_getElem (by omega)] at this
      simpa using this
    apply List.ext_getElem
    · simp; omega
    · intro j hj1 hj2
      simp at hj2
      simp only [List.getElem_take, List.getElem_append, List.getElem_drop, List.getElem_map,
        List.getElem_set, List.length_append, List.length_take, List.length_drop, List.getElem_cons]
      by_cases hjq : j < q
      · obtain ⟨_, gj⟩ := g j (by omega)
        have a1 : ¬ q = j := by omega
        have a2 : j < min (q+1) items'.length := by omega
        have a3 : j < min (q+1) items'.length + min (its.length - q) (items'.length - q) := by omega
        have a4 : j < min q its.length := by omega
        simp only [a1, a2, a3, a4, dite_true, if_false, gj]
      · by_cases hje : q = j
        · subst hje
          simp [Nat.min_eq_left hq]
        · obtain ⟨_, gj⟩ := g (j-1) (by omega)
          have a2 : ¬ j < min (q+1) items'.length := by omega
          have a3 : j < min (q+1) items'.length + min (its.length - q) (items'.length - q) := by omega
          have a4 : ¬ j < min q its.length := by omega
          have a5 : ¬ (j - min q its.length = 0) := by omega
          have a6 : q + (j - min (q+1) items'.length) = j - 1 := by omega
          have a7 : q + (j - min q its.length - 1) = j - 1 := by omega
          simp only [hje, a2, a3, a4, a5, dite_true, dite_false, if_false, a6, a7, gj]
  · -- sorted
    unfold Sorted
    rw [List.pairwise_append]
    have hs := I.sorted
    refine ⟨List.Pairwise.sublist (List.take_sublist _ _) hs, ?_, ?_⟩
    · rw [List.pairwise_cons]
      refine ⟨?_, List.Pairwise.sublist (List.drop_sublist _ _) hs⟩
      intro b hb
      obtain ⟨j, hj, e⟩ := List.mem_iff_getElem.1 hb
      simp at hj e
      rw [← e]
      exact hq2 (q + j) (by omega) (by omega)
    · intro a ha b hb
      obtain ⟨j, hj, e⟩ := List.mem_iff_getElem.1 ha
      simp at hj e
      have hlt : compare a.1 k = .lt := by rw [← e]; exact hq1 j (by omega) (by omega)
      rcases List.mem_cons.1 hb with hb | hb
      · rw [hb]; exact hlt
      · obtain ⟨j', hj', e'⟩ := List.mem_iff_getElem.1 hb
        simp at hj' e'
        rw [← e']
        exact cmp_trans hlt (hq2 (q + j') (by omega) (by omega))
  · have e0 : (List.map (fun x : K × Nat => x.2) (List.take q its ++ (k, m.fresh) :: List.drop q its)).Perm
        (its.map (·.2) ++ [m.fresh]) := by
      rw [List.map_append, List.map_cons]
      refine List.perm_middle.trans ?_
      rw [← List.map_append, List.take_append_drop]
      exact (List.perm_append_singleton _ _).symm
    exact e0.trans (I.perm.append_right _)
  · intro p hp
    simp only [List.mem_append, List.mem_cons] at hp
    by_cases hpn : p = (k, m.fresh)
    · subst hpn; simp
    · have hp' : p ∈ its := by
        rcases hp with h | h | h
        · exact (List.take_sublist _ _).subset h
        · exact absurd h hpn
        · exact (List.drop_sublist _ _).subset h
      have : p.2 ∈ r := I.perm.mem_iff.1 (List.mem_map_of_mem hp')
      have hne : p.2 ≠ m.fresh := fun e => hfr (e ▸ this)
      simp [hne, I.key p hp']
  · simp only [List.map_append, List.map_cons, List.map_nil]
    have : r.map (fun n => (if n = m.fresh then some k else m.nkey n, if n = m.fresh then some v else m.nval n)) =
        r.map (fun n => (m.nkey n, m.nval n)) := by
      apply List.map_congr_left; intro x hx
      have : x ≠ m.fresh := fun e => hfr (e ▸ hx)
      simp [this]
    rw [this, I.abs]; simp
  · intro n hn
    simp at hn ⊢
    rcases hn with h | h
    · have := I.fresh n h; omega
    · omega

theorem Inv.erase_none (I : Inv m its r l) {k : K} (h : k ∉ l.map (·.1)) : erase m k = .ok (m, .err) := by
  unfold erase; rw [I.search_none h]; simp [Out.bind]

theorem Inv.erase_some (I : Inv m its r l) [DecidableEq K] {k : K} (h : k ∈ l.map (·.1)) :
    ∃ m' its' r', erase m k = .ok (m', .ok ()) ∧ Inv m' its' r' (l.filter fun p => p.1 ≠ k) ∧
      (∀ x ∈ its, x.1 ≠ k → x ∈ its') ∧ ∀ x ∈ its', x ∈ its ∧ x.1 ≠ k := by
  obtain ⟨i, hi, hik, hs⟩ := I.search_some h
  have hc := I.cnt
  have hcap := I.cap_le
  have hcells := I.cells
  obtain ⟨p, s, hr, lp, v', ls, hl, hv, e1, e2, h1, h2, n1, n2⟩ := I.locate (k := k) (n := its[i].2)
    (by have := List.getElem_mem hi; rw [← hik]; exact this)
  have hring := I.ring
  rw [hr] at hring
  obtain ⟨h', hd', ed, rd, _, _, _⟩ := Ring.detachElseIf_ring hring
  unfold erase
  rw [hs]
  have : ¬ ((i : Int) = -1) := by omega
  simp only [Out.bind, this, if_false]
  rw [rdItem_eq I.take hi]
  simp only
  rw [ed]
  simp only
  have en : ((m.count : Int) - 1 - (i : Int)).toNat = its.length - 1 - i := by omega
  rw [en, Vector.shiftLeftLoop_eq _ _ _ (by omega)]
  simp only
  have ei : (m.count : Int) - 1 = ((its.length - 1 : Nat) : Int) := by omega
  rw [ei, Vector.wr_nat _ _ _ (by simp; omega)]
  simp only
  have hfl : l.filter (fun p => p.1 ≠ k) = lp ++ ls := by
    rw [hl, List.filter_append, List.filter_cons]
    have : lp.filter (fun p => decide (p.1 ≠ k)) = lp := by
      apply List.filter_eq_self.2; intro x hx; simp [h1 x hx]
    rw [this]
    have : ls.filter (fun p => decide (p.1 ≠ k)) = ls := by
      apply List.filter_eq_self.2; intro x hx; simp [h2 x hx]
    rw [this]; simp
  refine ⟨_, its.eraseIdx i, p ++ s, rfl, ?_, ?_, ?_⟩
  rotate_left
  · intro x hx hxk
    obtain ⟨j, hj, e⟩ := List.mem_iff_getElem.1 hx
    refine List.mem_eraseIdx_iff_getElem.2 ⟨j, hj, ?_, e⟩
    intro eij; subst eij; exact hxk (e ▸ hik)
  · intro x hx
    obtain ⟨j, hj, hne, e⟩ := List.mem_eraseIdx_iff_getElem.1 hx
    refine ⟨e ▸ List.getElem_mem hj, ?_⟩
    intro ek
    rcases Nat.lt_or_gt_of_ne hne with hlt | hlt
    · have := I.sorted.lt hlt hi
      rw [hik, e, ek] at this; exact cmp_irrefl this
    · have := I.sorted.lt hlt hj
      rw [hik, e, ek] at this; exact cmp_irrefl this
  rw [hfl]
  refine ⟨?_, ?_, ?_, ?_, ?_, rd, ?_, ?_, ?_⟩
  · simp; omega
  · simp [hc, List.length_eraseIdx, hi]
  · have g : ∀ j (hj : j < its.length), ∃ hj' : j < m.items.length, m.items[j] = some its[j] := by
      intro j hj
      refine ⟨by omega, ?_⟩
      have : (m.items.take its.length)[j]? = (its.map some)[j]? := by rw [I.take]
      rw [List.getElem?_take_of_lt hj] at this
      simp [hj] at this
      rw [List.getElem?_eq_getElem (by omega)] at this
      simpa using this
    have hll : (its.eraseIdx i).length = its.length - 1 := by simp [List.length_eraseIdx, hi]
    rw [hll, List.take_set_of_le (Nat.le_refl _)]
    apply List.ext_getElem
    · simp [hll]; omega
    · intro j hj1 hj2
      simp [hll] at hj2
      simp only [List.getElem_take, List.getElem_append, List.getElem_drop, List.getElem_map,
        List.getElem_eraseIdx, List.length_append, List.length_take, List.length_drop]
      by_cases hji : j < i
      · obtain ⟨_, gj⟩ := g j (by omega)
        have a1 : j < min i m.items.length := by omega
        have a2 : j < min i m.items.length + min (its.length - 1 - i) (m.items.length - (i + 1)) := by omega
        simp only [hji, a1, a2, dite_true, gj]
      · obtain ⟨_, gj⟩ := g (j+1) (by omega)
        have a1 : ¬ j < min i m.items.length := by omega
        have a2 : j < min i m.items.length + min (its.length - 1 - i) (m.items.length - (i + 1)) := by omega
        have a3 : i + 1 + (j - min i m.items.length) = j + 1 := by omega
        simp only [hji, a1, a2, a3, dite_true, dite_false, gj]
  · exact List.Pairwise.sublist (List.eraseIdx_sublist _ _) I.sorted
  · have hp := I.perm
    rw [hr] at hp
    have h3 : (its[i].2 :: (its.eraseIdx i).map (·.2)).Perm (its.map (·.2)) := by
      have : (its[i] :: its.eraseIdx i).Perm its := by
        rw [List.eraseIdx_eq_take_drop_succ]
        refine List.perm_middle.symm.trans ?_
        rw [← List.drop_eq_getElem_cons hi, List.take_append_drop]
      have := this.map (fun x : K × Nat => x.2)
      simpa using this
    have h4 : (its[i].2 :: (its.eraseIdx i).map (·.2)).Perm (its[i].2 :: (p ++ s)) :=
      (h3.trans hp).trans List.perm_middle
    exact h4.cons_inv
  · intro x hx
    exact I.key x ((List.eraseIdx_sublist _ _).subset hx)
  · simp only [List.map_append]; rw [e1, e2]
  · intro x hx
    apply I.fresh x
    rw [hr]; simp at hx ⊢; rcases hx with h | h <;> simp [h]

theorem Inv.clear (_I : Inv m its r l) : Inv (clear m) [] [] [] where
  cells := rfl
  cnt := rfl
  take := rfl
  sorted := List.Pairwise.nil
  perm := by simp
  ring := ⟨by simp, rfl, rfl, trivial⟩
  key := by simp
  abs := rfl
  fresh := by simp

theorem iterLoop_eq (m : MapS K V) (f : Nat) (hf : m.hdr.first = some f) :
    ∀ (t : List Nat) (c : Nat) (fuel : Nat) (lc : List (K × V)),
      Ring.Linked m.heap (c :: t ++ [f]) → f ∉ t → t.length < fuel →
      (c :: t).map (fun n => (m.nkey n, m.nval n)) = lc.map (fun p => (some p.1, some p.2)) →
      iterLoop m fuel c = some (.ok lc) := by
  intro t
  induction t with
  | nil =>
    intro c fuel lc hl _ hfu ha
    obtain ⟨k, rfl⟩ : ∃ k, fuel = k + 1 := ⟨fuel - 1, by simp at hfu; omega⟩
    simp [Ring.Linked] at hl
    obtain ⟨x, ls, rfl, hx, hls⟩ := List.map_eq_cons_iff.1 ha.symm
    have : ls = [] := by simpa using hls
    subst this
    simp at hx
    simp [iterLoop, ← hx.1, ← hx.2, hl.1, hf]
  | cons b t ih =>
    intro c fuel lc hl hm hfu ha
    obtain ⟨k, rfl⟩ : ∃ k, fuel = k + 1 := ⟨fuel - 1, by simp at hfu; omega⟩
    simp [Ring.Linked] at hl
    simp at hm hfu
    obtain ⟨x, ls, rfl, hx, hls⟩ := List.map_eq_cons_iff.1 ha.symm
    have := ih b k ls (by simpa using hl.2.2) hm.2 (by omega) hls.symm
    have hbf : ¬ b = f := fun e => hm.1 e.symm
    simp at hx
    simp [iterLoop, ← hx.1, ← hx.2, hl.1, hf, hbf, this, Out.map]

theorem Inv.enumerate_eq (I : Inv m its r l) {fuel : Nat} (hf : l.length ≤ fuel) :
    enumerate m fuel = some (.ok l) := by
  unfold enumerate
  have h1 := I.ring.first
  have hlen : r.length = l.length := by have := congrArg List.length I.abs; simpa using this
  cases r with
  | nil =>
    simp at h1; rw [h1]
    have : l = [] := List.eq_nil_of_length_eq_zero (by simpa using hlen.symm)
    simp [this]
  | cons f t =>
    simp at h1; rw [h1]
    simp only
    apply iterLoop_eq m f h1 t f fuel l _ (List.nodup_cons.1 I.ring.nodup).1 (by simp at hlen; omega) I.abs
    simpa using I.ring.linked

end Verif.Map
