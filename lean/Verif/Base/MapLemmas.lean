import Verif.Base.Map
import Verif.Base.VectorLemmas
import Verif.Base.RingLemmas
/- Helper lemmas for the map model. -/
set_option linter.unusedSectionVars false
namespace Verif.Map
open Verif
variable {K : Type u} {V : Type v} [Ord K] [Std.TransOrd K] [Std.LawfulEqOrd K]

/-- Strict key order on items. -/
def Sorted (its : List (K × Nat)) : Prop := its.Pairwise (fun a b => compare a.1 b.1 = .lt)

theorem cmp_eq {a b : K} : compare a b = .eq ↔ a = b := Std.LawfulEqCmp.compare_eq_iff_eq
theorem cmp_gt {a b : K} : compare a b = .gt ↔ compare b a = .lt := Std.OrientedCmp.gt_iff_lt
theorem cmp_trans {a b c : K} : compare a b = .lt → compare b c = .lt → compare a c = .lt :=
  Std.TransCmp.lt_trans
theorem cmp_irrefl {a : K} : compare a a ≠ .lt := by
  have : compare a a = .eq := cmp_eq.2 rfl
  simp [this]

omit [Ord K] [Std.TransOrd K] [Std.LawfulEqOrd K] in
theorem rdItem_eq {items : List (Option (K × Nat))} {its : List (K × Nat)}
    (ht : items.take its.length = its.map some) {i : Nat} (hi : i < its.length) :
    rdItem items (i : Int) = .ok its[i] := by
  have hlen : its.length ≤ items.length := by
    have := congrArg List.length ht; simp at this; omega
  have hi' : i < items.length := by omega
  have : items[i] = some its[i] := by
    have h1 : (items.take its.length)[i]? = (its.map some)[i]? := by rw [ht]
    rw [List.getElem?_take_of_lt hi] at h1
    simp [hi] at h1
    rw [List.getElem?_eq_getElem hi'] at h1
    simpa using h1
  unfold rdItem
  rw [Vector.rd_nat _ _ hi']
  simp [Out.bind, this]

/-- Order of two positions in a sorted list. -/
theorem Sorted.lt {its : List (K × Nat)} (h : Sorted its) {i j : Nat} (hij : i < j) (hj : j < its.length) :
    compare (its[i]'(by omega)).1 its[j].1 = .lt :=
  List.pairwise_iff_getElem.1 h i j (by omega) hj hij

theorem searchLoop_eq {items : List (Option (K × Nat))} {its : List (K × Nat)}
    (ht : items.take its.length = its.map some) (hs : Sorted its) (key : K) :
    ∀ (n : Nat) (lo hi : Int), (hi + 1 - lo).toNat = n → 0 ≤ lo → hi < its.length →
      (∀ i : Nat, (hi' : i < its.length) → (i : Int) < lo → compare its[i].1 key = .lt) →
      (∀ i : Nat, (hi' : i < its.length) → hi < (i : Int) → compare key its[i].1 = .lt) →
      (∃ i : Nat, ∃ hi' : i < its.length, its[i].1 = key ∧ searchLoop items key lo hi = .ok i) ∨
      ((∀ p ∈ its, p.1 ≠ key) ∧ searchLoop items key lo hi = .ok (-1)) := by
  intro n
  induction n using Nat.strongRecOn with
  | _ n ih =>
    intro lo hi hn hlo hhi h1 h2
    unfold searchLoop
    by_cases hc : hi ≥ lo
    · simp only [hc, dite_true]
      obtain ⟨mid, hmid⟩ : ∃ mid : Nat, (lo + hi) / 2 = (mid : Int) := ⟨((lo + hi)/2).toNat, by omega⟩
      rw [hmid]
      have hm : mid < its.length := by omega
      rw [rdItem_eq ht hm]
      simp only [Out.bind]
      cases hcmp : compare its[mid].1 key with
      | eq => exact Or.inl ⟨mid, hm, cmp_eq.1 hcmp, rfl⟩
      | lt =>
        simp only
        apply ih (hi + 1 - ((mid : Int) + 1)).toNat (by omega) _ _ rfl (by omega) hhi
        · intro i hi' hlt
          by_cases hie : i = mid
          · subst hie; exact hcmp
          · by_cases hil : i < mid
            · exact cmp_trans (hs.lt hil hm) hcmp
            · omega
        · exact h2
      | gt =>
        simp only
        have hcmp' := cmp_gt.1 hcmp
        apply ih ((mid : Int) - 1 + 1 - lo).toNat (by omega) _ _ rfl hlo (by omega) h1
        intro i hi' hlt
        by_cases hie : i = mid
        · subst hie; exact hcmp'
        · exact cmp_trans hcmp' (hs.lt (by omega) hi')
    · simp only [hc, dite_false]
      refine Or.inr ⟨?_, by trivial⟩
      intro p hp e
      obtain ⟨i, hi', hpi⟩ := List.mem_iff_getElem.1 hp
      have hk : its[i].1 = key := by rw [hpi]; exact e
      by_cases hil : (i : Int) < lo
      · have := h1 i hi' hil; rw [hk] at this; exact cmp_irrefl this
      · have := h2 i hi' (by omega); rw [hk] at this; exact cmp_irrefl this

theorem slotLoop_eq {items : List (Option (K × Nat))} {its : List (K × Nat)}
    (ht : items.take its.length = its.map some) (hs : Sorted its) (key : K)
    (habs : ∀ p ∈ its, p.1 ≠ key) :
    ∀ (n : Nat) (lo hi : Int), (hi - lo).toNat = n → 0 ≤ lo → hi < its.length → lo ≤ hi →
      (∀ i : Nat, (hi' : i < its.length) → (i : Int) < lo → compare its[i].1 key = .lt) →
      (∀ i : Nat, (hi' : i < its.length) → hi ≤ (i : Int) → compare key its[i].1 = .lt) →
      ∃ q : Nat, slotLoop items key lo hi = .ok q ∧ q ≤ its.length ∧
        (∀ i : Nat, (hi' : i < its.length) → i < q → compare its[i].1 key = .lt) ∧
        (∀ i : Nat, (hi' : i < its.length) → q ≤ i → compare key its[i].1 = .lt) := by
  intro n
  induction n using Nat.strongRecOn with
  | _ n ih =>
    intro lo hi hn hlo hhi hle h1 h2
    unfold slotLoop
    by_cases hc : hi > lo
    · simp only [hc, dite_true]
      obtain ⟨mid, hmid⟩ : ∃ mid : Nat, (lo + hi) / 2 = (mid : Int) := ⟨((lo + hi)/2).toNat, by omega⟩
      rw [hmid]
      have hm : mid < its.length := by omega
      rw [rdItem_eq ht hm]
      simp only [Out.bind]
      cases hcmp : compare its[mid].1 key with
      | eq => exact absurd (cmp_eq.1 hcmp) (habs _ (List.getElem_mem hm))
      | lt =>
        simp only
        apply ih (hi - ((mid : Int) + 1)).toNat (by omega) _ _ rfl (by omega) hhi (by omega)
        · intro i hi' hlt
          by_cases hie : i = mid
          · subst hie; exact hcmp
          · by_cases hil : i < mid
            · exact cmp_trans (hs.lt hil hm) hcmp
            · omega
        · exact h2
      | gt =>
        simp only
        have hcmp' := cmp_gt.1 hcmp
        apply ih ((mid : Int) - lo).toNat (by omega) _ _ rfl hlo (by omega) (by omega) h1
        intro i hi' hlt
        by_cases hie : i = mid
        · subst hie; exact hcmp'
        · exact cmp_trans hcmp' (hs.lt (by omega) hi')
    · simp only [hc, dite_false]
      obtain ⟨q, hq⟩ : ∃ q : Nat, lo = (q : Int) := ⟨lo.toNat, by omega⟩
      refine ⟨q, by rw [hq], by omega, ?_, ?_⟩
      · intro i hi' hlt; exact h1 i hi' (by omega)
      · intro i hi' hlt; exact h2 i hi' (by omega)

/-- Invariant tying the concrete map to its content `l` (in insertion order). -/
structure Inv (m : MapS K V) (its : List (K × Nat)) (r : List Nat) (l : List (K × V)) : Prop where
  cells : m.items.length = m.cap
  cnt : m.count = its.length
  take : m.items.take its.length = its.map some
  sorted : Sorted its
  perm : (its.map (·.2)).Perm r
  ring : Ring.IsRing m.heap m.hdr r
  key : ∀ p ∈ its, m.nkey p.2 = some p.1
  abs : r.map (fun n => (m.nkey n, m.nval n)) = l.map (fun p => (some p.1, some p.2))
  fresh : ∀ n ∈ r, n < m.fresh

theorem inv_empty : Inv (MapS.empty : MapS K V) [] [] [] where
  cells := rfl
  cnt := rfl
  take := rfl
  sorted := List.Pairwise.nil
  perm := by simp
  ring := Ring.isRing_init
  key := by simp
  abs := rfl
  fresh := by simp

section
variable {m : MapS K V} {its : List (K × Nat)} {r : List Nat} {l : List (K × V)}

theorem Inv.len (I : Inv m its r l) : its.length = l.length := by
  have h1 := I.perm.length_eq
  have h2 := congrArg List.length I.abs
  simp at h1 h2; omega

theorem Inv.cap_le (I : Inv m its r l) : its.length ≤ m.cap := by
  have := congrArg List.length I.take
  have h2 := I.cells
  simp at this; omega

/-- Keys of the content are the keys of the items. -/
theorem Inv.keys_perm (I : Inv m its r l) : (its.map (·.1)).Perm (l.map (·.1)) := by
  have h1 : (its.map (fun p => m.nkey p.2)).Perm (r.map m.nkey) := by
    have := I.perm.map m.nkey
    simpa [List.map_map, Function.comp_def] using this
  have h2 : its.map (fun p => m.nkey p.2) = (its.map (·.1)).map some := by
    rw [List.map_map]; apply List.map_congr_left; intro p hp; simp [I.key p hp]
  have h3 : r.map m.nkey = (l.map (·.1)).map some := by
    have := congrArg (List.map Prod.fst) I.abs
    simpa [List.map_map, Function.comp_def] using this
  rw [h2, h3] at h1
  have := h1.filterMap id
  simpa [List.filterMap_map, Function.comp_def] using this

theorem Inv.keys_nodup (I : Inv m its r l) : (l.map (·.1)).Nodup := by
  have h : (its.map (·.1)).Nodup := by
    rw [List.Nodup, List.pairwise_map]
    refine I.sorted.imp ?_
    intro a b hab e; rw [e] at hab; exact cmp_irrefl hab
  exact I.keys_perm.nodup_iff.1 h

theorem Inv.search_some (I : Inv m its r l) {k : K} (hk : k ∈ l.map (·.1)) :
    ∃ i : Nat, ∃ hi : i < its.length, its[i].1 = k ∧ search m k = .ok i := by
  have hk' : k ∈ its.map (·.1) := I.keys_perm.mem_iff.2 hk
  have hpos : 0 < its.length := by
    cases hi : its with
    | nil => simp [hi] at hk'
    | cons a b => simp
  unfold search
  have hc := I.cnt
  have : ¬ ((m.count : Int) - 1 < 0) := by omega
  simp only [this, if_false]
  rcases searchLoop_eq I.take I.sorted k _ 0 ((m.count : Int) - 1) rfl (by omega) (by omega)
    (by intro i _ h; omega) (by intro i h1 h2; omega) with h | ⟨h, _⟩
  · exact h
  · exfalso
    obtain ⟨p, hp, e⟩ := List.mem_map.1 hk'
    exact h p hp e

theorem Inv.search_none (I : Inv m its r l) {k : K} (hk : k ∉ l.map (·.1)) :
    search m k = .ok (-1) := by
  have hk' : k ∉ its.map (·.1) := fun h => hk (I.keys_perm.mem_iff.1 h)
  unfold search
  have hc := I.cnt
  by_cases h0 : (m.count : Int) - 1 < 0
  · simp [h0]
  · simp only [h0, if_false]
    rcases searchLoop_eq I.take I.sorted k _ 0 ((m.count : Int) - 1) rfl (by omega) (by omega)
      (by intro i _ h; omega) (by intro i h1 h2; omega) with ⟨i, hi, e, _⟩ | ⟨_, h⟩
    · exfalso; apply hk'
      exact List.mem_map.2 ⟨its[i], List.getElem_mem hi, e⟩
    · exact h

/-- The node of an item and its place in the ring / the content. -/
theorem Inv.locate (I : Inv m its r l) {k : K} {n : Nat} (hp : (k, n) ∈ its) :
    ∃ p s, r = p ++ n :: s ∧ ∃ lp v ls, l = lp ++ (k, v) :: ls ∧ m.nval n = some v ∧
      p.map (fun n => (m.nkey n, m.nval n)) = lp.map (fun p => (some p.1, some p.2)) ∧
      s.map (fun n => (m.nkey n, m.nval n)) = ls.map (fun p => (some p.1, some p.2)) ∧
      (∀ x ∈ lp, x.1 ≠ k) ∧ (∀ x ∈ ls, x.1 ≠ k) ∧ n ∉ p ∧ n ∉ s := by
  have hn : n ∈ r := I.perm.mem_iff.1 (List.mem_map.2 ⟨(k, n), hp, rfl⟩)
  obtain ⟨p, s, hr⟩ := List.append_of_mem hn
  have habs := I.abs
  rw [hr, List.map_append, List.map_cons] at habs
  have hkn := I.key _ hp
  obtain ⟨lp, lr, hl, h1, h2⟩ := List.append_eq_map_iff.1 habs
  obtain ⟨x, ls, hlr, h3, h4⟩ := List.map_eq_cons_iff.1 h2
  obtain ⟨k', v⟩ := x
  simp at h3 hkn
  have hk' : k' = k := by
    have := h3.1; rw [hkn] at this; simpa using this
  subst hk'
  have hnd := I.keys_nodup
  rw [hl, hlr] at hnd
  simp only [List.map_append, List.map_cons] at hnd
  rw [List.nodup_append] at hnd
  have hrn := I.ring.nodup
  rw [hr, List.nodup_append] at hrn
  refine ⟨p, s, hr, lp, v, ls, by rw [hl, hlr], h3.2.symm, h1.symm, h4.symm, ?_, ?_, ?_, ?_⟩
  · intro x hx e
    exact hnd.2.2 x.1 (List.mem_map_of_mem hx) k' (by simp) e
  · intro x hx e
    have := (List.nodup_cons.1 hnd.2.1).1
    exact this (e ▸ List.mem_map_of_mem hx)
  · intro hx; exact hrn.2.2 n hx n (by simp) rfl
  · exact (List.nodup_cons.1 hrn.2.1).1

end
end Verif.Map
