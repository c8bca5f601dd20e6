import Verif.Base.Vector
/-
Helper lemmas for the Vector model.
-/
namespace Verif.Vector
open Verif
variable {α : Type u}

/-- Representation relation used in the proofs only. -/
def Rep (v : Vec α) (l : List α) : Prop :=
  (cells v).length = v.cap ∧ v.count = l.length ∧ (cells v).take l.length = l.map some

@[simp] theorem cells_mk (b : List (Option α)) (c : Int) (n : Nat) : cells ⟨some b, c, n⟩ = b := rfl

theorem rd_nat (b : List (Option α)) (i : Nat) (h : i < b.length) :
    rd b (i : Int) = .ok (b[i]) := by
  simp [rd, h]

theorem wr_nat (b : List (Option α)) (i : Nat) (c) (h : i < b.length) :
    wr b (i : Int) c = .ok (b.set i c) := by
  simp [wr, h]

theorem copyLoop_eq (src : List (Option α)) (s d : Nat) :
    ∀ (n i : Nat) (dst : List (Option α)), s + i + n ≤ src.length → d + i + n ≤ dst.length →
      copyLoop src (s : Int) (d : Int) n (i : Int) dst =
        .ok (dst.take (d+i) ++ (src.drop (s+i)).take n ++ dst.drop (d+i+n)) := by
  intro n
  induction n with
  | zero => intro i dst _ _; simp [copyLoop]
  | succ n ih =>
    intro i dst h1 h2
    unfold copyLoop
    have e1 : (i : Int) + (s : Int) = ((s + i : Nat) : Int) := by omega
    have e2 : (i : Int) + (d : Int) = ((d + i : Nat) : Int) := by omega
    have e3 : (i : Int) + 1 = ((i + 1 : Nat) : Int) := by omega
    rw [e1, e2, e3, rd_nat _ _ (by omega)]
    simp only [Out.bind]
    rw [wr_nat _ _ _ (by omega)]
    simp only [Out.bind]
    rw [ih (i+1) _ (by omega) (by simp; omega)]
    congr 1
    have hs : s + i < src.length := by omega
    have hd : d + i < dst.length := by omega
    rw [List.drop_eq_getElem_cons hs, List.take_succ_cons]
    have e4 : d + (i + 1) = d + i + 1 := by omega
    have e5 : s + (i+1) = s + i + 1 := by omega
    have e6 : d + i + 1 + n = d + i + (n+1) := by omega
    rw [e4, e5, e6]
    rw [List.take_set, List.drop_set_of_lt (by omega)]
    have : (List.take (d + i + 1) dst).set (d + i) src[s + i] = List.take (d+i) dst ++ [src[s+i]] := by
      rw [List.take_succ_eq_append_getElem hd]
      rw [List.set_append_right _ _ (by simp; omega)]
      simp [Nat.min_eq_left (Nat.le_of_lt hd)]
    rw [this]; simp

theorem shiftLeftLoop_eq : ∀ (n i : Nat) (b : List (Option α)), i + n < b.length →
    shiftLeftLoop n (i : Int) b =
      .ok (b.take i ++ (b.drop (i+1)).take n ++ b.drop (i+n)) := by
  intro n
  induction n with
  | zero => intro i b _; simp [shiftLeftLoop]
  | succ n ih =>
    intro i b h
    unfold shiftLeftLoop
    have e3 : (i : Int) + 1 = ((i + 1 : Nat) : Int) := by omega
    rw [e3, rd_nat _ _ (by omega)]
    simp only [Out.bind]
    rw [wr_nat _ _ _ (by omega)]
    simp only [Out.bind]
    rw [ih (i+1) _ (by simp; omega)]
    congr 1
    have hd : i < b.length := by omega
    have hd1 : i + 1 < b.length := by omega
    rw [List.take_set, List.drop_set_of_lt (by omega), List.drop_set_of_lt (by omega)]
    rw [List.drop_eq_getElem_cons hd1, List.take_succ_cons]
    have : (List.take (i + 1) b).set i b[i+1] = List.take i b ++ [b[i+1]] := by
      rw [List.take_succ_eq_append_getElem hd, List.set_append_right _ _ (by simp; omega)]
      simp [Nat.min_eq_left (Nat.le_of_lt hd)]
    rw [this]
    have e6 : i + 1 + n = i + (n+1) := by omega
    rw [e6]; simp

theorem shiftRightLoop_eq : ∀ (n i : Nat) (b : List (Option α)), i < b.length → n ≤ i →
    shiftRightLoop n (i : Int) b =
      .ok (b.take (i - n + 1) ++ (b.drop (i-n)).take n ++ b.drop (i+1)) := by
  intro n
  induction n with
  | zero =>
    intro i b h _
    simp [shiftRightLoop]
  | succ n ih =>
    intro i b h hn
    unfold shiftRightLoop
    have e3 : (i : Int) - 1 = ((i - 1 : Nat) : Int) := by omega
    rw [e3, rd_nat _ _ (by omega)]
    simp only [Out.bind]
    rw [wr_nat _ _ _ (by omega)]
    simp only [Out.bind]
    rw [ih (i-1) _ (by simp; omega) (by omega)]
    congr 1
    apply List.ext_getElem
    · simp; omega
    · intro k h1 h2
      have hk : k < b.length := by simp at h2; omega
      simp only [List.getElem_append, List.getElem_take, List.getElem_drop, List.getElem_set,
        List.length_append, List.length_take, List.length_drop, List.length_set]
      have m1 : min (i - 1 - n + 1) b.length = i - n := by omega
      have m2 : min n (b.length - (i - 1 - n)) = n := by omega
      have m3 : min (i - (n+1) + 1) b.length = i - n := by omega
      have m4 : min (n+1) (b.length - (i - (n+1))) = n + 1 := by omega
      simp only [m1, m2, m3, m4]
      by_cases c1 : k < i - n
      · have c2 : k < i - n + n := by omega
        have c3 : k < i - n + (n+1) := by omega
        have c4 : ¬ i = k := by omega
        simp only [c1, c2, c3, c4, dite_true, if_false]
      · by_cases c2 : k < i
        · have c3 : k < i - n + n := by omega
          have c4 : k < i - n + (n+1) := by omega
          have c5 : ¬ i = i - 1 - n + (k - (i - n)) := by omega
          have c6 : i - 1 - n + (k - (i - n)) = i - (n+1) + (k - (i - n)) := by omega
          simp only [c1, c3, c4, c5, dite_true, dite_false, if_false]
          simp only [c6]
        · have c3 : ¬ k < i - n + n := by omega
          by_cases c4 : k = i
          · subst c4
            have c5 : k < k - n + (n+1) := by omega
            have c6 : k - (n+1) + (k - (k - n)) = k - 1 := by omega
            have c7 : k = k - 1 + 1 + (k - (k - n + n)) := by omega
            simp only [c1, c3, c5, c6, dite_true, dite_false, ← c7, if_true]
          · have c5 : ¬ k < i - n + (n+1) := by omega
            have c6 : ¬ i = i - 1 + 1 + (k - (i - n + n)) := by omega
            have c7 : i - 1 + 1 + (k - (i - n + n)) = i + 1 + (k - (i - n + (n+1))) := by omega
            simp only [c3, c5, c6, dite_false, if_false]
            simp only [c7]

theorem rep_empty : Rep (Vec.empty : Vec α) [] := by simp [Rep, Vec.empty, cells]

theorem Rep.len_le {v : Vec α} {l : List α} (h : Rep v l) : l.length ≤ v.cap := by
  have := congrArg List.length h.2.2
  simp at this; have := h.1; omega

/-- `pushSlot` keeps the first `l.length` cells and makes room for one more. -/
theorem pushSlot_rep {v : Vec α} {l : List α} (h : Rep v l) (hmax : l.length + 16 < 2000000) :
    ∃ v', pushSlot v = .ok v' ∧ (cells v').length = v'.cap ∧ v'.count = l.length + 1 ∧
      (cells v').take l.length = l.map some ∧ l.length + 1 ≤ v'.cap ∧ v'.items ≠ none := by
  have hle := h.len_le
  obtain ⟨h1, h2, h3⟩ := h
  unfold pushSlot
  by_cases hc : v.cap = 0
  · have hl : l = [] := by apply List.eq_nil_of_length_eq_zero; omega
    subst hl
    simp only [hc, if_true]
    have : ¬ (((expandSlot : Nat) : Int) = v.count) := by simp [h2, expandSlot]
    simp only [this, if_false]
    refine ⟨_, rfl, ?_, ?_, ?_, ?_, ?_⟩ <;> simp [cells, h2, expandSlot]
  · simp only [hc, if_false]
    by_cases hf : (v.cap : Int) = v.count
    · have hcl : v.cap = l.length := by omega
      have hm : ¬ (v.cap + expandSlot ≥ maxElements) := by simp [expandSlot, maxElements]; omega
      simp only [hf, if_true, hm, if_false]
      have := copyLoop_eq (cells v) 0 0 v.count.toNat 0 (List.replicate (5 * v.cap / 2) none)
        (by omega) (by simp; omega)
      simp only [Int.natCast_zero] at this
      rw [this]
      simp only [Out.bind]
      refine ⟨_, rfl, ?_, ?_, ?_, ?_, ?_⟩
      · simp; omega
      · simp; omega
      · have : v.count.toNat = l.length := by omega
        simp [this, h3]
      · simp; omega
      · simp
    · simp only [hf, if_false]
      refine ⟨_, rfl, h1, by simp [h2], h3, by simp; omega, ?_⟩
      intro hn
      have : cells v = [] := by
        have hn' : v.items = none := hn
        simp [cells, hn']
      rw [this] at h1; simp at h1; omega

theorem push_rep {v : Vec α} {l : List α} (x : α) (h : Rep v l) (hmax : l.length + 16 < 2000000) :
    ∃ v', push v x = .ok v' ∧ Rep v' (l ++ [x]) := by
  obtain ⟨v', e, h1, h2, h3, h4, h5⟩ := pushSlot_rep h hmax
  unfold push
  rw [e]; simp only [Out.bind]
  have : v'.count - 1 = ((l.length : Nat) : Int) := by omega
  rw [this, wr_nat _ _ _ (by omega)]
  refine ⟨_, rfl, ?_, ?_, ?_⟩
  · simpa [cells] using h1
  · simp [h2]
  · simp only [cells_mk, List.length_append, List.length_singleton, List.map_append,
      List.map_cons, List.map_nil]
    have hl : l.length < (cells v').length := by omega
    rw [List.take_set, List.take_succ_eq_append_getElem hl, h3,
      List.set_append_right _ _ (by simp)]
    simp

theorem pushAll_rep : ∀ (xs : List α) (v : Vec α) (l : List α), Rep v l →
    l.length + xs.length + 16 ≤ 2000000 → ∃ v', pushAll xs v = .ok v' ∧ Rep v' (l ++ xs) := by
  intro xs
  induction xs with
  | nil => intro v l h _; exact ⟨v, rfl, by simpa using h⟩
  | cons x xs ih =>
    intro v l h hm
    simp at hm
    obtain ⟨v1, e1, r1⟩ := push_rep x h (by omega)
    obtain ⟨v2, e2, r2⟩ := ih v1 _ r1 (by simp; omega)
    refine ⟨v2, ?_, by simpa using r2⟩
    simp [pushAll, e1, Out.bind, e2]

theorem Rep.getElem {v : Vec α} {l : List α} (h : Rep v l) {p : Nat} (hp : p < l.length) :
    ∃ hp' : p < (cells v).length, (cells v)[p] = some l[p] := by
  have hle := h.len_le
  have h1 := h.1
  refine ⟨by omega, ?_⟩
  have : ((cells v).take l.length)[p]? = (l.map some)[p]? := by rw [h.2.2]
  rw [List.getElem?_take_of_lt hp] at this
  simp [hp] at this
  rw [List.getElem?_eq_getElem (by omega)] at this
  simpa using this

theorem outOfCap_false {v : Vec α} {l : List α} (h : Rep v l) {p : Nat} (hp : p < l.length) :
    outOfCap v p = false := by
  have := h.len_le
  simp [outOfCap]; omega

theorem get_rep {v : Vec α} {l : List α} (h : Rep v l) {p : Nat} (hp : p < l.length) :
    get v p = .ok l[p] := by
  obtain ⟨hp', e⟩ := h.getElem hp
  unfold get
  rw [outOfCap_false h hp, rd_nat _ _ hp']
  simp [Out.bind, e]

theorem set_rep {v : Vec α} {l : List α} (h : Rep v l) {p : Nat} (hp : p < l.length) (x : α) :
    ∃ v', set v p x = .ok v' ∧ Rep v' (l.set p x) := by
  have hle := h.len_le
  obtain ⟨h1, h2, h3⟩ := h
  unfold set
  rw [outOfCap_false ⟨h1, h2, h3⟩ hp, wr_nat _ _ _ (by omega)]
  refine ⟨_, rfl, ?_, ?_, ?_⟩
  · simpa [cells] using h1
  · simp [h2]
  · simp only [cells_mk, List.length_set]
    rw [List.take_set, h3, List.map_set]

theorem erase_rep {v : Vec α} {l : List α} (h : Rep v l) {p : Nat} (hp : p < l.length) :
    ∃ v', erase v p = .ok v' ∧ Rep v' (l.eraseIdx p) := by
  have hle := h.len_le
  have h' := h
  obtain ⟨h1, h2, h3⟩ := h
  unfold erase
  rw [outOfCap_false h' hp]
  have en : (v.count - 1 - (p : Int)).toNat = l.length - 1 - p := by omega
  rw [en, shiftLeftLoop_eq _ _ _ (by omega)]
  refine ⟨_, rfl, ?_, ?_, ?_⟩
  · simp; omega
  · simp [h2, List.length_eraseIdx, hp]; omega
  · simp only [cells_mk]
    apply List.ext_getElem
    · simp [List.length_eraseIdx, hp]; omega
    · intro k hk1 hk2
      simp [List.length_eraseIdx, hp] at hk2
      have g := fun q (hq : q < l.length) => h'.getElem hq
      simp only [List.getElem_take, List.getElem_append, List.getElem_drop, List.getElem_map,
        List.getElem_eraseIdx, List.length_append, List.length_take, List.length_drop]
      by_cases hkp : k < p
      · obtain ⟨_, gk⟩ := g k (by omega)
        have hmin : k < min p (cells v).length := by omega
        have hmin2 : k < min p (cells v).length + min (l.length - 1 - p) ((cells v).length - (p + 1)) := by omega
        simp [hkp, gk, hmin, hmin2]
      · obtain ⟨_, gk⟩ := g (k+1) (by omega)
        have hmin : ¬ k < min p (cells v).length := by omega
        have hmin2 : k < min p (cells v).length + min (l.length - 1 - p) ((cells v).length - (p + 1)) := by omega
        have e : p + 1 + (k - min p (cells v).length) = k + 1 := by omega
        simp [hkp, hmin, hmin2, e, gk]

theorem pop_rep {v : Vec α} {l : List α} (h : Rep v l) (hne : l ≠ []) :
    ∃ v', pop v = .ok v' ∧ Rep v' l.dropLast := by
  have hp : 0 < l.length := List.length_pos_iff.mpr hne
  have h2 := h.2.1
  unfold pop
  have : ¬ v.count = 0 := by omega
  simp only [this, if_false]
  have e : v.count - 1 = ((l.length - 1 : Nat) : Int) := by omega
  rw [e]
  obtain ⟨v', e1, r⟩ := erase_rep h (p := l.length - 1) (by omega)
  exact ⟨v', e1, by simpa [List.eraseIdx_length_sub_one] using r⟩

theorem insert_rep {v : Vec α} {l : List α} (h : Rep v l) {p : Nat} (hp : p ≤ l.length) (x : α)
    (hmax : l.length + 16 < 2000000) :
    ∃ v', insert v p x = .ok v' ∧ Rep v' (l.take p ++ x :: l.drop p) := by
  obtain ⟨v', e, h1, h2, h3, h4, h5⟩ := pushSlot_rep h hmax
  unfold insert
  have : ¬ ((p : Int) > v.count + 1) := by have := h.2.1; omega
  simp only [this, if_false]
  rw [e]; simp only [Out.bind]
  have en : (v'.count - 1 - (p : Int)).toNat = l.length - p := by omega
  have ei : v'.count - 1 = ((l.length : Nat) : Int) := by omega
  rw [en, ei, shiftRightLoop_eq _ _ _ (by omega) (by omega)]
  simp only
  rw [wr_nat _ _ _ (by simp; omega)]
  refine ⟨_, rfl, ?_, ?_, ?_⟩
  · simp; omega
  · simp [h2]; omega
  · simp only [cells_mk]
    have eq1 : l.length - (l.length - p) = p := by omega
    rw [eq1]
    have g : ∀ q (hq : q < l.length), ∃ hp' : q < (cells v').length, (cells v')[q] = some l[q] := by
      intro q hq
      refine ⟨by omega, ?_⟩
      have : ((cells v').take l.length)[q]? = (l.map some)[q]? := by rw [h3]
      rw [List.getElem?_take_of_lt hq] at this
      simp [hq] at this
      rw [List.getElem?_eq_getElem (by omega)] at this
      simpa using this
    apply List.ext_getElem
    · simp; omega
    · intro k hk1 hk2
      simp at hk2
      simp only [List.getElem_take, List.getElem_append, List.getElem_drop, List.getElem_map,
        List.getElem_set, List.length_append, List.length_take, List.length_drop, List.getElem_cons]
      by_cases hkp : k < p
      · obtain ⟨_, gk⟩ := g k (by omega)
        have a1 : ¬ p = k := by omega
        have a2 : k < min (p+1) (cells v').length := by omega
        have a3 : k < min (p+1) (cells v').length + min (l.length - p) ((cells v').length - p) := by omega
        have a4 : k < min p l.length := by omega
        simp [a1, a2, a3, a4, gk]
      · by_cases hke : p = k
        · have a4 : ¬ k < min p l.length := by omega
          have a5 : k - min p l.length = 0 := by omega
          simp [hke]; 
          have : ¬ (k < k ∧ k < l.length) := by omega
          simp [Nat.min_eq_left (show k ≤ l.length by omega)]
        · obtain ⟨_, gk⟩ := g (k-1) (by omega)
          have a2 : ¬ k < min (p+1) (cells v').length := by omega
          have a3 : k < min (p+1) (cells v').length + min (l.length - p) ((cells v').length - p) := by omega
          have a4 : ¬ k < min p l.length := by omega
          have a5 : ¬ (k - min p l.length = 0) := by omega
          have a6 : p + (k - min (p+1) (cells v').length) = k - 1 := by omega
          have a7 : p + (k - min p l.length - 1) = k - 1 := by omega
          simp [hke, a2, a3, a4, a5, a6, a7, gk]

theorem insertVec_rep {v w : Vec α} {l m : List α} (h : Rep v l) (hw : Rep w m) {p : Nat}
    (hp : p ≤ l.length) (n : Int) (hn : n = -1 ∨ n = m.length) (hmax : l.length + m.length < 2000000) :
    ∃ v', insertVec v p w n = .ok v' ∧ Rep v' (l.take p ++ m ++ l.drop p) := by
  have hle := h.len_le
  have hlew := hw.len_le
  obtain ⟨h1, h2, h3⟩ := h
  obtain ⟨w1, w2, w3⟩ := hw
  unfold insertVec
  by_cases hm : w.count = 0
  · have : m = [] := List.eq_nil_of_length_eq_zero (by omega)
    subst this
    simp only [hm, if_true]
    exact ⟨v, rfl, h1, by simp [h2], by simpa using h3⟩
  · simp only [hm, if_false]
    have en : (if n = -1 then w.count else n) = (m.length : Int) := by
      rcases hn with hn | hn
      · simp [hn, w2]
      · have : ¬ ((m.length : Int) = -1) := by omega
        simp [hn, this]
    rw [en]
    have c1 : ¬ (w.count < (m.length : Int)) := by omega
    have c2 : ¬ ((p : Int) > v.count) := by omega
    simp only [c1, c2, if_false]
    obtain ⟨sz, hsz⟩ : ∃ sz : Nat, (if decide ((v.cap : Int) ≤ (m.length : Int) + v.count) = true
        then (m.length : Int) + v.count else (v.cap : Int)) = (sz : Int) := by
      split
      · exact ⟨m.length + l.length, by omega⟩
      · exact ⟨v.cap, rfl⟩
    have hsz' : m.length + l.length ≤ sz := by
      split at hsz
      · omega
      · rename_i hh; simp at hh; omega
    have c3 : ¬ ((decide ((v.cap : Int) ≤ (m.length : Int) + v.count) &&
        decide ((sz : Int) ≥ (maxElements : Int))) = true) := by
      by_cases hg : (v.cap : Int) ≤ (m.length : Int) + v.count
      · simp [hg] at hsz
        simp [maxElements]; omega
      · simp [hg]
    rw [hsz]
    simp only [c3]
    have ep : ((p : Int)).toNat = p := by simp
    have es : ((sz : Int)).toNat = sz := by simp
    have em : ((m.length : Int)).toNat = m.length := by simp
    have el : (v.count - (p : Int)).toNat = l.length - p := by omega
    rw [ep, es, em, el]
    have L1 := copyLoop_eq (cells v) 0 0 p 0 (List.replicate sz none) (by omega) (by simp; omega)
    simp only [Int.natCast_zero] at L1
    rw [L1]
    simp only [Out.bind]
    generalize hb1 : (List.take (0 + 0) (List.replicate sz (none : Option α)) ++ (cells v |>.drop (0+0)).take p ++
      List.drop (0 + 0 + p) (List.replicate sz none)) = b1
    have lb1 : b1.length = sz := by rw [← hb1]; simp; omega
    have tb1 : b1.take p = (l.take p).map some := by
      rw [← hb1]
      have hlp : (List.take p (cells v)).length = p := by simp; omega
      have := congrArg (List.take p) h3
      rw [List.take_take, Nat.min_eq_left hp] at this
      simp only [Nat.add_zero, Nat.zero_add, List.take_zero, List.drop_zero, List.nil_append]
      rw [List.take_append_of_le_length (by omega), List.take_take, Nat.min_self, this,
        List.map_take]
    have L2 := copyLoop_eq (cells w) 0 p m.length 0 b1 (by omega) (by omega)
    simp only [Int.natCast_zero] at L2
    rw [L2]
    simp only [Nat.add_zero, Nat.zero_add, List.drop_zero, w3, tb1]
    generalize hb2 : (List.map some (List.take p l) ++ List.map some m ++ List.drop (p + m.length) b1) = b2
    have lb2 : b2.length = sz := by rw [← hb2]; simp; omega
    have tb2 : b2.take (p + m.length) = (l.take p ++ m).map some := by
      rw [← hb2, List.take_append_of_le_length (by simp; omega)]
      rw [← List.map_append]
      apply List.take_of_length_le
      simp; omega
    have L3 := copyLoop_eq (cells v) p (p + m.length) (l.length - p) 0 b2 (by omega) (by omega)
    simp only [Int.natCast_add] at L3
    rw [show ((0 : Nat) : Int) = 0 from rfl] at L3
    rw [L3]
    refine ⟨_, rfl, ?_, ?_, ?_⟩
    · simp [lb2]; omega
    · simp [h2, w2]; omega
    · simp only [cells_mk, Nat.add_zero, tb2]
      rw [List.take_append_of_le_length]
      · have : List.take (l.length - p) (List.drop p (cells v)) = (l.drop p).map some := by
          have := congrArg (List.drop p) h3
          rw [List.drop_take] at this
          simpa using this
        rw [this, ← List.map_append]
        apply List.take_of_length_le
        simp
      · simp
        omega

theorem assign_rep {v w : Vec α} {m : List α} (hw : Rep w m) (hne : m ≠ []) :
    ∃ v', assign v w = .ok v' ∧ Rep v' m := by
  have hlew := hw.len_le
  obtain ⟨w1, w2, w3⟩ := hw
  have hp : 0 < m.length := List.length_pos_iff.mpr hne
  unfold assign
  cases hi : w.items with
  | none => simp [cells, hi] at w1; omega
  | some sb =>
    have hc : cells w = sb := by simp [cells, hi]
    rw [hc] at w1 w3
    have L1 := copyLoop_eq sb 0 0 w.count.toNat 0 (List.replicate w.cap none) (by omega) (by simp; omega)
    simp only [Int.natCast_zero] at L1
    simp only
    rw [L1]
    refine ⟨_, rfl, ?_, ?_, ?_⟩
    · simp [cells]; omega
    · simp [w2]
    · have : w.count.toNat = m.length := by omega
      simp only [cells, Option.getD_some, this]
      simp [w3]

theorem shrink_rep {v : Vec α} {l : List α} (h : Rep v l) {n : Nat} (hn : n ≤ l.length) :
    ∃ v', resize v n = .ok v' ∧ Rep v' (l.take n) := by
  have hle := h.len_le
  obtain ⟨h1, h2, h3⟩ := h
  unfold resize
  have : (n : Int) ≤ (v.cap : Int) := by omega
  simp only [this, if_true]
  refine ⟨_, rfl, h1, by simp; omega, ?_⟩
  simp only [List.length_take, Nat.min_eq_left hn]
  have := congrArg (List.take n) h3
  rw [List.take_take, Nat.min_eq_left hn] at this
  rw [List.map_take]; exact this

end Verif.Vector
