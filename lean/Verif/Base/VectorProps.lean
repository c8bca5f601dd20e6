import Verif.Base.VectorLemmas
/-
C03: `Vector` behaves as a sequence.
-/
namespace Verif.Vector
open Verif
variable {α : Type u}

/-! ### Specification: the same operations on a mathematical list -/

/-- What each operation should do to a list; positions outside the list are rejected. -/
def specStep (l : List α) : Op α → List α × Out (Option α)
  | .push x => (l ++ [x], .ok none)
  | .pop => if l = [] then (l, .err) else (l.dropLast, .ok none)
  | .set p x => if 0 ≤ p ∧ p < l.length then (l.set p.toNat x, .ok none) else (l, .err)
  | .get p => if 0 ≤ p then
      match l[p.toNat]? with
      | some x => (l, .ok (some x))
      | none => (l, .err)
    else (l, .err)
  | .erase p => if 0 ≤ p ∧ p < l.length then (l.eraseIdx p.toNat, .ok none) else (l, .err)
  | .insert p x => if 0 ≤ p ∧ p ≤ l.length then (l.take p.toNat ++ x :: l.drop p.toNat, .ok none) else (l, .err)
  | .insertVec p xs => if 0 ≤ p ∧ p ≤ l.length then (l.take p.toNat ++ xs ++ l.drop p.toNat, .ok none) else (l, .err)
  | .concat xs => (l ++ xs, .ok none)
  | .concatSelf => (l ++ l, .ok none)
  | .clear => ([], .ok none)
  | .assign xs => (xs, .ok none)
  | .shrink n => if 0 ≤ n ∧ n ≤ l.length then (l.take n.toNat, .ok none) else (l, .err)

/-- What a client of an ideal sequence observes along a history. -/
def specRun (l : List α) : List (Op α) → List (Out (Option α) × Int)
  | [] => []
  | op :: ops => ((specStep l op).2, ((specStep l op).1.length : Int)) :: specRun (specStep l op).1 ops

/-- The operation stays below the documented maximum number of elements. -/
def Fits (l : List α) : Op α → Prop
  | .push _ => l.length + 16 < maxElements
  | .insert _ _ => l.length + 16 < maxElements
  | .insertVec _ xs => l.length + xs.length + 16 < maxElements
  | .concat xs => l.length + xs.length + 16 < maxElements
  | .concatSelf => l.length + l.length < maxElements
  | .assign xs => xs.length + 16 < maxElements
  | _ => True

/-- The whole history stays below the maximum. -/
def FitsAll (l : List α) : List (Op α) → Prop
  | [] => True
  | op :: ops => Fits l op ∧ FitsAll (specStep l op).1 ops

/-- The full property C03 (false of the code, see below). -/
def VectorRefinesList (α : Type u) : Prop :=
  ∀ ops : List (Op α), FitsAll [] ops → run Vec.empty ops = .ok (specRun [] ops)

/-! ### Violations -/

/-- `get(5)` after a single `push` is not rejected: the bounds check uses the capacity (16), so an
element that was never stored is read. -/
theorem vector_get_beyond_length_violated : ¬ VectorRefinesList Nat := by
  intro h
  have := h [.push 1, .get 5] (by simp [FitsAll, Fits, specStep, maxElements])
  revert this; decide

/-- `erase(3)` on a one-element vector is accepted and silently drops the last element. -/
theorem vector_erase_beyond_length_violated :
    run Vec.empty [.push (7 : Nat), .erase 3] = .ok [(.ok none, 1), (.ok none, 0)] ∧
    specRun [] [.push (7 : Nat), .erase 3] = [(.ok none, 1), (.err, 1)] := by decide

/-- Assigning a never-filled vector does not clear the destination. -/
theorem vector_assign_empty_violated :
    run Vec.empty [.push (7 : Nat), .assign []] = .ok [(.ok none, 1), (.ok none, 1)] ∧
    specRun [] [.push (7 : Nat), .assign []] = [(.ok none, 1), (.ok none, 0)] := by decide

/-- Inserting one past the end is accepted and leaves an indeterminate element behind. -/
theorem vector_insert_past_end_violated :
    run Vec.empty [.insert 1 (7 : Nat), .get 0] = .ub ∧
    specRun [] [.insert 1 (7 : Nat), .get 0] = [(.err, 0), (.err, 0)] := by decide

/-! ### The property for in-range positions -/

/-- Positions the code treats as a list would: inside the list, or rejected by the code as well. -/
def InRange (l : List α) : Op α → Prop
  | .set p _ => p < l.length
  | .get p => p < l.length
  | .erase p => p < l.length
  | .insert p _ => (0 ≤ p ∧ p ≤ l.length) ∨ p > l.length + 1
  | .insertVec p xs => (0 ≤ p ∧ p ≤ l.length) ∨ (p > l.length ∧ xs ≠ [])
  | .assign xs => xs ≠ []
  | .shrink n => 0 ≤ n ∧ n ≤ l.length
  | _ => True

def InRangeAll (l : List α) : List (Op α) → Prop
  | [] => True
  | op :: ops => InRange l op ∧ InRangeAll (specStep l op).1 ops

theorem stepTotal_rep {v : Vec α} {l : List α} (h : Rep v l) (op : Op α) (hf : Fits l op)
    (hr : InRange l op) :
    ∃ v', stepTotal v op = .ok (v', (specStep l op).2) ∧ Rep v' (specStep l op).1 := by
  have hneg : ∀ p : Int, p < 0 → outOfCap v p = true := by
    intro p hp; simp [outOfCap, hp]
  cases op with
  | push x =>
    obtain ⟨v', e, r⟩ := push_rep x h hf
    exact ⟨v', by simp [stepTotal, step, e, Out.map, specStep], r⟩
  | pop =>
    by_cases hl : l = []
    · refine ⟨v, ?_, by simpa [specStep, hl] using h⟩
      have : v.count = 0 := by rw [h.2.1, hl]; rfl
      simp [stepTotal, step, pop, this, Out.map, specStep, hl]
    · obtain ⟨v', e, r⟩ := pop_rep h hl
      exact ⟨v', by simp [stepTotal, step, e, Out.map, specStep, hl], by simpa [specStep, hl] using r⟩
  | set p x =>
    by_cases hp : 0 ≤ p
    · have hr' : p < l.length := hr
      obtain ⟨q, rfl⟩ := Int.eq_ofNat_of_zero_le hp
      obtain ⟨v', e, r⟩ := set_rep h (p := q) (by omega) x
      refine ⟨v', ?_, by simpa [specStep, hr'] using r⟩
      have hr'' : q < l.length := by omega
      simp [stepTotal, step, e, Out.map, specStep, hr'']
    · refine ⟨v, ?_, by simpa [specStep, hp] using h⟩
      simp [stepTotal, step, set, hneg p (by omega), Out.map, specStep, hp]
  | get p =>
    by_cases hp : 0 ≤ p
    · have hr' : p < l.length := hr
      obtain ⟨q, rfl⟩ := Int.eq_ofNat_of_zero_le hp
      have hr'' : q < l.length := by omega
      have e := get_rep h hr''
      refine ⟨v, ?_, by simpa [specStep, hr''] using h⟩
      simp [stepTotal, step, e, Out.map, specStep, hr'']
    · refine ⟨v, ?_, by simpa [specStep, hp] using h⟩
      simp [stepTotal, step, get, hneg p (by omega), Out.map, specStep, hp]
  | erase p =>
    by_cases hp : 0 ≤ p
    · have hr' : p < l.length := hr
      obtain ⟨q, rfl⟩ := Int.eq_ofNat_of_zero_le hp
      have hr'' : q < l.length := by omega
      obtain ⟨v', e, r⟩ := erase_rep h (p := q) hr''
      refine ⟨v', ?_, by simpa [specStep, hr''] using r⟩
      simp [stepTotal, step, e, Out.map, specStep, hr'']
    · refine ⟨v, ?_, by simpa [specStep, hp] using h⟩
      simp [stepTotal, step, erase, hneg p (by omega), Out.map, specStep, hp]
  | insert p x =>
    rcases hr with ⟨hp, hp2⟩ | hp
    · obtain ⟨q, rfl⟩ := Int.eq_ofNat_of_zero_le hp
      have hr'' : q ≤ l.length := by omega
      obtain ⟨v', e, r⟩ := insert_rep h (p := q) hr'' x hf
      refine ⟨v', ?_, by simpa [specStep, hr''] using r⟩
      simp [stepTotal, step, e, Out.map, specStep, hr'']
    · have c : ¬ (0 ≤ p ∧ p ≤ l.length) := by omega
      refine ⟨v, ?_, by simpa [specStep, c] using h⟩
      have c2 : p > v.count + 1 := by have := h.2.1; omega
      simp only [stepTotal, step, insert, c2, if_true, Out.map, specStep, c, if_false]
  | insertVec p xs =>
    obtain ⟨w, ew, rw'⟩ := pushAll_rep xs Vec.empty [] rep_empty (by simp [Fits, maxElements] at hf ⊢; omega)
    simp only [List.nil_append] at rw'
    rcases hr with ⟨hp, hp2⟩ | ⟨hp, hne⟩
    · obtain ⟨q, rfl⟩ := Int.eq_ofNat_of_zero_le hp
      have hr'' : q ≤ l.length := by omega
      obtain ⟨v', e, r⟩ := insertVec_rep h rw' (p := q) hr'' (-1) (Or.inl rfl)
        (by simp [Fits, maxElements] at hf; omega)
      refine ⟨v', ?_, by simpa [specStep, hr''] using r⟩
      simp [stepTotal, step, ew, Out.bind, e, Out.map, specStep, hr'']
    · have c : ¬ (0 ≤ p ∧ p ≤ l.length) := by omega
      refine ⟨v, ?_, by simpa [specStep, c] using h⟩
      have c2 : p > v.count := by have := h.2.1; omega
      have c3 : ¬ (w.count = 0) := by
        have := rw'.2.1
        have : 0 < xs.length := List.length_pos_iff.mpr hne
        omega
      simp [stepTotal, step, ew, Out.bind, insertVec, c2, c3, Out.map, specStep, c]
  | concat xs =>
    obtain ⟨w, ew, rw'⟩ := pushAll_rep xs Vec.empty [] rep_empty (by simp [Fits, maxElements] at hf ⊢; omega)
    simp only [List.nil_append] at rw'
    obtain ⟨v', e, r⟩ := insertVec_rep h rw' (p := l.length) (Nat.le_refl _) w.count (Or.inr rw'.2.1)
        (by simp [Fits, maxElements] at hf; omega)
    have e' : concat v w = .ok v' := by unfold concat; rw [h.2.1]; exact e
    refine ⟨v', ?_, by simpa [specStep] using r⟩
    simp [stepTotal, step, ew, Out.bind, e', Out.map, specStep]
  | concatSelf =>
    obtain ⟨v', e, r⟩ := insertVec_rep h h (p := l.length) (Nat.le_refl _) v.count (Or.inr h.2.1)
        (by simpa [Fits, maxElements] using hf)
    have e' : concat v v = .ok v' := by
      have := h.2.1
      unfold concat; rw [this] at e ⊢; exact e
    refine ⟨v', ?_, by simpa [specStep] using r⟩
    simp [stepTotal, step, e', Out.map, specStep]
  | clear => exact ⟨Vec.empty, by simp [stepTotal, step, clear, specStep], rep_empty⟩
  | assign xs =>
    obtain ⟨w, ew, rw'⟩ := pushAll_rep xs Vec.empty [] rep_empty (by simp [Fits, maxElements] at hf ⊢; omega)
    simp only [List.nil_append] at rw'
    obtain ⟨v', e, r⟩ := assign_rep (v := v) rw' hr
    exact ⟨v', by simp [stepTotal, step, ew, Out.bind, e, Out.map, specStep], r⟩
  | shrink n =>
    obtain ⟨hp, hp2⟩ := hr
    obtain ⟨q, rfl⟩ := Int.eq_ofNat_of_zero_le hp
    have hr'' : q ≤ l.length := by omega
    obtain ⟨v', e, r⟩ := shrink_rep h hr''
    exact ⟨v', by simp [stepTotal, step, e, Out.map, specStep, hr''], by simpa [specStep, hr''] using r⟩

theorem run_rep (ops : List (Op α)) : ∀ (v : Vec α) (l : List α), Rep v l → FitsAll l ops →
    InRangeAll l ops → run v ops = .ok (specRun l ops) := by
  induction ops with
  | nil => intro v l _ _ _; rfl
  | cons op ops ih =>
    intro v l h hf hr
    obtain ⟨v', e, r⟩ := stepTotal_rep h op hf.1 hr.1
    have hc := r.2.1
    simp only [run, e, Out.bind, specRun, ih v' _ r hf.2 hr.2, Out.map, hc]

/-- **C03 (partial).** For every history whose positions are inside the vector (or are rejected),
and that stays below the maximum size, a client observes exactly what an ideal list would show:
same values, same rejections, same lengths, and no undefined behaviour.
Missing compared with the full property: rejection of positions between the length and the
capacity, inserting at `length+1`, negative insert positions, assigning an empty vector. -/
theorem vector_refines_list_partial (ops : List (Op α)) (hf : FitsAll [] ops) (hr : InRangeAll [] ops) :
    run Vec.empty ops = .ok (specRun [] ops) :=
  run_rep ops _ _ rep_empty hf hr

/-- Non-vacuity: a history using every kind of operation satisfies the hypotheses. -/
example : ∃ ops : List (Op Nat), ops.length = 12 ∧ FitsAll [] ops ∧ InRangeAll [] ops :=
  ⟨[.push 1, .push 2, .insert 1 5, .insertVec 0 [7, 8], .concat [9], .concatSelf, .erase 3, .set 2 4,
    .get (-1), .pop, .shrink 3, .assign [4, 4]], rfl,
   by simp [FitsAll, Fits, specStep, maxElements], by simp [InRangeAll, InRange, specStep]⟩

/-- `insert(pos,src,n)` with `n` smaller than the source length corrupts the length: the vector
claims more elements than it stored, so reading its last element is undefined behaviour. -/
theorem vector_insert_prefix_length_violated :
    ((insertVec (Vec.empty) 0 (α := Nat) ⟨some [some 1, some 2], 2, 2⟩ 1).bind fun v => get v (v.count - 1)) = .err ∧
    (insertVec (Vec.empty) 0 (α := Nat) ⟨some [some 1, some 2], 2, 2⟩ 1).map (·.count) = .ok 2 := by decide

/-! ### `resize` -/

/-- **C03.** `resize` to a smaller length keeps the first elements; to a length above the capacity it keeps all and
adds places nobody has written; to the maximum length or more it is refused. -/
theorem resize_exact {v : Vec α} {l : List α} (h : Rep v l) (n : Nat) :
    (n ≤ l.length → ∃ v', resize v n = .ok v' ∧ Rep v' (l.take n)) ∧
    (v.cap < n → n < 2000000 → ∃ v', resize v n = .ok v' ∧ v'.count = n ∧ v'.cap = n ∧
      cells v' = l.map some ++ List.replicate (n - l.length) none) ∧
    (v.cap < n → 2000000 ≤ n → resize v n = .err) := by
  obtain ⟨h1, h2, h3⟩ := h
  have hlc : l.length ≤ v.cap := by
    have := congrArg List.length h3
    simp only [List.length_take, List.length_map] at this
    omega
  refine ⟨fun hn => ?_, fun hn hm => ?_, fun hn hm => ?_⟩
  · unfold resize
    rw [if_pos (by omega)]
    refine ⟨_, rfl, h1, by simp; omega, ?_⟩
    have hmin : (l.take n).length = n := by simp; omega
    rw [hmin, List.map_take, ← h3, List.take_take, Nat.min_eq_left hn]
    rfl
  · unfold resize
    rw [if_neg (by omega), if_neg (by simp [maxElements]; omega)]
    have := copyLoop_eq (cells v) 0 0 v.count.toNat 0 (List.replicate ((n : Int).toNat) none) (by omega) (by simp; omega)
    simp only [Int.natCast_zero] at this
    rw [this]
    refine ⟨_, rfl, rfl, by simp, ?_⟩
    have hc : v.count.toNat = l.length := by omega
    simp [hc, h3]
  · unfold resize
    rw [if_neg (by omega), if_pos (by simp [maxElements]; omega)]

/-- The hypotheses are met by the empty vector. -/
example : Rep (Vec.empty : Vec Nat) [] := rep_empty

end Verif.Vector
