import Verif.Vm.Container
import Verif.Vm.StoreProps
import Verif.Base.VectorProps
import Verif.Base.MapProps
/-
C19 (indexing), C20 (array equality and membership), C21 (array concatenation), C22 (object merge), C23 (array
mutators).
-/
namespace Verif.Vm
open Verif

/-! ## C19: indexing -/

/-- Every access to an array element that does not fail stays inside the array, whatever the index operand is. -/
theorem array_index_in_range (len : Nat) (idx : Stk) (i : Nat) (h : arrayIndex len idx = .ok i) : i < len := by
  unfold arrayIndex at h
  cases ha : arrayIndexArg idx with
  | ok j =>
    rw [ha] at h
    simp only [Out.bind] at h
    split at h
    · cases h
    · cases h; omega
  | err => rw [ha] at h; cases h
  | ub => rw [ha] at h; cases h

/-- `a[i]` is element `i` if `0 ≤ i < length` and an error otherwise. -/
def ArrayIndexExact : Prop := ∀ (len : Nat) (w : Word),
  arrayIndex len (enc (.int w)) = if 0 ≤ w.toInt ∧ w.toInt < len then .ok w.toInt.toNat else .err

/-- False: `[x][4294967296]` yields `x`, because the index is cut to 32 bits. -/
theorem array_index_violated : ¬ ArrayIndexExact := by
  intro h
  have := h 1 4294967296
  exact absurd this (by decide)

theorem toInt32_small (w : Word) (h : -(2 ^ 31) ≤ w.toInt ∧ w.toInt < 2 ^ 31) : toInt32 w = w.toInt := by
  unfold toInt32
  have h1 : (w.setWidth 32).toInt = (w.toInt).bmod (2 ^ 32) := by
    rw [BitVec.toInt_setWidth, BitVec.toInt_eq_toNat_bmod, Int.bmod_bmod_of_dvd (by decide)]
  rw [h1, Int.bmod_eq_of_le] <;> omega

/-- Exact for every index that fits in 32 bits, and for every array length. -/
theorem array_index_partial (len : Nat) (w : Word) (h : -(2 ^ 31) ≤ w.toInt ∧ w.toInt < 2 ^ 31) :
    arrayIndex len (enc (.int w)) = if 0 ≤ w.toInt ∧ w.toInt < len then .ok w.toInt.toNat else .err := by
  have ha : arrayIndexArg (enc (.int w)) = .ok w.toInt := by
    have : has (enc (.int w)).props P_INT = true := by simp +decide [enc]
    unfold arrayIndexArg
    rw [if_pos this]
    exact congrArg _ (toInt32_small w h)
  unfold arrayIndex
  rw [ha]
  simp only [Out.bind]
  by_cases hr : 0 ≤ w.toInt ∧ w.toInt < len
  · rw [if_pos hr, if_neg (by omega)]
  · rw [if_neg hr, if_pos (by omega)]

example : arrayIndex 3 (enc (.int 2)) = .ok 2 ∧ arrayIndex 3 (enc (.int 3)) = .err ∧ arrayIndex 3 (enc (.int (-1))) = .err := by
  decide

/-- A float index is cut towards zero: position `t` with `t ≤ x < t+1` for `x ≥ 0` (in units of 2^-1074). -/
theorem array_float_index_partial (len : Nat) (w : Word) (hn : Ieee.isNaN w = false) (hi : Ieee.isInf w = false)
    (h0 : 0 ≤ Ieee.scaled w) (i : Nat) (hlen : len < 2 ^ 31) :
    arrayIndex len (enc (.flt w)) = .ok i ↔
      (i < len ∧ (i : Int) * 2 ^ 1074 ≤ Ieee.scaled w ∧ Ieee.scaled w < ((i : Int) + 1) * 2 ^ 1074) := by
  have h1 : has (enc (.flt w)).props P_INT = false := by simp +decide [enc]
  have h2 : has (enc (.flt w)).props P_FLOAT = true := by simp +decide [enc]
  have ht : Ieee.trunc w = some ((Ieee.scaled w).tdiv (2 ^ 1074)) := by
    unfold Ieee.trunc; rw [hn, hi]; rfl
  unfold arrayIndex arrayIndexArg
  rw [if_neg (by rw [h1]; decide), if_pos h2]
  have hv : (enc (.flt w)).value = w := rfl
  rw [hv, ht]
  simp only []
  generalize hP : (2 : Int) ^ 1074 = P
  have hP0 : 0 < P := by rw [← hP]; exact Int.pow_pos (by decide)
  generalize Ieee.scaled w = x at *
  have hq : x.tdiv P = x / P := Int.tdiv_eq_ediv_of_nonneg h0
  rw [hq]
  have hd := Int.ediv_mul_add_emod x P
  have hm1 := Int.emod_nonneg x (by omega : P ≠ 0)
  have hm2 := Int.emod_lt_of_pos x hP0
  have hq0 : 0 ≤ x / P := Int.ediv_nonneg h0 (by omega)
  generalize hqq : x / P = q at *
  have key : ∀ i : Int, (i * P ≤ x ∧ x < (i + 1) * P) ↔ q = i := by
    intro i
    constructor
    · rintro ⟨a, b⟩
      have h3 : i < q + 1 := by
        refine Decidable.byContradiction fun hc => ?_
        have : (q + 1) * P ≤ i * P := Int.mul_le_mul_of_nonneg_right (by omega) (by omega)
        have e : (q + 1) * P = q * P + P := by rw [Int.add_mul, Int.one_mul]
        omega
      have h4 : q < i + 1 := by
        refine Decidable.byContradiction fun hc => ?_
        have : (i + 1) * P ≤ q * P := Int.mul_le_mul_of_nonneg_right (by omega) (by omega)
        omega
      omega
    · rintro rfl
      have e : (q + 1) * P = q * P + P := by rw [Int.add_mul, Int.one_mul]
      omega
  rw [key]
  by_cases hr : -(2 ^ 31) ≤ q ∧ q < 2 ^ 31
  · rw [if_pos hr]
    simp only [Out.bind]
    by_cases hc : q ≥ (len : Int) ∨ q < 0
    · rw [if_pos hc]
      constructor
      · intro h; cases h
      · rintro ⟨a, rfl⟩; omega
    · rw [if_neg hc]
      constructor
      · intro h; cases h; omega
      · rintro ⟨a, rfl⟩; rfl
  · rw [if_neg hr]
    constructor
    · intro h; cases h
    · rintro ⟨a, rfl⟩; omega

-- 2.5 is the pattern 0x4004000000000000
example : Ieee.isNaN 0x4004000000000000 = false ∧ Ieee.isInf 0x4004000000000000 = false ∧
    0 ≤ Ieee.scaled 0x4004000000000000 ∧ (2 : Int) * 2 ^ 1074 ≤ Ieee.scaled 0x4004000000000000 := by decide +kernel

/-- A float index too large for an `int` is undefined behaviour. -/
theorem array_float_index_violated : arrayIndex 1 (enc (.flt 0x41F0000000000000)) = .ub := by decide +kernel

/-- `s[i]` is character `i` if `0 ≤ i < length` and an error otherwise. -/
def StringIndexExact : Prop := ∀ (t : List UInt8) (w : Word),
  (0 ≤ w.toInt ∧ w.toInt < t.length → ∃ c, stringLoad t (enc (.int w)) = .ok c) ∧
  (¬ (0 ≤ w.toInt ∧ w.toInt < t.length) → stringLoad t (enc (.int w)) = .err)

/-- False: `"a"[5]` reads beyond the text. -/
theorem string_index_violated : ¬ StringIndexExact ∧ stringLoad [97] (enc (.int 5)) = .ub ∧
    stringLoad [97] (enc (.int (-1))) = .ub ∧ stringLoad [97] (enc (.int 1)) = .ok (enc (.int 0)) := by
  refine ⟨fun h => ?_, by decide, by decide, by decide⟩
  have := (h [97] 5).2 (by decide)
  exact absurd this (by decide)

/-- Inside the text the character is delivered (as a signed 8-bit value). -/
theorem string_index_partial (t : List UInt8) (w : Word) (h0 : 0 ≤ w.toInt) (h1 : w.toInt < t.length) :
    stringLoad t (enc (.int w)) =
      .ok (enc (.int (((t[w.toInt.toNat]'(by omega)).toBitVec).signExtend 64))) := by
  have h : has (enc (.int w)).props P_INT = true := by simp +decide [enc]
  unfold stringLoad
  rw [h]
  have hv : (enc (.int w)).value = w := rfl
  have hl : w.toInt.toNat < t.length := by omega
  simp only [hv, Bool.true_eq_false, if_false]
  rw [if_neg (by omega), List.getElem?_append_left hl, List.getElem?_eq_getElem hl]
  rfl

example : stringLoad [97, 98] (enc (.int 1)) = .ok (enc (.int 98)) := by decide

/-! ## C23: array mutators -/

/-- The calls on a list. -/
def aSpec {α : Type u} (l : List α) : AOp α → List α × AObs α
  | .push x => (l ++ [x], .none)
  | .pop => match l.getLast? with
    | some x => (l.dropLast, .val x)
    | none => (l, .err)
  | .insertAt i x => if 0 ≤ i.toInt ∧ i.toInt ≤ l.length then (l.take i.toInt.toNat ++ x :: l.drop i.toInt.toNat, .none)
      else (l, .err)
  | .eraseAt i => if 0 ≤ i.toInt ∧ i.toInt < l.length then (l.eraseIdx i.toInt.toNat, .none) else (l, .err)
  | .clear => ([], .none)
  | .length => (l, .int l.length)

def aSpecRun {α : Type u} (l : List α) : List (AOp α) → List α × List (AObs α)
  | [] => (l, [])
  | op :: ops => ((aSpecRun (aSpec l op).1 ops).1, (aSpec l op).2 :: (aSpecRun (aSpec l op).1 ops).2)

/-- Below the maximum size of an array (2 000 000). -/
def AFits {α : Type u} (l : List α) : AOp α → Prop
  | .push _ => l.length + 16 < 2000000
  | .insertAt _ _ => l.length + 16 < 2000000
  | _ => True

def AFitsAll {α : Type u} (l : List α) : List (AOp α) → Prop
  | [] => True
  | op :: ops => AFits l op ∧ AFitsAll (aSpec l op).1 ops

/-- Array calls act as on lists and a position outside is only an error. -/
def ArrayRefinesList (α : Type u) : Prop := ∀ ops : List (AOp α), AFitsAll [] ops →
  ∃ v, arrRun Vector.Vec.empty ops = .ok (v, (aSpecRun [] ops).2)

/-- False: `eraseAt` beyond the end frees a stale element. -/
theorem array_erase_violated : ¬ ArrayRefinesList Nat := by
  intro h
  obtain ⟨v, hv⟩ := h [.push 7, .eraseAt 1] ⟨by simp [AFits], trivial, trivial⟩
  have : arrRun (Vector.Vec.empty : Vector.Vec Nat) [.push 7, .eraseAt 1] = .ub := by rfl
  rw [this] at hv; cases hv

/-- `insertAt(-1, x)` writes before the buffer. -/
theorem array_insert_negative_violated : arrRun (Vector.Vec.empty : Vector.Vec Nat) [.push 7, .insertAt (-1) 8] = .ub := by
  rfl

/-- Positions inside the list (an insertion may also be at the end), not negative, below 2^31. -/
def AInRange {α : Type u} (l : List α) : AOp α → Prop
  | .insertAt i _ => 0 ≤ i.toInt ∧ i.toInt ≤ l.length
  | .eraseAt i => (0 ≤ i.toInt ∧ i.toInt < l.length) ∨ (-(2 ^ 31) ≤ i.toInt ∧ i.toInt < 0)
  | _ => True

def AInRangeAll {α : Type u} (l : List α) : List (AOp α) → Prop
  | [] => True
  | op :: ops => AInRange l op ∧ AInRangeAll (aSpec l op).1 ops

/-- Array lengths never exceed the maximum. -/
theorem arrStep_rep {α : Type u} (v : Vector.Vec α) (l : List α) (h : Vector.Rep v l) (op : AOp α) (hf : AFits l op)
    (hr : AInRange l op) (hl : l.length < 2 ^ 31) :
    (∃ v', arrStep v op = .ok (v', (aSpec l op).2) ∧ Vector.Rep v' (aSpec l op).1) ∨
    (arrStep v op = .err ∧ aSpec l op = (l, .err)) := by
  cases op with
  | push x =>
    obtain ⟨v', e, r⟩ := Vector.push_rep x h hf
    exact .inl ⟨v', by simp only [arrStep, e, Out.map, aSpec], r⟩
  | pop =>
    by_cases hne : l = []
    · subst hne
      right
      refine ⟨?_, rfl⟩
      have hc : v.count = 0 := h.2.1
      have : Vector.outOfCap v (-1) = true := by simp [Vector.outOfCap]
      simp [arrStep, hc, Vector.get, this, Out.bind]
    · left
      have hp : 0 < l.length := List.length_pos_iff.mpr hne
      have hcount : v.count = l.length := h.2.1
      have hi : v.count - 1 = ((l.length - 1 : Nat) : Int) := by omega
      have hg := Vector.get_rep h (p := l.length - 1) (by omega)
      obtain ⟨v', e, r⟩ := Vector.erase_rep h (p := l.length - 1) (by omega)
      have hlast : l.getLast? = some l[l.length - 1] := by
        rw [List.getLast?_eq_getElem?, List.getElem?_eq_getElem (by omega)]
      refine ⟨v', ?_, ?_⟩
      · have hge : ¬ ((l.length - 1 : Nat) : Int) ≥ v.count := by omega
        simp only [arrStep, aSpec, hi, hg, Out.bind, arrErase, if_neg hge, e, Out.map, hlast]
      · simp only [aSpec, hlast]
        rwa [List.eraseIdx_length_sub_one] at r
  | insertAt i x =>
    left
    obtain ⟨h0, h1⟩ := hr
    have hi : toInt32 i = i.toInt := toInt32_small i (by omega)
    obtain ⟨p, hp⟩ := Int.eq_ofNat_of_zero_le h0
    obtain ⟨v', e, r⟩ := Vector.insert_rep h (p := p) (by omega) x hf
    refine ⟨v', ?_, ?_⟩
    · simp only [arrStep, hi, hp, aSpec]
      rw [e, if_pos (by omega)]; rfl
    · simp only [aSpec]
      rw [if_pos ⟨h0, h1⟩, hp]; exact r
  | eraseAt i =>
    rcases hr with ⟨h0, h1⟩ | ⟨h0, h1⟩
    · left
      have hi : toInt32 i = i.toInt := toInt32_small i (by omega)
      obtain ⟨p, hp⟩ := Int.eq_ofNat_of_zero_le h0
      have hg := Vector.get_rep h (p := p) (by omega)
      obtain ⟨v', e, r⟩ := Vector.erase_rep h (p := p) (by omega)
      have hcount : v.count = l.length := h.2.1
      refine ⟨v', ?_, ?_⟩
      · simp only [arrStep, hi, hp, aSpec, arrErase]
        rw [if_neg (by omega), hg, if_pos (by omega)]
        simp only [Out.bind, e, Out.map]
      · simp only [aSpec]
        rw [if_pos ⟨h0, h1⟩, hp]; exact r
    · right
      have hi : toInt32 i = i.toInt := toInt32_small i (by omega)
      have hcount : v.count = l.length := h.2.1
      refine ⟨?_, by simp only [aSpec]; rw [if_neg (by omega)]⟩
      have : Vector.outOfCap v i.toInt = true := by simp [Vector.outOfCap, h1]
      simp only [arrStep, hi, arrErase]
      rw [if_neg (by omega), Vector.get, this]
      rfl
  | clear => exact .inl ⟨_, rfl, Vector.rep_empty⟩
  | length => exact .inl ⟨v, by simp only [arrStep, aSpec, h.2.1], h⟩

theorem aSpec_length {α : Type u} (l : List α) (op : AOp α) (hf : AFits l op) (hl : l.length < 2000000) :
    (aSpec l op).1.length < 2000000 := by
  cases op with
  | push x => simp only [aSpec, List.length_append, List.length_singleton]; have : l.length + 16 < 2000000 := hf; omega
  | pop =>
    simp only [aSpec]
    split
    · simp only [List.length_dropLast]; omega
    · exact hl
  | insertAt i x =>
    have : l.length + 16 < 2000000 := hf
    simp only [aSpec]
    split
    · simp only [List.length_append, List.length_cons, List.length_take, List.length_drop]; omega
    · exact hl
  | eraseAt i =>
    simp only [aSpec]
    split
    · have := List.length_eraseIdx_le l i.toInt.toNat
      simp only; omega
    · exact hl
  | clear => simp [aSpec]
  | length => exact hl

/-- Every history of array calls with positions in range (negative positions of `eraseAt` included) acts as on a
list: same results, same errors, same final elements. -/
theorem array_refines_list_partial {α : Type u} (ops : List (AOp α)) (v : Vector.Vec α) (l : List α) (h : Vector.Rep v l)
    (hl : l.length < 2000000) (hf : AFitsAll l ops) (hr : AInRangeAll l ops) :
    ∃ v', arrRun v ops = .ok (v', (aSpecRun l ops).2) ∧ Vector.Rep v' (aSpecRun l ops).1 := by
  induction ops generalizing v l with
  | nil => exact ⟨v, rfl, h⟩
  | cons op ops ih =>
    have hl' := aSpec_length l op hf.1 hl
    rcases arrStep_rep v l h op hf.1 hr.1 (by omega) with ⟨v', e, r⟩ | ⟨e, r⟩
    · obtain ⟨v'', e', r'⟩ := ih v' _ r hl' hf.2 hr.2
      exact ⟨v'', by simp only [arrRun, e, e', Out.map, aSpecRun], r'⟩
    · have h2 := hf.2
      have h3 := hr.2
      rw [r] at h2 h3
      obtain ⟨v'', e', r'⟩ := ih v l h hl h2 h3
      refine ⟨v'', ?_, ?_⟩
      · simp only [arrRun, e, e', Out.map, aSpecRun, r]
      · simp only [aSpecRun, r]; exact r'

example : AFitsAll ([] : List Nat) [.push 1, .insertAt 0 2, .pop, .eraseAt (-1), .eraseAt 0, .pop, .length] ∧
    AInRangeAll ([] : List Nat) [.push 1, .insertAt 0 2, .pop, .eraseAt (-1), .eraseAt 0, .pop, .length] := by
  refine ⟨⟨by simp [AFits], by simp [AFits, aSpec], trivial, trivial, trivial, trivial, trivial, trivial⟩,
    ⟨trivial, by simp [AInRange, aSpec], trivial, .inr (by decide), .inl (by decide), trivial, trivial, trivial⟩⟩

/-! ## C21: concatenation -/

theorem elementAssign_held (w : World) (konst : Word → Bool) (new : Word) (c : Bool) (v : V)
    (hk : ∀ a, v = .obj a → konst a = false) : elementAssign w konst new (held c v) = (w, enc v) := by
  have hprops : (held c v).props &&& ~~~P_READ_ONLY = (enc v).props := by
    cases c <;> cases v <;> simp +decide only [held, enc, if_true, if_false]
  have hstrip : ({ value := (enc v).value, props := (enc v).props } : Stk) = enc v := rfl
  have hobj : has (enc v).props P_OBJECT = v.isObj := has_object_held false v
  unfold elementAssign
  simp only [ptr_held, Bool.false_eq_true, if_false, held_value, hprops, hstrip, hobj]
  cases v with
  | obj a =>
    have e : (enc (.obj a)).value = a := rfl
    simp only [V.isObj, if_true, e, hk a rfl, Bool.and_false, Bool.false_eq_true, if_false]
    rfl
  | _ => simp only [V.isObj, Bool.false_eq_true, if_false]

theorem arrConcat_rep (w : World) (konst : Word → Bool) (xs : List (Word × Bool × V)) (v : Vector.Vec Stk) (l : List Stk)
    (h : Vector.Rep v l) (hk : ∀ x ∈ xs, ∀ a, x.2.2 = .obj a → konst a = false)
    (hmax : l.length + xs.length + 16 ≤ 2000000) :
    ∃ v', arrConcat w konst v (xs.map fun x => (x.1, held x.2.1 x.2.2)) = .ok (w, v') ∧
      Vector.Rep v' (l ++ xs.map fun x => enc x.2.2) := by
  induction xs generalizing v l with
  | nil => exact ⟨v, rfl, by simpa using h⟩
  | cons x xs ih =>
    have hlen : (x :: xs).length = xs.length + 1 := rfl
    obtain ⟨v1, e1, r1⟩ := Vector.push_rep (enc x.2.2) h (by omega)
    obtain ⟨v2, e2, r2⟩ := ih v1 _ r1 (fun y hy => hk y (List.mem_cons_of_mem _ hy))
      (by rw [List.length_append]; simp only [List.length_singleton]; omega)
    refine ⟨v2, ?_, by simpa using r2⟩
    rw [List.map_cons, arrConcat]
    simp only []
    rw [elementAssign_held w konst x.1 x.2.1 x.2.2 (hk x (List.mem_cons_self ..))]
    simp only [e1, Out.bind]
    exact e2

/-- `a + b` is a new array with the elements of `a` followed by those of `b`; nothing else changes. Elements
are values that are not program literals (elements of an array never are). -/
theorem array_plus_exact_partial (w : World) (konst : Word → Bool) (a b : List (Word × Bool × V))
    (hk : ∀ x ∈ a ++ b, ∀ o, x.2.2 = .obj o → konst o = false) (hmax : a.length + b.length + 16 ≤ 2000000) :
    ∃ v, arrPlus w konst (a.map fun x => (x.1, held x.2.1 x.2.2)) (b.map fun x => (x.1, held x.2.1 x.2.2)) = .ok (w, v) ∧
      Vector.Rep v ((a ++ b).map fun x => enc x.2.2) := by
  obtain ⟨v1, e1, r1⟩ := arrConcat_rep w konst a _ [] Vector.rep_empty
    (fun x hx => hk x (List.mem_append_left _ hx)) (by simp only [List.length_nil]; omega)
  obtain ⟨v2, e2, r2⟩ := arrConcat_rep w konst b v1 _ r1 (fun x hx => hk x (List.mem_append_right _ hx))
    (by simp only [List.nil_append, List.length_map]; omega)
  refine ⟨v2, ?_, by simpa using r2⟩
  simp only [arrPlus, e1, Out.bind, e2]

example : ∃ v, arrPlus exWorld (fun _ => false) [(0, enc (.int 1)), (0, enc (.obj 100))] [(0, enc (.int 2))] = .ok (exWorld, v) ∧
    Vector.Rep v [enc (.int 1), enc (.obj 100), enc (.int 2)] :=
  array_plus_exact_partial exWorld (fun _ => false) [(0, false, .int 1), (0, false, .obj 100)] [(0, false, .int 2)]
    (fun _ _ _ _ => rfl) (by decide)

/-- `a.extend(b)` with another array appends exactly the elements of `b`. -/
theorem array_extend_exact_partial (w : World) (konst : Word → Bool) (v : Vector.Vec Stk) (l : List Stk) (h : Vector.Rep v l)
    (b : List (Word × Bool × V)) (hk : ∀ x ∈ b, ∀ o, x.2.2 = .obj o → konst o = false)
    (hmax : l.length + b.length + 16 ≤ 2000000) :
    ∃ v', arrConcat w konst v (b.map fun x => (x.1, held x.2.1 x.2.2)) = .ok (w, v') ∧
      Vector.Rep v' (l ++ b.map fun x => enc x.2.2) := arrConcat_rep w konst b v l h hk hmax

/-- Extending an array by itself ends normally with twice the elements. -/
def ExtendSelfExact : Prop := ∀ (v : Vector.Vec Stk) (l : List Stk), Vector.Rep v l → 2 * l.length + 16 < 2000000 →
  ∃ fuel v', arrExtendSelf fuel v 0 = some (.ok v') ∧ Vector.Rep v' (l ++ l)

theorem push_count {α : Type u} (v v' : Vector.Vec α) (x : α) (h : Vector.push v x = .ok v') : v'.count = v.count + 1 := by
  unfold Vector.push at h
  cases hs : Vector.pushSlot v with
  | ok u =>
    have hu : u.count = v.count + 1 := by
      unfold Vector.pushSlot at hs
      simp only at hs
      have hcnt : (if v.cap = 0 then ({ v with cap := Vector.expandSlot, items := some (List.replicate Vector.expandSlot none) } : Vector.Vec α) else v).count = v.count := by
        split <;> rfl
      generalize (if v.cap = 0 then ({ v with cap := Vector.expandSlot, items := some (List.replicate Vector.expandSlot none) } : Vector.Vec α) else v) = u0 at hs hcnt
      split at hs
      · split at hs
        · cases hs
        · revert hs
          generalize Vector.copyLoop _ _ _ _ _ _ = r
          intro hs
          cases r with
          | ok b => simp only [Out.bind] at hs; cases hs; simp only [hcnt]
          | err => cases hs
          | ub => cases hs
      · cases hs; simp only [hcnt]
    rw [hs] at h
    simp only [Out.bind] at h
    revert h
    generalize Vector.wr _ _ _ = r
    intro h
    cases r with
    | ok b => simp only at h; cases h; exact hu
    | err => cases h
    | ub => cases h
  | err => rw [hs] at h; cases h
  | ub => rw [hs] at h; cases h

/-- It never does unless the array is empty: the loop's bound moves with it. -/
theorem extend_self_never_ends (fuel : Nat) (v : Vector.Vec Stk) (i : Int) (hi : i < v.count) (v' : Vector.Vec Stk) :
    arrExtendSelf fuel v i ≠ some (.ok v') := by
  induction fuel generalizing v i with
  | zero => intro h; cases h
  | succ fuel ih =>
    intro h
    rw [arrExtendSelf, if_pos hi] at h
    cases hg : (Vector.get v i).bind (fun x => Vector.push v x) with
    | ok u =>
      rw [hg] at h
      cases hx : Vector.get v i with
      | ok x =>
        rw [hx] at hg
        have := push_count v u x hg
        exact ih u (i + 1) (by omega) h
      | err => rw [hx] at hg; cases hg
      | ub => rw [hx] at hg; cases hg
    | err => rw [hg] at h; cases h
    | ub => rw [hg] at h; cases h

theorem extend_self_violated : ¬ ExtendSelfExact := by
  intro h
  obtain ⟨v, e, r⟩ := Vector.push_rep (enc (.int 1)) (Vector.rep_empty (α := Stk)) (by decide)
  obtain ⟨fuel, v', h1, -⟩ := h v _ r (by decide)
  have : v.count = 1 := r.2.1
  exact extend_self_never_ends fuel v 0 (by omega) v' h1

/-- `a += b` on two arrays is undefined behaviour instead of appending. -/
theorem array_plus_assign_violated (v w : Vector.Vec Stk) : arrPlusAssign v w = .ub := rfl

/-! ## C22: merging objects -/

/-- Value of a key in a list of fields. -/
def fieldOf (l : List (List UInt8 × Stk)) (k : List UInt8) : Option Stk := (l.find? fun p => p.1 == k).map (·.2)

theorem good_set (m : Map.MapS (List UInt8) Stk) (h : List (Map.Op (List UInt8) Stk)) (g : Map.Good m h) (k : List UInt8) (x : Stk)
    (hmax : (Map.liveKeys h).length + 16 < Map.maxItems) :
    ∃ m', Map.set 16 m k x = .ok (m', .ok ()) ∧ Map.Good m' (h ++ [.set k x]) := by
  obtain ⟨m', e, g'⟩ := Map.good_step (by decide : 0 < 16) g (.set k x) hmax
  simp only [Map.step, Map.answer] at e
  cases hs : Map.set 16 m k x with
  | ok r =>
    rw [hs] at e
    simp only [Out.map] at e
    obtain ⟨m1, o⟩ := r
    simp only [Out.ok.injEq, Prod.mk.injEq] at e
    obtain ⟨rfl, e⟩ := e
    cases o with
    | ok u => exact ⟨m1, rfl, g'⟩
    | err => cases e
    | ub => cases e
  | err => rw [hs] at e; cases e
  | ub => rw [hs] at e; cases e

theorem objSetAll_good (l : List (List UInt8 × Stk)) (m : Map.MapS (List UInt8) Stk) (h : List (Map.Op (List UInt8) Stk))
    (g : Map.Good m h) (hmax : h.length + l.length + 16 < Map.maxItems) :
    ∃ m', objSetAll m l = .ok m' ∧ Map.Good m' (h ++ l.map fun p => .set p.1 p.2) := by
  induction l generalizing m h with
  | nil => exact ⟨m, rfl, by simpa using g⟩
  | cons p l ih =>
    have hlen : (p :: l).length = l.length + 1 := rfl
    obtain ⟨m1, e1, g1⟩ := good_set m h g p.1 p.2 (by have := Map.liveKeys_le h; omega)
    obtain ⟨m2, e2, g2⟩ := ih m1 _ g1 (by rw [List.length_append]; simp only [List.length_singleton]; omega)
    refine ⟨m2, ?_, by simpa using g2⟩
    rw [objSetAll, e1]
    simp only [Out.bind]
    exact e2

theorem current_sets (l : List (List UInt8 × Stk)) (h : List (Map.Op (List UInt8) Stk)) (hn : (l.map (·.1)).Nodup) (k : List UInt8) :
    Map.current k (h ++ l.map fun p => .set p.1 p.2) = (fieldOf l k).or (Map.current k h) := by
  induction l generalizing h with
  | nil => simp [fieldOf]
  | cons p l ih =>
    rw [List.map_cons, List.nodup_cons] at hn
    have : h ++ List.map (fun p => Map.Op.set p.1 p.2) (p :: l) = (h ++ [.set p.1 p.2]) ++ l.map fun p => .set p.1 p.2 := by simp
    rw [this, ih _ hn.2, Map.current_snoc]
    simp only []
    by_cases hk : p.1 = k
    · subst hk
      have hnone : fieldOf l p.1 = none := by
        unfold fieldOf
        rw [List.find?_eq_none.mpr]
        · rfl
        · intro x hx hc
          exact hn.1 (List.mem_map.mpr ⟨x, hx, by simpa using hc⟩)
      have hsome : fieldOf (p :: l) p.1 = some p.2 := by simp [fieldOf]
      rw [hnone, hsome, if_pos rfl]; rfl
    · have : fieldOf (p :: l) k = fieldOf l k := by
        unfold fieldOf; rw [List.find?_cons_of_neg (by simpa using hk)]
      rw [this, if_neg hk]

theorem liveKeys_sets (l : List (List UInt8 × Stk)) (h : List (Map.Op (List UInt8) Stk)) (hn : (l.map (·.1)).Nodup) :
    Map.liveKeys (h ++ l.map fun p => .set p.1 p.2) =
      Map.liveKeys h ++ (l.map (·.1)).filter (fun k => decide (k ∉ Map.liveKeys h)) := by
  induction l generalizing h with
  | nil => simp
  | cons p l ih =>
    rw [List.map_cons, List.nodup_cons] at hn
    have : h ++ List.map (fun p => Map.Op.set p.1 p.2) (p :: l) = (h ++ [.set p.1 p.2]) ++ l.map fun p => .set p.1 p.2 := by simp
    rw [this, ih _ hn.2]
    simp only [List.map_cons]
    by_cases hk : p.1 ∈ Map.liveKeys h
    · have hsn : Map.liveKeys (h ++ [.set p.1 p.2]) = Map.liveKeys h := by
        rw [Map.liveKeys_snoc]; exact if_pos hk
      simp only [hsn]
      rw [List.filter_cons_of_neg (by simpa using hk)]
    · have hsn : Map.liveKeys (h ++ [.set p.1 p.2]) = Map.liveKeys h ++ [p.1] := by
        rw [Map.liveKeys_snoc]; exact if_neg hk
      simp only [hsn]
      rw [List.filter_cons_of_pos (by simpa using hk), List.append_assoc, List.singleton_append]
      congr 2
      apply List.filter_congr
      intro x hx
      have : x ≠ p.1 := fun e => hn.1 (e ▸ hx)
      simp [this]

theorem fieldOf_current {m : Map.MapS (List UInt8) Stk} {l : List (List UInt8 × Stk)} {h : List (Map.Op (List UInt8) Stk)}
    (hv : ∀ k v, (k, v) ∈ l → Map.current k h = some v) (hnone : ∀ k, k ∉ l.map (·.1) → Map.current k h = none)
    (_ : Map.Good m h) (k : List UInt8) : fieldOf l k = Map.current k h := by
  by_cases hmem : k ∈ l.map (·.1)
  · unfold fieldOf
    cases hf : l.find? fun p => p.1 == k with
    | none =>
      obtain ⟨p, hp, hpk⟩ := List.mem_map.mp hmem
      have := List.find?_eq_none.mp hf p hp
      simp [hpk] at this
    | some p =>
      have h3 := List.find?_some hf
      have h4 := List.mem_of_find?_eq_some hf
      simp only [beq_iff_eq] at h3
      rw [hv k p.2 (by rw [← h3]; exact h4)]
      rfl
  · rw [hnone k hmem]
    unfold fieldOf
    rw [List.find?_eq_none.mpr]
    · rfl
    · intro x hx hc
      exact hmem (List.mem_map.mpr ⟨x, hx, by simpa using hc⟩)

/-- `o1.extend(o2)`, for an object with any history `h` whose fields iterate as `l1` and another one whose fields
iterate as `l2` (each key once, see `Map.map_enumerates_in_insertion_order`): afterwards `o1` iterates as its old keys followed
by the keys only in `o2`, and every key has the value of `o2` if it has one, else the old one. -/
theorem object_extend_exact_partial (m1 : Map.MapS (List UInt8) Stk) (h : List (Map.Op (List UInt8) Stk)) (g : Map.Good m1 h)
    (l1 l2 : List (List UInt8 × Stk)) (he : ∀ rounds, l1.length ≤ rounds → Map.enumerate m1 rounds = some (.ok l1))
    (h2 : (l2.map (·.1)).Nodup) (hmax : h.length + l2.length + 16 < 1000000) :
    ∃ m l, objExtend m1 l2 = .ok m ∧ (∀ rounds, l.length ≤ rounds → Map.enumerate m rounds = some (.ok l)) ∧
      l.map (·.1) = l1.map (·.1) ++ (l2.map (·.1)).filter (fun k => decide (k ∉ l1.map (·.1))) ∧
      ∀ k, fieldOf l k = (fieldOf l2 k).or (fieldOf l1 k) := by
  obtain ⟨m2, e2, g2⟩ := objSetAll_good l2 m1 h g (by simp only [Map.maxItems]; omega)
  have hlive2 := liveKeys_sets l2 h h2
  have hcur2 := current_sets l2 h h2
  have g' := g
  have g2' := g2
  obtain ⟨its1, r1, l1', I1, hk1, hv1, hnone1⟩ := g
  have hl1 : l1' = l1 := by
    have a := he (max l1.length l1'.length) (by omega)
    have b := I1.enumerate_eq (fuel := max l1.length l1'.length) (by omega)
    rw [a] at b; cases b; rfl
  subst hl1
  obtain ⟨its, r, l, I, hk, hv, hnone⟩ := g2
  refine ⟨m2, l, e2, fun rounds hr => I.enumerate_eq hr, ?_, ?_⟩
  · rw [hk, hlive2, ← hk1]
  · intro k
    rw [fieldOf_current hv hnone g2', hcur2, fieldOf_current hv1 hnone1 g']

/-- `o1 + o2`, for objects whose fields iterate as `l1` and `l2`: the new object iterates as the keys of `o1` followed by
the keys only in `o2`, and every key has the value of `o2` if it has one, else that of `o1`. -/
theorem object_plus_exact_partial (l1 l2 : List (List UInt8 × Stk)) (h1 : (l1.map (·.1)).Nodup) (h2 : (l2.map (·.1)).Nodup)
    (hmax : l1.length + l2.length + 16 < 1000000) :
    ∃ m l, objPlus l1 l2 = .ok m ∧ (∀ rounds, l.length ≤ rounds → Map.enumerate m rounds = some (.ok l)) ∧
      l.map (·.1) = l1.map (·.1) ++ (l2.map (·.1)).filter (fun k => decide (k ∉ l1.map (·.1))) ∧
      ∀ k, fieldOf l k = (fieldOf l2 k).or (fieldOf l1 k) := by
  have g0 : Map.Good (Map.MapS.empty : Map.MapS (List UInt8) Stk) [] :=
    ⟨[], [], [], Map.inv_empty, rfl, by simp, by simp [Map.current]⟩
  obtain ⟨m1, e1, g1⟩ := objSetAll_good l1 Map.MapS.empty [] g0 (by simp only [List.length_nil, Map.maxItems]; omega)
  have hlive1 := liveKeys_sets l1 [] h1
  have hl0 : Map.liveKeys ([] : List (Map.Op (List UInt8) Stk)) = [] := rfl
  rw [hl0] at hlive1
  simp only [List.nil_append, List.not_mem_nil, not_false_eq_true, decide_true] at hlive1
  rw [List.filter_eq_self.mpr (fun _ _ => rfl)] at hlive1
  have hcur1 := current_sets l1 [] h1
  simp only [List.nil_append] at hcur1 g1
  have g1' := g1
  obtain ⟨its1, r1, l1', I1, hk1, hv1, hnone1⟩ := g1
  obtain ⟨m, l, e, he, hk, hv⟩ := object_extend_exact_partial m1 _ g1' l1' l2 (fun _ hr => I1.enumerate_eq hr) h2
    (by simp only [List.length_map]; omega)
  refine ⟨m, l, ?_, he, ?_, ?_⟩
  · simp only [objPlus, e1, Out.bind]; exact e
  · rw [hk]; simp only [hk1, hlive1]
  · intro k
    rw [hv, fieldOf_current hv1 hnone1 g1', hcur1]
    have : Map.current k ([] : List (Map.Op (List UInt8) Stk)) = none := rfl
    rw [this, Option.or_none]

-- {a:1,b:2} + {c:3,a:4}
example : ([([97], enc (.int 1)), ([98], enc (.int 2))].map (·.1) : List (List UInt8)).Nodup ∧
    ([([99], enc (.int 3)), ([97], enc (.int 4))].map (·.1) : List (List UInt8)).Nodup := by decide

/-! ## C20: equality and membership -/

/-- Two element values count as equal: an integer and a float by number, two strings by text, anything else if it is
the same value (number, boolean, object, undefined, ...). -/
def sameElem (F : FloatOps) (m : Mem) : V → V → Bool
  | .int a, .flt b => F.eq (F.ofInt a.toInt) b
  | .flt a, .int b => F.eq a (F.ofInt b.toInt)
  | .obj a, .obj b =>
    if (m.obj a).typeId = T_STRING_SO ∧ (m.obj b).typeId = T_STRING_SO then (m.obj a).text == (m.obj b).text else a == b
  | u, v => decide (u = v)

/-- Numbers, booleans, strings and class objects. -/
def V.isComparable : V → Bool
  | .int _ => true
  | .flt _ => true
  | .bool _ => true
  | .obj _ => true
  | _ => false

theorem elemEqual_enc (F : FloatOps) (m : Mem) (u v : V) (hu : u.isComparable = true) (hv : v.isComparable = true) :
    elemEqual F m (enc u) (enc v) = sameElem F m u v := by
  have hs (x : V) : isStr m (enc x) = x.isObjOf m T_STRING_SO := isObjOf_held m T_STRING_SO false x
  unfold elemEqual
  rw [hs, hs]
  cases u <;> simp only [V.isComparable, Bool.false_eq_true] at hu <;>
    cases v <;> simp only [V.isComparable, Bool.false_eq_true] at hv <;>
    simp +decide only [enc, sameElem, if_true, if_false, V.isObjOf, Bool.and_eq_true, beq_iff_eq]
  all_goals first
    | (rename_i a b; cases a <;> cases b <;> decide)
    | simp [BEq.beq]

theorem equalLoop_iff (F : FloatOps) (m : Mem) (us vs : List Stk) (h : us.length = vs.length) :
    equalLoop F m us vs = true ↔ ∀ i (hi : i < us.length), elemEqual F m us[i] (vs[i]'(by omega)) = true := by
  induction us generalizing vs with
  | nil =>
    cases vs with
    | nil => simp [equalLoop]
    | cons v vs => simp at h
  | cons u us ih =>
    cases vs with
    | nil => simp at h
    | cons v vs =>
      simp only [equalLoop]
      simp only [List.length_cons] at h
      by_cases he : elemEqual F m u v = true
      · rw [if_pos he, ih vs (by omega)]
        constructor
        · intro hh i hi
          cases i with
          | zero => exact he
          | succ i => exact hh i (by simpa using hi)
        · intro hh i hi
          exact hh (i + 1) (by simpa using hi)
      · rw [if_neg he]
        constructor
        · intro hh; cases hh
        · intro hh; exact absurd (hh 0 (by simp)) he

theorem arrEqual_iff (F : FloatOps) (m : Mem) (us vs : List Stk) :
    arrEqual F m us vs = true ↔
      ∃ h : us.length = vs.length, ∀ i (hi : i < us.length), elemEqual F m us[i] (vs[i]'(by omega)) = true := by
  unfold arrEqual
  by_cases h : us.length = vs.length
  · rw [if_neg (by simpa using h), equalLoop_iff F m us vs h]
    exact ⟨fun hh => ⟨h, hh⟩, fun ⟨_, hh⟩ => hh⟩
  · rw [if_pos h]
    constructor
    · intro hh; cases hh
    · rintro ⟨hh, -⟩; exact absurd hh h

/-- Arrays are equal exactly when they have the same length and equal elements at every position. -/
def ArrayEqualExact (F : FloatOps) : Prop := ∀ (m : Mem) (us vs : List V), arrEqual F m (us.map enc) (vs.map enc) = true ↔
  ∃ h : us.length = vs.length, ∀ i (hi : i < us.length), sameElem F m us[i] (vs[i]'(by omega)) = true

/-- False: `[undefined] == [0]`, and `[undefined] == [false]`. -/
theorem array_equal_violated (F : FloatOps) : ¬ ArrayEqualExact F ∧
    (∀ m, arrEqual F m [enc .undef] [enc (.int 0)] = true) ∧
    (∀ m, arrEqual F m [enc .undef] [enc (.bool false)] = true) := by
  have h0 : ∀ m, arrEqual F m [enc .undef] [enc (.int 0)] = true := by
    intro m
    have : elemEqual F m (enc .undef) (enc (.int 0)) = true := by unfold elemEqual; simp +decide [enc]
    simp only [arrEqual, equalLoop, this]
    rfl
  refine ⟨fun h => ?_, h0, ?_⟩
  · obtain ⟨_, h1⟩ := (h noMem [.undef] [.int 0]).mp (h0 noMem)
    have hc : decide (V.undef = V.int 0) = true := h1 0 (by decide)
    cases of_decide_eq_true hc
  · intro m
    have : elemEqual F m (enc .undef) (enc (.bool false)) = true := by unfold elemEqual; simp +decide [enc]
    simp only [arrEqual, equalLoop, this]
    rfl

/-- Exact for arrays of numbers, booleans, strings and class objects. -/
theorem array_equal_exact_partial (F : FloatOps) (m : Mem) (us vs : List V) (hu : ∀ u ∈ us, u.isComparable = true)
    (hv : ∀ v ∈ vs, v.isComparable = true) :
    arrEqual F m (us.map enc) (vs.map enc) = true ↔
      ∃ h : us.length = vs.length, ∀ i (hi : i < us.length), sameElem F m us[i] (vs[i]'(by omega)) = true := by
  rw [arrEqual_iff]
  simp only [List.length_map, List.getElem_map]
  constructor
  · rintro ⟨h, hh⟩
    exact ⟨h, fun i hi => by
      rw [← elemEqual_enc F m _ _ (hu _ (List.getElem_mem _)) (hv _ (List.getElem_mem _))]; exact hh i hi⟩
  · rintro ⟨h, hh⟩
    exact ⟨h, fun i hi => by
      rw [elemEqual_enc F m _ _ (hu _ (List.getElem_mem _)) (hv _ (List.getElem_mem _))]; exact hh i hi⟩

example : (∀ u ∈ [V.int 1, .obj 100, .bool true], u.isComparable = true) ∧
    (∀ v ∈ [V.flt 0x3ff0000000000000, .obj 100, .bool true], v.isComparable = true) := by decide

theorem elemEqual_symm (F : FloatOps) (hF : ∀ a b, F.eq a b = F.eq b a) (m : Mem) (u v : V) :
    elemEqual F m (enc u) (enc v) = elemEqual F m (enc v) (enc u) := by
  have hs (x : V) : isStr m (enc x) = x.isObjOf m T_STRING_SO := isObjOf_held m T_STRING_SO false x
  unfold elemEqual
  simp only [hs]
  cases u <;> cases v <;> simp +decide only [enc, if_true, if_false, V.isObjOf, Bool.and_eq_true, beq_iff_eq] <;>
    first | rfl | (exact Bool.beq_comm) | (rw [hF]) | skip
  · simp only [and_false, false_and, if_false]; exact Bool.beq_comm
  · simp only [and_false, false_and, if_false]; exact Bool.beq_comm
  · rename_i a b
    by_cases ha : (m.obj a).typeId = T_STRING_SO <;> by_cases hb : (m.obj b).typeId = T_STRING_SO <;>
      simp only [ha, hb, and_self, and_true, and_false, if_true, if_false] <;> exact Bool.beq_comm

theorem ieee_eq_symm (a b : Word) : ieee.eq a b = ieee.eq b a := by
  show Ieee.eq a b = Ieee.eq b a
  unfold Ieee.eq
  rw [Bool.and_comm (!Ieee.isNaN a), show (decide (Ieee.scaled a = Ieee.scaled b)) = decide (Ieee.scaled b = Ieee.scaled a) from by
    simp only [eq_comm]]

/-- Array equality is symmetric, for all element values. -/
theorem array_equal_symm (m : Mem) (us vs : List V) :
    arrEqual ieee m (us.map enc) (vs.map enc) = arrEqual ieee m (vs.map enc) (us.map enc) := by
  rw [Bool.eq_iff_iff, arrEqual_iff, arrEqual_iff]
  simp only [List.length_map, List.getElem_map]
  constructor
  · rintro ⟨h, hh⟩
    exact ⟨h.symm, fun i hi => by rw [elemEqual_symm ieee ieee_eq_symm]; exact hh i (by omega)⟩
  · rintro ⟨h, hh⟩
    exact ⟨h.symm, fun i hi => by rw [elemEqual_symm ieee ieee_eq_symm]; exact hh i (by omega)⟩

/-- Every array equals itself. -/
def ArrayEqualRefl (F : FloatOps) : Prop := ∀ (m : Mem) (l : List Stk), arrEqual F m l l = true

/-- False for arrays containing `undefined` (or `null`, a function or a type), and for arrays containing an array or
object (held in a container slot). -/
theorem array_equal_refl_violated (F : FloatOps) : ¬ ArrayEqualRefl F ∧
    (∀ m, arrEqual F m [enc .undef] [enc .undef] = false) ∧
    (∀ m s, arrEqual F m [⟨s, P_CONTAINER_SLOT⟩] [⟨s, P_CONTAINER_SLOT⟩] = false) := by
  have h1 : ∀ m, arrEqual F m [enc .undef] [enc .undef] = false := by
    intro m
    have : elemEqual F m (enc .undef) (enc .undef) = false := by unfold elemEqual; simp +decide [enc]
    simp only [arrEqual, equalLoop, this]
    rfl
  refine ⟨fun h => ?_, h1, ?_⟩
  · have := h noMem [enc .undef]
    rw [h1] at this; cases this
  · intro m s
    have : elemEqual F m ⟨s, P_CONTAINER_SLOT⟩ ⟨s, P_CONTAINER_SLOT⟩ = false := by
      unfold elemEqual; simp +decide only [if_true, if_false]
    simp only [arrEqual, equalLoop, this]
    rfl

/-- An array of numbers, booleans, strings and class objects equals itself. -/
theorem array_equal_refl_partial (F : FloatOps) (m : Mem) (us : List V) (h : ∀ u ∈ us, u.isComparable = true) :
    arrEqual F m (us.map enc) (us.map enc) = true := by
  rw [array_equal_exact_partial F m us us h h]
  refine ⟨rfl, fun i hi => ?_⟩
  have := h us[i] (List.getElem_mem hi)
  cases hu : us[i] <;> rw [hu] at this <;> simp only [V.isComparable, Bool.false_eq_true] at this <;> simp [sameElem]

example : ∀ u ∈ [V.int 1, .obj 100, .bool true], u.isComparable = true := by decide

/-- The element comparison agrees with the operator `==` of the language. -/
def ArrayEqualAgrees : Prop := ∀ (m : Mem) (u v : V), u.isComparable = true → v.isComparable = true →
  ∀ b, compare ieee m .eq (enc u) (enc v) = .val (mkBool b) → sameElem ieee m u v = b

/-- Not for floats: `0.0 == -0.0` but `[0.0] != [-0.0]`. -/
theorem array_equal_agrees_violated : ¬ ArrayEqualAgrees := by
  intro h
  have h1 : compare ieee noMem .eq (enc (.flt 0)) (enc (.flt 0x8000000000000000)) = .val (mkBool true) := by
    decide +kernel
  have := h noMem (.flt 0) (.flt 0x8000000000000000) rfl rfl true h1
  exact absurd this (by decide +kernel)

/-- Whether `x` matches the element `e` in `contains`: same kind and same value; strings by text; other objects never. -/
def matchElem (m : Mem) : V → V → Bool
  | .int a, .int b => a == b
  | .flt a, .flt b => a == b
  | .bool a, .bool b => a == b
  | .obj a, .obj b =>
    (m.obj a).typeId == T_STRING_SO && (m.obj b).typeId == T_STRING_SO && (m.obj a).text == (m.obj b).text
  | _, _ => false

theorem elemMatches_enc (m : Mem) (c : Bool) (x e : V) : elemMatches m (held c x) (enc e) = matchElem m x e := by
  unfold elemMatches
  rw [held_value, held_props]
  cases c <;> cases x <;> cases e <;>
    simp +decide only [enc, matchElem, if_true, if_false]
  all_goals first | rfl | (exact Bool.beq_comm) | skip
  all_goals first
    | (rename_i a b; cases a <;> cases b <;> decide)
    | (rename_i a b
       by_cases h1 : (m.obj a).typeId = T_STRING_SO
       · by_cases h2 : (m.obj b).typeId = T_STRING_SO
         · simp [h1, h2]
         · simp [h1, h2, fun e => h2 (Eq.symm e), Ne.symm h2]
       · have h3 : ((m.obj a).typeId == T_STRING_SO) = false := by simpa using h1
         simp [h1])

/-- `contains(x)` holds exactly when some element matches `x`. -/
theorem array_contains_exact (m : Mem) (c : Bool) (x : V) (l : List V) :
    arrContains m (held c x) (l.map enc) = true ↔ ∃ e ∈ l, matchElem m x e = true := by
  induction l with
  | nil => simp [arrContains]
  | cons e l ih =>
    simp only [List.map_cons, arrContains, elemMatches_enc]
    by_cases h : matchElem m x e = true
    · rw [if_pos h]
      exact ⟨fun _ => ⟨e, List.mem_cons_self .., h⟩, fun _ => rfl⟩
    · rw [if_neg h, ih]
      constructor
      · rintro ⟨y, hy, h'⟩; exact ⟨y, List.mem_cons_of_mem _ hy, h'⟩
      · rintro ⟨y, hy, h'⟩
        rcases List.mem_cons.mp hy with rfl | hy
        · exact absurd h' h
        · exact ⟨y, hy, h'⟩

/-- `contains` agrees with the equality of array elements. -/
def ContainsAgrees (F : FloatOps) : Prop := ∀ (m : Mem) (x : V) (l : List V),
  arrContains m (enc x) (l.map enc) = true ↔ ∃ e ∈ l, sameElem F m x e = true

/-- False: `[o].contains(o)` is false for every object `o` that is not a string. -/
theorem contains_violated (F : FloatOps) : ¬ ContainsAgrees F := by
  intro h
  have h1 := (h noMem (.obj 5) [.obj 5]).mpr ⟨.obj 5, by simp, by simp [sameElem]⟩
  have h2 : arrContains noMem (held false (.obj 5)) ([V.obj 5].map enc) = true := h1
  rw [array_contains_exact] at h2
  obtain ⟨e, he, hm⟩ := h2
  simp only [List.mem_singleton] at he
  subst he
  exact absurd hm (by decide)

/-- A found value is always equal to some element. -/
theorem contains_sound (F : FloatOps) (m : Mem) (c : Bool) (x : V) (l : List V)
    (h : arrContains m (held c x) (l.map enc) = true) : ∃ e ∈ l, sameElem F m x e = true := by
  rw [array_contains_exact] at h
  obtain ⟨e, he, hm⟩ := h
  refine ⟨e, he, ?_⟩
  cases x <;> cases e <;> simp only [matchElem, Bool.false_eq_true] at hm <;> simp only [sameElem] <;>
    simp only [Bool.and_eq_true, beq_iff_eq] at hm <;> first | (subst hm; simp) | skip
  rw [if_pos ⟨hm.1.1, hm.1.2⟩]
  simpa using hm.2

example : arrContains noMem (held true (.int 2)) ([V.int 1, .int 2].map enc) = true := by decide

end Verif.Vm
