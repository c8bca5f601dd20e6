import Verif.Vm.Slots
/-
Helper lemmas on the memory of `Verif/Vm/Slots.lean`: stack elements, counting, and the invariant of the destructors.
-/
namespace Verif.Slots
open Verif

/-! ### Stack elements -/

theorem lookup_map_put {l : Loc} {v : Val} : ∀ (m : List (Loc × Val)) (l' : Loc),
    (m.map fun e => if e.1 = l then (l, v) else e).lookup l' =
      if l' = l then (m.lookup l').map (fun _ => v) else m.lookup l'
  | [], l' => by simp
  | (a, b) :: m, l' => by
    have ih := lookup_map_put (l := l) (v := v) m l'
    by_cases ha : a = l
    · subst ha
      by_cases h : l' = a
      · subst h; simp [List.lookup]
      · have : (l' == a) = false := by simpa using h
        simp [List.lookup, h, this] at ih ⊢
        exact ih
    · by_cases h : l' = a
      · subst h; simp [List.lookup, ha]
      · have : (l' == a) = false := by simpa using h
        simp only [List.map, ha, if_false, List.lookup, this]
        exact ih

theorem lookup_append_new {l : Loc} {v : Val} : ∀ (m : List (Loc × Val)), m.lookup l = none → ∀ l',
    (m ++ [(l, v)]).lookup l' = if l' = l then some v else m.lookup l'
  | [], _, l' => by
    by_cases h : l' = l
    · subst h; simp [List.lookup]
    · have : (l' == l) = false := by simpa using h
      simp [List.lookup, this, h]
  | (a, b) :: m, hn, l' => by
    by_cases ha : l = a
    · subst ha; simp [List.lookup] at hn
    · have hb : (l == a) = false := by simpa using ha
      simp only [List.lookup, hb] at hn
      have ih := lookup_append_new (v := v) m hn l'
      by_cases h : l' = a
      · subst h
        have : l' ≠ l := fun h => ha h.symm
        simp [List.lookup, this]
      · have : (l' == a) = false := by simpa using h
        simp only [List.cons_append, List.lookup, this]
        exact ih

theorem get_put (s : S) (l : Loc) (v : Val) (l' : Loc) : (s.put l v).get l' = if l' = l then some v else s.get l' := by
  unfold S.put
  cases h : s.get l with
  | none => simpa [S.get, h] using lookup_append_new s.mem (by simpa [S.get] using h) l'
  | some w =>
    simp only [Option.isSome_some, if_true, S.get, lookup_map_put]
    by_cases hl : l' = l
    · subst hl; simp only [S.get] at h; simp [h]
    · simp [hl]

theorem lookup_filter_ne {l : Loc} : ∀ (m : List (Loc × Val)) (l' : Loc),
    (m.filter fun e => decide (e.1 ≠ l)).lookup l' = if l' = l then none else m.lookup l'
  | [], l' => by simp
  | (a, b) :: m, l' => by
    have ih := lookup_filter_ne (l := l) m l'
    by_cases ha : a = l
    · subst ha
      by_cases h : l' = a
      · subst h; simpa using ih
      · have : (l' == a) = false := by simpa using h
        simp [List.lookup, this, h] at ih ⊢
        exact ih
    · by_cases h : l' = a
      · subst h; simp [List.lookup, ha]
      · have : (l' == a) = false := by simpa using h
        rw [List.filter_cons_of_pos (by simpa using ha)]
        simp only [List.lookup, this]
        exact ih

theorem get_del (s : S) (l l' : Loc) : (s.del l).get l' = if l' = l then none else s.get l' :=
  lookup_filter_ne s.mem l'

theorem lookup_mem : ∀ {m : List (Loc × Val)} {l : Loc} {v : Val}, m.lookup l = some v → (l, v) ∈ m
  | (a, b) :: m, l, v, h => by
    by_cases ha : l = a
    · subst ha; simp [List.lookup] at h; subst h; simp
    · have hb : (l == a) = false := by simpa using ha
      simp only [List.lookup, hb] at h
      exact List.mem_cons_of_mem _ (lookup_mem h)

theorem mem_lookup : ∀ {m : List (Loc × Val)} {l : Loc} {v : Val}, (m.map (·.1)).Nodup → (l, v) ∈ m → m.lookup l = some v
  | (a, b) :: m, l, v, hn, h => by
    simp only [List.map_cons, List.nodup_cons] at hn
    rcases List.mem_cons.1 h with h1 | h1
    · cases h1; simp [List.lookup]
    · by_cases ha : l = a
      · subst ha; exact absurd (List.mem_map.2 ⟨_, h1, rfl⟩) hn.1
      · have hb : (l == a) = false := by simpa using ha
        simp only [List.lookup, hb]
        exact mem_lookup hn.2 h1

theorem lookup_none_iff : ∀ {m : List (Loc × Val)} {l : Loc}, m.lookup l = none ↔ l ∉ m.map (·.1)
  | [], l => by simp
  | (a, b) :: m, l => by
    by_cases ha : l = a
    · subst ha; simp [List.lookup]
    · have hb : (l == a) = false := by simpa using ha
      simp only [List.lookup, hb, List.map_cons, List.mem_cons, ha, false_or]
      exact lookup_none_iff

/-- No stack element twice. -/
def Nd (s : S) : Prop := (s.mem.map (·.1)).Nodup

theorem nd_put {s : S} (h : Nd s) (l : Loc) (v : Val) : Nd (s.put l v) := by
  unfold S.put Nd
  cases hg : s.get l with
  | none =>
    simp only [Option.isSome_none, Bool.false_eq_true, if_false, List.map_append, List.map_cons, List.map_nil]
    refine List.nodup_append.2 ⟨h, by simp, ?_⟩
    intro a ha b hb
    simp only [List.mem_singleton] at hb
    subst hb
    intro he; subst he
    exact lookup_none_iff.1 (by simpa [S.get] using hg) ha
  | some w =>
    have : (s.mem.map fun e => if e.1 = l then (l, v) else e).map (·.1) = s.mem.map (·.1) := by
      rw [List.map_map]
      apply List.map_congr_left
      intro e _
      simp only [Function.comp]
      split
      · next he => exact he.symm
      · rfl
    simp only [Option.isSome_some, if_true, this]
    exact h

theorem nd_del {s : S} (h : Nd s) (l : Loc) : Nd (s.del l) :=
  List.Sublist.nodup (List.Sublist.map _ (List.filter_sublist)) h

/-! ### Counting -/

def b2n (b : Bool) : Nat := if b then 1 else 0

theorem countP_del {P : Loc × Val → Bool} {l : Loc} {v : Val} : ∀ {m : List (Loc × Val)}, (m.map (·.1)).Nodup →
    m.lookup l = some v → m.countP P = (m.filter fun e => decide (e.1 ≠ l)).countP P + b2n (P (l, v))
  | (a, b) :: m, hn, h => by
    simp only [List.map_cons, List.nodup_cons] at hn
    by_cases ha : a = l
    · subst ha
      simp [List.lookup] at h
      subst h
      have hf : m.filter (fun e => decide (e.1 ≠ a)) = m := by
        apply List.filter_eq_self.2
        intro e he
        simp only [ne_eq, decide_eq_true_eq]
        intro h; exact hn.1 (List.mem_map.2 ⟨e, he, h⟩)
      rw [List.filter_cons_of_neg (by simp), hf, List.countP_cons]; rfl
    · have hb : (l == a) = false := by simpa using fun h => ha h.symm
      simp only [List.lookup, hb] at h
      have ih := countP_del (P := P) hn.2 h
      rw [List.filter_cons_of_pos (by simpa using ha), List.countP_cons, List.countP_cons]
      omega

theorem countP_put {P : Loc × Val → Bool} {l : Loc} {v w : Val} : ∀ {m : List (Loc × Val)}, (m.map (·.1)).Nodup →
    m.lookup l = some v → (m.map fun e => if e.1 = l then (l, w) else e).countP P + b2n (P (l, v)) =
      m.countP P + b2n (P (l, w))
  | (a, b) :: m, hn, h => by
    simp only [List.map_cons, List.nodup_cons] at hn
    by_cases ha : a = l
    · subst ha
      simp [List.lookup] at h
      subst h
      have hf : (m.map fun e => if e.1 = a then (a, w) else e) = m := by
        conv => rhs; rw [← List.map_id m]
        apply List.map_congr_left
        intro e he
        have : e.1 ≠ a := fun h => hn.1 (List.mem_map.2 ⟨e, he, h⟩)
        simp [this]
      simp only [List.map_cons, if_true, hf, List.countP_cons, b2n]
      omega
    · have hb : (l == a) = false := by simpa using fun h => ha h.symm
      simp only [List.lookup, hb] at h
      have ih := countP_put (P := P) (w := w) hn.2 h
      simp only [List.map_cons, ha, if_false, List.countP_cons]
      omega

theorem cP_del {s : S} (hn : Nd s) {l : Loc} {v : Val} (h : s.get l = some v) (P : Loc × Val → Bool) :
    s.mem.countP P = (s.del l).mem.countP P + b2n (P (l, v)) := countP_del hn h

theorem cP_put {s : S} (hn : Nd s) {l : Loc} {v w : Val} (h : s.get l = some v) (P : Loc × Val → Bool) :
    (s.put l w).mem.countP P + b2n (P (l, v)) = s.mem.countP P + b2n (P (l, w)) := by
  have := countP_put (P := P) (w := w) hn h
  simpa [S.put, h] using this

theorem cP_new {s : S} {l : Loc} {w : Val} (h : s.get l = none) (P : Loc × Val → Bool) :
    (s.put l w).mem.countP P = s.mem.countP P + b2n (P (l, w)) := by
  simp [S.put, h, List.countP_append, List.countP_cons, b2n]

theorem cP_congr {s : S} (hn : Nd s) {P Q : Loc × Val → Bool} (h : ∀ l v, s.get l = some v → P (l, v) = Q (l, v)) :
    s.mem.countP P = s.mem.countP Q :=
  List.countP_congr fun e he => by rw [h e.1 e.2 (mem_lookup hn he)]

theorem cP_zero {s : S} {P : Loc × Val → Bool} (h : s.mem.countP P = 0) {l : Loc} {v : Val} (hg : s.get l = some v) :
    P (l, v) = false := by
  have := List.countP_eq_zero.1 h (l, v) (lookup_mem hg)
  simpa using this

theorem len_del {s : S} (hn : Nd s) {l : Loc} {v : Val} (h : s.get l = some v) :
    s.mem.length = (s.del l).mem.length + 1 := by
  have := cP_del hn h (fun _ => true)
  simpa [b2n] using this

theorem mem_cells {s : S} {o : Nat} {l : Loc} : l ∈ s.cells o ↔ (s.get l).isSome ∧ ∃ k, l = .elem o k := by
  unfold S.cells
  have hk : l ∈ s.mem.map (·.1) ↔ (s.get l).isSome := by
    rw [← Decidable.not_iff_not]
    simp only [S.get]
    rw [← lookup_none_iff]
    cases s.mem.lookup l <;> simp
  rw [List.mem_filter, hk]
  cases l with
  | var x => simp
  | elem p k =>
    simp only [decide_eq_true_eq, Loc.elem.injEq]
    constructor
    · rintro ⟨h, rfl⟩; exact ⟨h, k, rfl, rfl⟩
    · rintro ⟨h, _, rfl, _⟩; exact ⟨h, rfl⟩

theorem nodup_cells {s : S} (h : Nd s) (o : Nat) : (s.cells o).Nodup := List.Sublist.nodup List.filter_sublist h

/-! ### The invariant -/

/-- The container a value refers to. -/
def tgt (s : S) : Val → Option Nat
  | .prim _ => none
  | .obj o => some o
  | .slot k => (s.slot k).bind (·.src)

/-- How many stack elements refer to a container. -/
def cnt (s : S) (o : Nat) : Nat := s.mem.countP fun e => decide (tgt s e.2 = some o)

def killIds (w : List Work) : List Nat := w.filterMap fun
  | .unref _ => none
  | .kill o _ => some o

/-- No share is left over. -/
abbrev Z : Nat → Nat := fun _ => 0

/-- One share of `o` is left over. -/
def one (o : Nat) : Nat → Nat := fun q => if q = o then 1 else 0

/-- The memory between two steps of the destructors, with the work `w` left. Objects have the shares of the stack elements that
refer to them, those that are still to be given back, and `τ` more; objects in `G` may have even more, which are lost. -/
structure J (G : Nat → Prop) (τ : Nat → Nat) (s : S) (w : List Work) : Prop where
  nd : Nd s
  ln : s.live.Nodup
  zn : s.zero.Nodup
  cn : s.cyc.Nodup
  own : ∀ {o k v}, s.get (.elem o k) = some v → o ∈ s.live
  tgl : ∀ {l v o}, s.get l = some v → tgt s v = some o → o ∈ s.live
  slt : ∀ {l k}, s.get l = some (.slot k) → ∃ src, s.slot k = some ⟨src, l⟩
  fwd : ∀ {k o l}, s.slot k = some ⟨some o, l⟩ → o ∈ s.live ∧ k ∈ (s.obj o).refs ∧ s.get l = some (.slot k)
  ref : ∀ {o k}, o ∈ s.live → k ∈ (s.obj o).refs → ∃ l, s.slot k = some ⟨some o, l⟩
  rn : ∀ {o}, o ∈ s.live → (s.obj o).refs.Nodup
  ex : ∀ {o}, o ∈ s.live → ∃ e, cnt s o + w.count (.unref o) + τ o + e = (s.obj o).shares ∧ (e ≠ 0 → G o)
  unr : ∀ {o}, .unref o ∈ w → o ∈ s.live
  zer : ∀ {o}, o ∈ s.zero ↔ o ∈ s.live ∧ (s.obj o).shares = 0 ∧ o ∉ killIds w
  dyn : (killIds w).Nodup
  dy : ∀ {o ls}, .kill o ls ∈ w → o ∈ s.live ∧ (s.obj o).shares = 0 ∧ ls.Nodup ∧
    ∀ l, l ∈ ls ↔ (s.get l).isSome ∧ ∃ k, l = .elem o k
  cyc : ∀ {o}, o ∈ s.cyc ↔ o ∈ s.live ∧ (s.obj o).refs ≠ []
  bo : ∀ {o}, o ∈ s.live → o < s.nextO
  bs : ∀ {k sl}, s.slot k = some sl → k < s.nextS

theorem mem_killIds {w : List Work} {o : Nat} : o ∈ killIds w ↔ ∃ ls, .kill o ls ∈ w := by
  unfold killIds
  rw [List.mem_filterMap]
  constructor
  · rintro ⟨x, hx, h⟩
    cases x with
    | unref _ => cases h
    | kill p ls => cases h; exact ⟨ls, hx⟩
  · rintro ⟨ls, h⟩; exact ⟨_, h, rfl⟩

theorem J.cnt {G : Nat → Prop} {τ : Nat → Nat} {s : S} {w : List Work} (h : J G τ s w) {o : Nat} (ho : o ∈ s.live) :
    Slots.cnt s o + w.count (.unref o) ≤ (s.obj o).shares := by
  obtain ⟨e, h1, _⟩ := h.ex ho; omega

/-- A container nothing refers to has no slots. -/
theorem J.refs_nil {G : Nat → Prop} {τ : Nat → Nat} {s : S} {w : List Work} (h : J G τ s w) {o : Nat} (ho : o ∈ s.live) (hc : Slots.cnt s o = 0) :
    (s.obj o).refs = [] := by
  cases hr : (s.obj o).refs with
  | nil => rfl
  | cons k ks =>
    obtain ⟨l, hl⟩ := h.ref ho (k := k) (by rw [hr]; simp)
    have := cP_zero hc (h.fwd hl).2.2
    simp [tgt, hl] at this

end Verif.Slots
