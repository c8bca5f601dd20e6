import Verif.Vm.SlotsLeak
/-
Properties of containers in containers: memory safety (C94), what elements read as (C95), `clear` (C96), and which objects are
freed (C97). The model is
`Verif/Vm/Slots.lean`; what a script may expect is the heap of `Verif/Vm/SlotsSpec.lean`.
-/
namespace Verif.SlotsProps
open Verif Verif.Slots Verif.SlotsSpec

/-! ### C94: no statement touches freed memory -/

/-- No history of statements on containers, however objects are put into each other, has undefined behaviour. -/
def Safe : Prop := ∀ ops : List Op, steps .init ops ≠ .ub

/-- `list = { 1: {} }; list.1.1 = {}; list.1 = list.1.1`: the container an element holds is freed before the one it contains,
which is to be assigned, gets its share. -/
theorem advance_violated : steps .init [.lit 0 [(1, .new)], .setElem 0 [1] 1 .new, .sweep, .setElem 0 [] 1 (.path 0 [1, 1])] = .ub := rfl

/-- `a = { 1: {} }; b = {}; c = a + b`: the copy holds the slot of the element it copies, and both delete it. -/
theorem concat_violated : steps .init [.lit 0 [(1, .new)], .sweep, .setVar 1 .new, .plus 2 0 [] 1 [], .sweep, .leave 2, .leave 0] = .ub := rfl

/-- `a = { 1: {} }; a.extend(a)`: each element is released and then copied from itself. -/
theorem self_extend_violated : steps .init [.lit 0 [(1, .new)], .sweep, .extend 0 [] 0 [], .leave 0] = .ub := rfl

theorem safe_violated : ¬ Safe := fun h => h _ advance_violated

/-- For every history of statements that are fine where they are executed there is no undefined behaviour, whatever the objects refer
to, cycles included. -/
theorem safe_partial (ops : List Op) (hf : Heap.init.FineAll ops) : steps .init ops ≠ .ub := by
  have h := steps_ok ops (St.init fun _ => True) hf (Or.inl fun _ => trivial)
  cases ha : Heap.init.steps ops with
  | none => rw [ha] at h; simp only at h; rw [h]; simp
  | some B => rw [ha] at h; obtain ⟨t, e, _⟩ := h; rw [e]; simp

/-! ### C95: elements read as what was assigned to them -/

/-- What a value is to a script, in a memory. -/
def Reads (s : S) (v : Val) (a : AVal) : Prop :=
  match a with
  | .prim n => v = .prim n
  | .ref o => target s v = .ok o

/-- A memory shows a heap: each variable followed by accesses reads as in the heap, and is a script error where it is one there. -/
def Shows (s : S) (H : Heap) : Prop := ∀ x ks,
  match H.read x ks with
  | none => read s x ks = .err
  | some a => ∃ v, read s x ks = .ok v ∧ Reads s v a

/-- After every history, variables and elements read as assignments left them; statements are script errors where they should. -/
def Faithful : Prop := ∀ ops : List Op,
  match Heap.init.steps ops with
  | none => steps .init ops = .err
  | some H => ∃ s, steps .init ops = .ok s ∧ Shows s H

theorem faithful_violated : ¬ Faithful := by
  intro h
  have := h [.lit 0 [(1, .new)], .setElem 0 [1] 1 .new, .sweep, .setElem 0 [] 1 (.path 0 [1, 1])]
  rw [advance_violated] at this
  split at this
  · cases this
  · obtain ⟨s, e, _⟩ := this; cases e

theorem shows_of_st {G : Nat → Prop} {s : S} {A : Heap} (h : St G Z s A) : Shows s A := by
  intro x ks
  have hr := read_ok h x ks
  cases ha : A.read x ks with
  | none => rw [ha] at hr; exact hr
  | some a =>
    rw [ha] at hr
    obtain ⟨u, e, hav, hg⟩ := hr
    refine ⟨u, e, ?_⟩
    rcases hg.cases with ⟨n, rfl⟩ | ⟨o, _, _, ha', htg⟩
    · rw [← hav]; exact rfl
    · rw [← hav, ha']; exact htg

/-- For every history of statements that are fine where they are executed. -/
theorem faithful_partial (ops : List Op) (hf : Heap.init.FineAll ops) :
    match Heap.init.steps ops with
    | none => steps .init ops = .err
    | some H => ∃ s, steps .init ops = .ok s ∧ Shows s H := by
  have h := steps_ok ops (St.init fun _ => True) hf (Or.inl fun _ => trivial)
  cases ha : Heap.init.steps ops with
  | none => rw [ha] at h; exact h
  | some B => rw [ha] at h; obtain ⟨t, e, h1⟩ := h; exact ⟨t, e, shows_of_st h1⟩

/-- What a variable leads to is never freed, after such a history. -/
theorem reachable_exists (ops : List Op) (hf : Heap.init.FineAll ops) {H : Heap} (hH : Heap.init.steps ops = some H) :
    ∃ s, steps .init ops = .ok s ∧ ∀ o, H.Reach (fun _ _ => False) o → o ∈ s.live := by
  have h := steps_ok ops (St.init fun _ => True) hf (Or.inl fun _ => trivial)
  rw [hH] at h
  obtain ⟨t, e, h1⟩ := h
  exact ⟨t, e, fun o ho => h1.rl.reach_live h1.j ho⟩

/-! ### C96: `clear` -/

/-- `clear` of a memory with the variables `xs` above the saved state: it ends well, variables of the saved state read as before
with all that follows, and every object that no variable leads to is freed. -/
def Clears : Prop := ∀ (ops : List Op) (s : S) (xs : List Nat), steps .init ops = .ok s →
  ∃ t, clear s xs = .ok t ∧ (∀ x ks a, x ∉ xs → (∃ v, read s x ks = .ok v ∧ Reads s v a) → ∃ v, read t x ks = .ok v ∧ Reads t v a) ∧
    ((∀ x v, s.get (.var x) = some v → x ∈ xs) → t.live = [])

/-- `a = { 1: {} }`, saved, then `clear`: the element is `undefined`. -/
theorem clear_cuts_violated : ∃ s t, steps .init [.lit 0 [(1, .new)], .sweep] = .ok s ∧ read s 0 [1] = .ok (.slot 0) ∧
    clear s [] = .ok t ∧ read t 0 [1] = .ok (.prim 0) := ⟨_, _, rfl, rfl, rfl, rfl⟩

/-- `a = {}; a.1 = a`, then `clear` of everything: the object is not freed. -/
theorem clear_leak_violated : ∃ s t, steps .init [.setVar 0 .new, .setElem 0 [] 1 (.path 0 []), .sweep] = .ok s ∧
    clear s [0] = .ok t ∧ t.live = [0] := ⟨_, _, rfl, rfl, rfl⟩

/-- `a = { 1: {} }; a[1] = {}`: the slot of the element is lost. Without `clear`, the object it refers to is never freed; with
it, undefined behaviour. -/
theorem bracket_violated : ∃ s, steps .init [.lit 0 [(1, .new)], .setItem 0 [] 1 .new, .sweep] = .ok s ∧
    (∃ t, step s (.leave 0) = .ok t ∧ t.live = [1]) ∧ clear s [0] = .ub :=
  ⟨_, rfl, ⟨_, rfl, rfl⟩, rfl⟩

theorem clears_violated : ¬ Clears := by
  intro h
  obtain ⟨s, t, e1, e2, e3, e4⟩ := clear_cuts_violated
  obtain ⟨t', e5, h1, _⟩ := h _ s [] e1
  rw [e3] at e5
  cases e5
  have e6 : target s (.slot 0) = .ok 1 := by cases e1; rfl
  obtain ⟨v, e7, e8⟩ := h1 0 [1] (.ref 1) (by simp) ⟨_, e2, e6⟩
  rw [e4] at e7
  cases e7
  cases e8

/-- `clear` ends well after every fine history. The memory shows a heap in which the variables of the saved state are as before,
the others are gone, and elements are as before, except that one that refers to an object no variable refers to may
be `undefined`. -/
theorem clears_partial (ops : List Op) (hf : Heap.init.FineAll ops) {H : Heap} (hH : Heap.init.steps ops = some H) (xs : List Nat) :
    ∃ s t H', steps .init ops = .ok s ∧ clear s xs = .ok t ∧ Shows t H' ∧
      (∀ x, x ∉ xs → H'.var x = H.var x) ∧ (∀ x, x ∈ xs → H'.var x = .prim 0) ∧
      ∀ o k, H'.elem o k = H.elem o k ∨
        ∃ q, H.elem o k = some (.ref q) ∧ H'.elem o k = some (.prim 0) ∧ ∀ x, H.var x ≠ .ref q := by
  have h := steps_ok ops (St.init fun _ => True) hf (Or.inl fun _ => trivial)
  rw [hH] at h
  obtain ⟨s, e, h1⟩ := h
  obtain ⟨t, B, e2, h2, _, hv, he⟩ := clear_ok h1 xs
  refine ⟨s, t, B, e, e2, shows_of_st h2, ?_, ?_, he⟩
  · intro x hx; rw [hv, if_neg hx]
  · intro x hx; rw [hv, if_pos hx]

/-! ### C97: objects are freed -/

/-- After every history that ends well, and a sweep, the objects that exist are those variables lead to, unless objects contain
themselves. -/
def Frees : Prop := ∀ (ops : List Op) (H : Heap) (s t : S), Heap.init.steps ops = some H → steps .init ops = .ok s → step s .sweep = .ok t →
  (∀ o, ¬ H.Leads o o) → ∀ o, o ∈ t.live ↔ H.Reach (fun _ _ => False) o

/-- `a = {}; a.push(a); a.erase(1)`, and the variable ends: the share the element had is never given back. Nothing contains itself
when the sweep takes place, and the object is not freed. -/
theorem self_push_violated : ∃ s t H, Heap.init.steps [.setVar 0 .new, .push 0 [] 1 (.path 0 []), .erase 0 [] 1, .leave 0] = some H ∧
    steps .init [.setVar 0 .new, .push 0 [] 1 (.path 0 []), .erase 0 [] 1, .leave 0] = .ok s ∧ step s .sweep = .ok t ∧ t.live = [0] ∧
    (∀ x, H.var x = .prim 0) ∧ ∀ o k, H.elem o k = none := by
  refine ⟨_, _, _, rfl, rfl, rfl, rfl, ?_, ?_⟩
  · intro x; simp [Heap.setVar, Heap.setElem, Heap.init]
  · intro o k; simp [Heap.setVar, Heap.setElem, Heap.init]

theorem frees_violated : ¬ Frees := by
  intro h
  obtain ⟨s, t, H, e1, e2, e3, e4, hv, he⟩ := self_push_violated
  have hr := (h _ H s t e1 e2 e3 (fun o hl => by
    cases hl with
    | one e => rw [he] at e; cases e
    | more e _ => rw [he] at e; cases e) 0).1 (by rw [e4]; simp)
  cases hr with
  | var e => rw [hv] at e; cases e
  | elem _ _ e => rw [he] at e; cases e

/-- After every history of statements that are fine where they are executed, in which no object is pushed into itself, and a sweep:
what variables lead to exists, and what exists is what variables lead to, or is held by an object that contains itself. -/
theorem frees_partial (ops : List Op) (hf : Heap.init.FineAll ops) (hn : Heap.init.NoSelfAll ops) {H : Heap}
    (hH : Heap.init.steps ops = some H) :
    ∃ s t, steps .init ops = .ok s ∧ step s .sweep = .ok t ∧ (∀ o, H.Reach (fun _ _ => False) o → o ∈ t.live) ∧
      (∀ o ∈ t.live, H.Reach (fun _ _ => False) o ∨ H.Cyclic o) ∧
      ((∀ o, ¬ H.Leads o o) → ∀ o, o ∈ t.live ↔ H.Reach (fun _ _ => False) o) := by
  have h := steps_ok ops (St.init fun _ => False) hf (Or.inr hn)
  rw [hH] at h
  obtain ⟨s, e, h1⟩ := h
  obtain ⟨t, e2, h2, hz⟩ := sweep_ok s.zero h1 rfl
  refine ⟨s, t, e, e2, fun o ho => h2.rl.reach_live h2.j ho, fun o ho => leaked h2 hz ho, ?_⟩
  intro hc o
  refine ⟨fun ho => (leaked h2 hz ho).resolve_right ?_, fun ho => h2.rl.reach_live h2.j ho⟩
  rintro ⟨p, hp, _⟩
  exact hc p hp

/-- `clear` of everything after such a history frees every object that is not held by one that contains itself. -/
theorem clear_frees_partial (ops : List Op) (hf : Heap.init.FineAll ops) (hn : Heap.init.NoSelfAll ops) {H : Heap}
    (hH : Heap.init.steps ops = some H) (xs : List Nat) (hx : ∀ x o, H.var x = .ref o → x ∈ xs) :
    ∃ s t, steps .init ops = .ok s ∧ clear s xs = .ok t ∧ (∀ o ∈ t.live, H.Cyclic o) ∧ ((∀ o, ¬ H.Leads o o) → t.live = []) := by
  have h := steps_ok ops (St.init fun _ => False) hf (Or.inr hn)
  rw [hH] at h
  obtain ⟨s, e, h1⟩ := h
  obtain ⟨t, B, e2, h2, hz, hv, he⟩ := clear_ok h1 xs
  have hel : ∀ {o k p}, B.elem o k = some (.ref p) → H.elem o k = some (.ref p) := by
    intro o k p hB
    rcases he o k with e | ⟨q, _, e, _⟩
    · rw [← e]; exact hB
    · rw [e] at hB; cases hB
  have hle : ∀ {p o}, B.Leads p o → H.Leads p o := by
    intro p o hl
    induction hl with
    | one e => exact .one (hel e)
    | more e _ ih => exact .more (hel e) ih
  have hnr : ∀ {o}, ¬ B.Reach (fun _ _ => False) o := by
    intro o hr
    induction hr with
    | @var x o e =>
      rw [hv] at e
      split at e
      · cases e
      · next hn => exact hn (hx x o e)
    | elem _ _ _ ih => exact ih
  have key : ∀ o ∈ t.live, H.Cyclic o := by
    intro o ho
    rcases leaked h2 hz ho with hr | ⟨p, h3, h4⟩
    · exact absurd hr hnr
    · exact ⟨p, hle h3, h4.imp id hle⟩
  refine ⟨s, t, e, e2, key, ?_⟩
  intro hc
  cases hl : t.live with
  | nil => rfl
  | cons o os =>
    obtain ⟨p, hp, _⟩ := key o (by rw [hl]; simp)
    exact absurd hp (hc p)

/-! ### The hypotheses hold for histories that do much -/

/-- Two objects that refer to each other, a literal with a duplicate name, an element that is overwritten by what another element
refers to, a copy of a flat object, `push`, `erase`, a variable that ends, and an assignment between brackets. -/
def sample : List Op :=
  [.lit 0 [(1, .prim 5), (2, .new), (2, .new), (3, .new)], .setVar 1 (.path 0 [2]), .setElem 0 [2] 7 (.path 0 []), .setElem 0 [] 3 (.path 1 []),
    .setElem 0 [] 2 .new, .sweep, .push 1 [] 8 (.path 0 []), .setItem 0 [] 9 .new, .lit 2 [(4, .prim 4)], .extend 0 [] 2 [],
    .plus 3 2 [] 2 [], .erase 0 [] 1, .leave 1, .sweep]

example : Heap.init.FineAll sample := by
  refine ⟨trivial, fun h1 e1 => ⟨trivial, fun h2 e2 => ⟨?_, fun h3 e3 => ⟨?_, fun h4 e4 => ⟨trivial, fun h5 e5 => ⟨trivial, fun h6 e6 =>
    ⟨trivial, fun h7 e7 => ⟨?_, fun h8 e8 => ⟨trivial, fun h9 e9 => ⟨?_, fun h10 e10 => ⟨?_, fun h11 e11 => ⟨trivial, fun h12 e12 =>
    ⟨trivial, fun h13 e13 => ⟨trivial, fun h14 e14 => trivial⟩⟩⟩⟩⟩⟩⟩⟩⟩⟩⟩⟩⟩⟩
  · cases e1; cases e2
    intro o p ho hp
    cases ho; cases hp
    exact Or.inr (.var (x := 0) rfl)
  · cases e1; cases e2; cases e3
    intro o p ho hp
    cases ho; cases hp
    exact Or.inr (.var (x := 1) rfl)
  · cases e1; cases e2; cases e3; cases e4; cases e5; cases e6; cases e7
    intro o q ho
    cases ho
    intro e; cases e
  · cases e1; cases e2; cases e3; cases e4; cases e5; cases e6; cases e7; cases e8; cases e9
    intro o p ho hp
    cases ho; cases hp
    refine ⟨?_, .var (x := 2) rfl⟩
    intro k o
    by_cases hk : k = 4
    · subst hk; intro e; cases e
    · simp [Heap.init, Heap.setVar, Heap.setElem, hk]
  · cases e1; cases e2; cases e3; cases e4; cases e5; cases e6; cases e7; cases e8; cases e9; cases e10
    intro o p ho hp
    cases ho; cases hp
    constructor
    all_goals
      intro k o
      by_cases hk : k = 4
      · subst hk; intro e; cases e
      · simp [Heap.copy, Heap.init, Heap.setVar, Heap.setElem, hk]

example : ∃ s, steps .init sample = .ok s ∧ read s 0 [3, 7, 4] = .ok (.prim 4) ∧ s.live.length = 6 := ⟨_, rfl, rfl, rfl⟩

/-- The same without an object that contains itself: nothing is left but what the variables lead to. -/
def sampleTree : List Op :=
  [.lit 0 [(1, .prim 5), (2, .new), (2, .new), (3, .new)], .setVar 1 (.path 0 [2]), .setElem 0 [] 3 (.path 1 []), .sweep,
    .push 1 [] 8 (.path 0 [5]), .push 1 [] 9 .new, .setElem 0 [] 2 .new, .erase 0 [] 1, .leave 1,
    .setVar 2 .new, .setVar 2 (.prim 0)]

example : Heap.init.FineAll sampleTree := by
  refine ⟨trivial, fun h1 e1 => ⟨trivial, fun h2 e2 => ⟨?_, fun h3 e3 => ⟨trivial, fun h4 e4 => ⟨trivial, fun h5 e5 => ⟨trivial, fun h6 e6 =>
    ⟨trivial, fun h7 e7 => ⟨trivial, fun h8 e8 => ⟨trivial, fun h9 e9 => ⟨trivial, fun h10 e10 =>
    ⟨trivial, fun h11 e11 => trivial⟩⟩⟩⟩⟩⟩⟩⟩⟩⟩⟩
  cases e1; cases e2
  intro o p ho hp
  cases ho; cases hp
  exact Or.inr (.var (x := 1) rfl)

example : Heap.init.NoSelfAll sampleTree := by
  refine ⟨trivial, fun h1 e1 => ⟨trivial, fun h2 e2 => ⟨trivial, fun h3 e3 => ⟨trivial, fun h4 e4 => ⟨?_, fun h5 e5 => ⟨trivial, fun h6 e6 =>
    ⟨trivial, fun h7 e7 => ⟨trivial, fun h8 e8 => ⟨trivial, fun h9 e9 => ⟨trivial, fun h10 e10 =>
    ⟨trivial, fun h11 e11 => trivial⟩⟩⟩⟩⟩⟩⟩⟩⟩⟩⟩
  cases e1; cases e2; cases e3; cases e4
  intro o ho hp
  cases hp

example : ∃ H, Heap.init.steps sampleTree = some H ∧ ∀ o, ¬ H.Leads o o := by
  let Up : Heap → Prop := fun H => ∀ o k p, H.elem o k = some (.ref p) → o < p
  have hs : ∀ H o k v, Up H → (∀ p, v = some (.ref p) → o < p) → Up (H.setElem o k v) := by
    intro H o k v h1 h2 q j p e
    simp only [Heap.setElem] at e
    split at e
    · next h => rw [h.1]; exact h2 p e
    · exact h1 q j p e
  have hl : ∀ H, Up H → ∀ o p, H.Leads o p → o < p := by
    intro H hH o p h
    induction h with
    | one e => exact hH _ _ _ e
    | more e _ ih => exact Nat.lt_trans (hH _ _ _ e) ih
  have h0 : ∀ v n, Up ⟨v, (Heap.setElem (Heap.setElem (Heap.setElem (Heap.setElem (Heap.setElem (Heap.setElem (Heap.setElem (Heap.setElem (Heap.setElem Heap.init
      0 1 (some (.prim 5))) 0 2 (some (.ref 1))) 0 2 (some (.ref 2))) 0 3 (some (.ref 3))) 0 3 (some (.ref 2))) 2 8 (some (.prim 0))) 2 9 (some (.ref 4)))
      0 2 (some (.ref 5))) 0 1 none).elem, n⟩ := by
    intro v n
    refine hs _ _ _ _ (hs _ _ _ _ (hs _ _ _ _ (hs _ _ _ _ (hs _ _ _ _ (hs _ _ _ _ (hs _ _ _ _ (hs _ _ _ _ (hs _ _ _ _ ?_ ?_) ?_) ?_) ?_) ?_) ?_) ?_) ?_) ?_
    · intro o k p e; cases e
    all_goals (intro p e; cases e; try decide)
  exact ⟨⟨_, _, _⟩, rfl, fun o h => Nat.lt_irrefl _ (hl _ (h0 _ _) o o h)⟩

example : ∃ s t, steps .init sampleTree = .ok s ∧ step s .sweep = .ok t ∧ s.live.length = 5 ∧ t.live.length = 4 := ⟨_, _, rfl, rfl, rfl, rfl⟩

end Verif.SlotsProps
