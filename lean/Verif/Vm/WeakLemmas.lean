import Verif.Vm.WeakSpec
/-
Lemmas about stored methods.
-/
namespace Verif.Vm.Weak
open Verif

theorem upd_same {β : Type u} (f : Nat → β) (x : Nat) (y : β) : upd f x y x = y := by simp [upd]

theorem upd_other {β : Type u} (f : Nat → β) {x z : Nat} (y : β) (h : z ≠ x) : upd f x y z = f z := by simp [upd, h]

theorem upd_id {β : Type u} (f : Nat → β) {x : Nat} {y : β} (h : f x = y) : upd f x y = f := by
  funext z
  by_cases hz : z = x
  · subst hz
    rw [upd_same, h]
  · rw [upd_other _ _ hz]

/-- Memory and specification agree; `m` are the stored methods attached to each object, `z r s`: method `r` may have lost the object `s`. -/
structure J (σ : St) (S : Spec) (m : Ring.Lists) (z : Nat → Nat → Prop) : Prop where
  alive : ∀ a, σ.alive a = (S.objs a).isSome
  data : ∀ a o, S.objs a = some o → σ.data a = o.data
  isRef : ∀ a, (S.objs a).isSome → σ.isRef a = (S.from_ a).isSome
  fobj : ∀ a, (S.from_ a).isSome → (S.objs a).isSome
  tgt : ∀ r a, σ.target r = some a → ∃ o, S.objs a = some o ∧ S.from_ r = some o ∧ r ∈ m a
  tnone : ∀ r o, S.from_ r = some o → σ.target r = none → z r o.id
  mem : ∀ a r, r ∈ m a → σ.target r = some a ∧ σ.made a = true
  inv : Ring.Inv σ.ring (fun r => (σ.target r).isSome) m
  lt : ∀ a o, S.objs a = some o → o.id < S.cnt
  flt : ∀ a o, S.from_ a = some o → o.id < S.cnt
  blt : ∀ a o, S.bound a = some o → o.id < S.cnt
  inj : ∀ a b o o', S.objs a = some o → S.objs b = some o' → o.id = o'.id → a = b
  live : ∀ a o, S.objs a = some o → S.dead o.id = false
  bound : ∀ b o, S.bound b = some o → ∃ x, σ.bound b = some x ∧ ((∃ a, x = some a ∧ S.objs a = some o) ∨ S.dead o.id = true)
  deadlt : ∀ s, S.dead s = true → s < S.cnt

theorem j_init : J St.init Spec.init (fun _ => []) (fun _ s => Spec.init.dead s = true) where
  alive _ := rfl
  data _ _ h := by cases h
  isRef _ h := by cases h
  fobj _ h := by cases h
  tgt _ _ h := by cases h
  tnone _ _ h := by cases h
  mem _ _ h := by cases h
  inv := by
    have := Ring.inv_init
    exact this
  lt _ _ h := by cases h
  flt _ _ h := by cases h
  blt _ _ h := by cases h
  inj _ _ _ _ h := by cases h
  live _ _ h := by cases h
  bound _ _ h := by cases h
  deadlt _ h := by cases h

theorem J.target_none {σ S m z} (j : J σ S m z) {a : Nat} (h : S.objs a = none) : σ.target a = none := by
  cases ht : σ.target a with
  | none => rfl
  | some b =>
    obtain ⟨o, _, h2, _⟩ := j.tgt a b ht
    have := j.fobj a (by rw [h2]; rfl)
    rw [h] at this
    cases this

theorem J.from_none {σ S m z} (j : J σ S m z) {a : Nat} (h : S.objs a = none) : S.from_ a = none := by
  cases hf : S.from_ a with
  | none => rfl
  | some b =>
    have := j.fobj a (by rw [hf]; rfl)
    rw [h] at this
    cases this

theorem J.m_nil {σ S m z} (j : J σ S m z) {a : Nat} (h : S.objs a = none) : m a = [] := by
  cases hm : m a with
  | nil => rfl
  | cons r rest =>
    have := (j.mem a r (by rw [hm]; exact List.mem_cons_self ..)).1
    obtain ⟨o, h1, _⟩ := j.tgt r a this
    rw [h] at h1
    cases h1

/-- A new object. -/
theorem J.new {σ S m} (j : J σ S m (fun _ s => S.dead s = true)) {a : Nat} (d : Nat) (h : S.objs a = none) :
    J (newObj σ a d) (S.add a d) m (fun _ s => (S.add a d).dead s = true) := by
  have ht := j.target_none h
  have hf := j.from_none h
  have hm := j.m_nil h
  have htu : upd σ.target a none = σ.target := upd_id _ ht
  have hfu : upd S.from_ a none = S.from_ := upd_id _ hf
  refine ⟨?_, ?_, ?_, ?_, ?_, ?_, ?_, ?_, ?_, ?_, ?_, ?_, ?_, ?_, ?_⟩
  · intro b
    show upd σ.alive a true b = (upd S.objs a _ b).isSome
    by_cases hb : b = a
    · subst hb
      rw [upd_same, upd_same]
      rfl
    · rw [upd_other _ _ hb, upd_other _ _ hb]
      exact j.alive b
  · intro b o
    show upd S.objs a _ b = _ → upd σ.data a d b = _
    by_cases hb : b = a
    · subst hb
      rw [upd_same, upd_same]
      intro ho
      cases ho
      rfl
    · rw [upd_other _ _ hb, upd_other _ _ hb]
      exact j.data b o
  · intro b
    show (upd S.objs a _ b).isSome → upd σ.isRef a false b = (upd S.from_ a none b).isSome
    rw [hfu]
    by_cases hb : b = a
    · subst hb
      rw [upd_same, upd_same, hf]
      intro _
      rfl
    · rw [upd_other _ _ hb, upd_other _ _ hb]
      exact j.isRef b
  · intro b
    show (upd S.from_ a none b).isSome → (upd S.objs a _ b).isSome
    rw [hfu]
    intro hb
    by_cases hb' : b = a
    · subst hb'
      rw [upd_same]
      rfl
    · rw [upd_other _ _ hb']
      exact j.fobj b hb
  · intro r b
    show upd σ.target a none r = _ → ∃ o, upd S.objs a _ b = some o ∧ upd S.from_ a none r = some o ∧ _
    rw [htu, hfu]
    intro hr
    obtain ⟨o, h1, h2, h3⟩ := j.tgt r b hr
    refine ⟨o, ?_, h2, h3⟩
    rw [upd_other _ _ (by rintro rfl; rw [h] at h1; cases h1)]
    exact h1
  · intro r o
    show upd S.from_ a none r = _ → upd σ.target a none r = _ → _
    rw [htu, hfu]
    exact j.tnone r o
  · intro b r hr
    show upd σ.target a none r = _ ∧ upd σ.made a false b = _
    rw [htu, upd_other _ _ (by rintro rfl; rw [hm] at hr; cases hr)]
    exact j.mem b r hr
  · show Ring.Inv σ.ring (fun r => (upd σ.target a none r).isSome) m
    rw [htu]
    exact j.inv
  · intro b o
    show upd S.objs a _ b = _ → _ < S.cnt + 1
    by_cases hb : b = a
    · subst hb
      rw [upd_same]
      intro ho
      cases ho
      exact Nat.lt_succ_self _
    · rw [upd_other _ _ hb]
      intro ho
      exact Nat.lt_succ_of_lt (j.lt b o ho)
  · intro b o
    show upd S.from_ a none b = _ → _ < S.cnt + 1
    rw [hfu]
    intro hb
    exact Nat.lt_succ_of_lt (j.flt b o hb)
  · intro b o hb
    exact Nat.lt_succ_of_lt (j.blt b o hb)
  · intro b c o o'
    show upd S.objs a _ b = _ → upd S.objs a _ c = _ → _
    by_cases hb : b = a <;> by_cases hc : c = a
    · intros; rw [hb, hc]
    · subst hb
      rw [upd_same, upd_other _ _ hc]
      intro h1 h2 h3
      cases h1
      have := j.lt c o' h2
      rw [← h3] at this
      exact absurd this (Nat.lt_irrefl _)
    · subst hc
      rw [upd_same, upd_other _ _ hb]
      intro h1 h2 h3
      cases h2
      have := j.lt b o h1
      rw [h3] at this
      exact absurd this (Nat.lt_irrefl _)
    · rw [upd_other _ _ hb, upd_other _ _ hc]
      exact j.inj b c o o'
  · intro b o
    show upd S.objs a _ b = _ → S.dead _ = false
    by_cases hb : b = a
    · subst hb
      rw [upd_same]
      intro ho
      cases ho
      cases hd : S.dead S.cnt with
      | false => rfl
      | true => exact absurd (j.deadlt _ hd) (Nat.lt_irrefl _)
    · rw [upd_other _ _ hb]
      exact j.live b o
  · intro b o hb
    obtain ⟨x, hx, h2⟩ := j.bound b o hb
    refine ⟨x, hx, ?_⟩
    rcases h2 with ⟨c, h3, h4⟩ | h2
    · left
      refine ⟨c, h3, ?_⟩
      show upd S.objs a _ c = _
      rw [upd_other _ _ (by rintro rfl; rw [h] at h4; cases h4)]
      exact h4
    · exact .inr h2
  · intro s hs
    exact Nat.lt_succ_of_lt (j.deadlt s hs)

theorem nullify_id {h : Ring.Heap} {r : Nat} (h1 : h.next r = none) (h2 : h.prev r = none) : Ring.nullify h r = h := by
  cases h with
  | mk nx pv =>
    simp only [Ring.nullify, Ring.Heap.setNext, Ring.Heap.setPrev, Ring.Heap.mk.injEq]
    constructor
    · funext q
      by_cases hq : q = r
      · subst hq
        simpa using h1.symm
      · simp [hq]
    · funext q
      by_cases hq : q = r
      · subst hq
        simpa using h2.symm
      · simp [hq]

/-- Taking a method. -/
theorem J.method {σ S m} (j : J σ S m (fun _ s => S.dead s = true)) {r a : Nat} (d : Nat) (hr : S.objs r = none)
    (ha : (S.objs a).isSome) :
    ∃ σ1 m1, newRef σ r a d = .ok σ1 ∧
      J σ1 (S.step (.method r a d)).1 m1 (fun _ s => (S.step (.method r a d)).1.dead s = true) := by
  obtain ⟨o, ho⟩ := Option.isSome_iff_exists.1 ha
  have hne : a ≠ r := by rintro rfl; rw [hr] at ho; cases ho
  have j1 := j.new d hr
  have ht := j.target_none hr
  have hmr := j.m_nil hr
  have htu : upd σ.target r none = σ.target := upd_id _ ht
  have hfree := j.inv.free r (by simp [ht])
  have hnull : Ring.nullify σ.ring.heap r = σ.ring.heap := nullify_id hfree.1 hfree.2
  obtain ⟨s', hs, hi⟩ := Ring.step_inv j.inv (.insert a r) trivial
  have hsp : Ring.specStep (fun r => (σ.target r).isSome) m (.insert a r) =
      ((fun x => decide (x = r) || (σ.target x).isSome), m.update a (m a ++ [r]), .ok ()) := by
    simp [Ring.specStep, ht]
  rw [hsp] at hs hi
  have hal : upd σ.alive r true a = true := by
    rw [upd_other _ _ hne, j.alive, ho]
    rfl
  have hrm : ∀ b, r ∉ m b := by
    intro b hb
    have := (j.mem b r hb).1
    rw [ht] at this
    cases this
  refine ⟨{ (newObj σ r d) with
      isRef := upd (newObj σ r d).isRef r true, target := upd (newObj σ r d).target r (some a),
      made := upd (newObj σ r d).made a true, ring := s' }, m.update a (m a ++ [r]), ?_, ?_⟩
  · simp only [newRef, newObj, attach, hal, if_true, onList, hnull]
    rw [hs]
  have hatt : (fun x => (upd (upd σ.target r none) r (some a) x).isSome) =
      (fun x => decide (x = r) || (σ.target x).isSome) := by
    funext x
    by_cases hx : x = r
    · subst hx
      rw [upd_same]
      simp
    · rw [upd_other _ _ hx, htu]
      simp [hx]
  refine ⟨?_, ?_, ?_, ?_, ?_, ?_, ?_, ?_, j1.lt, ?_, j1.blt, j1.inj, j1.live, j1.bound, j1.deadlt⟩
  · exact j1.alive
  · exact j1.data
  · intro b
    show (upd S.objs r _ b).isSome → upd (upd σ.isRef r false) r true b = (upd S.from_ r (S.objs a) b).isSome
    by_cases hb : b = r
    · subst hb
      rw [upd_same, upd_same, upd_same, ho]
      intro _
      rfl
    · rw [upd_other _ _ hb, upd_other _ _ hb, upd_other _ _ hb, upd_other _ _ hb]
      exact j.isRef b
  · intro b
    show (upd S.from_ r (S.objs a) b).isSome → (upd S.objs r _ b).isSome
    by_cases hb : b = r
    · subst hb
      rw [upd_same, upd_same]
      intro _
      rfl
    · rw [upd_other _ _ hb, upd_other _ _ hb]
      exact j.fobj b
  · intro q b
    show upd (upd σ.target r none) r (some a) q = _ →
      ∃ o, upd S.objs r _ b = some o ∧ upd S.from_ r (S.objs a) q = some o ∧ q ∈ m.update a (m a ++ [r]) b
    by_cases hq : q = r
    · subst hq
      rw [upd_same, upd_same]
      intro hb
      cases hb
      refine ⟨o, ?_, ho, by simp [Ring.Lists.update]⟩
      rw [upd_other _ _ hne]
      exact ho
    · rw [htu, upd_other _ _ hq, upd_other _ _ hq]
      intro hb
      obtain ⟨o', h1, h2, h3⟩ := j.tgt q b hb
      refine ⟨o', ?_, h2, ?_⟩
      · rw [upd_other _ _ (by rintro rfl; rw [hr] at h1; cases h1)]
        exact h1
      · simp only [Ring.Lists.update]
        split
        · rename_i hba
          subst hba
          exact List.mem_append_left _ h3
        · exact h3
  · intro q o'
    show upd S.from_ r (S.objs a) q = _ → upd (upd σ.target r none) r (some a) q = _ → _
    by_cases hq : q = r
    · subst hq
      rw [upd_same, upd_same]
      intro _ h2
      cases h2
    · rw [htu, upd_other _ _ hq, upd_other _ _ hq]
      exact j.tnone q o'
  · intro b q
    show q ∈ m.update a (m a ++ [r]) b → upd (upd σ.target r none) r (some a) q = some b ∧ upd (upd σ.made r false) a true b = true
    simp only [Ring.Lists.update]
    split
    · rename_i hba
      subst hba
      intro hq
      rw [upd_same]
      refine ⟨?_, rfl⟩
      rcases List.mem_append.1 hq with hq2 | hq
      · rw [htu, upd_other _ _ (by rintro rfl; exact hrm _ hq2)]
        exact (j.mem b q hq2).1
      · simp only [List.mem_singleton] at hq
        subst hq
        exact upd_same _ _ _
    · rename_i hba
      intro hq
      rw [upd_other _ _ hba, upd_other _ _ (by rintro rfl; exact hrm _ hq), htu,
        upd_other _ _ (by rintro rfl; rw [hmr] at hq; cases hq)]
      exact j.mem b q hq
  · show Ring.Inv s' (fun x => (upd (upd σ.target r none) r (some a) x).isSome) _
    rw [hatt]
    exact hi
  · intro b o'
    show upd S.from_ r (S.objs a) b = _ → _ < S.cnt + 1
    by_cases hb : b = r
    · subst hb
      rw [upd_same]
      intro h1
      exact Nat.lt_succ_of_lt (j.lt a o' h1)
    · rw [upd_other _ _ hb]
      intro h1
      exact Nat.lt_succ_of_lt (j.flt b o' h1)

/-- Detaching a stored method from its object. -/
theorem J.lose {σ S m z} (j : J σ S m z) {r a : Nat} (ht : σ.target r = some a) (hz : ∀ o, S.objs a = some o → z r o.id) :
    ∃ s1, deattach σ a r = .ok { σ with ring := s1 } ∧
      J { σ with ring := s1, target := upd σ.target r none } S (m.update a ((m a).erase r)) z := by
  obtain ⟨o, ho, hf, hm⟩ := j.tgt r a ht
  have hal : σ.alive a = true := by rw [j.alive, ho]; rfl
  have hmade := (j.mem a r hm).2
  obtain ⟨s', hs, hi⟩ := Ring.step_inv j.inv (.remove a r) (.inl hm)
  have hsp : Ring.specStep (fun r => (σ.target r).isSome) m (.remove a r) =
      ((fun x => (σ.target x).isSome && x != r), m.update a ((m a).erase r), .ok ()) := by
    simp [Ring.specStep, hm]
  rw [hsp] at hs hi
  refine ⟨s', ?_, ?_⟩
  · simp only [deattach, hal, hmade, if_true, onList]
    rw [hs]
  have hatt : (fun x => (upd σ.target r none x).isSome) = (fun x => (σ.target x).isSome && x != r) := by
    funext x
    by_cases hx : x = r
    · subst hx
      rw [upd_same]
      simp
    · rw [upd_other _ _ hx]
      simp [hx]
  refine ⟨j.alive, j.data, j.isRef, j.fobj, ?_, ?_, ?_, ?_, j.lt, j.flt, j.blt, j.inj, j.live, j.bound, j.deadlt⟩
  · intro q b
    show upd σ.target r none q = _ → _
    by_cases hq : q = r
    · subst hq
      rw [upd_same]
      intro h
      cases h
    · rw [upd_other _ _ hq]
      intro hb
      obtain ⟨o', h1, h2, h3⟩ := j.tgt q b hb
      refine ⟨o', h1, h2, ?_⟩
      simp only [Ring.Lists.update]
      split
      · rename_i hba
        subst hba
        exact (List.mem_erase_of_ne hq).2 h3
      · exact h3
  · intro q o'
    show _ → upd σ.target r none q = _ → _
    by_cases hq : q = r
    · subst hq
      intro h1 _
      rw [hf] at h1
      cases h1
      exact hz o ho
    · rw [upd_other _ _ hq]
      exact j.tnone q o'
  · intro b q
    show _ → upd σ.target r none q = some b ∧ σ.made b = true
    simp only [Ring.Lists.update]
    split
    · rename_i hba
      subst hba
      intro hq
      have hnd := (j.inv.ring b).nodup
      have hq2 := (List.Nodup.mem_erase_iff hnd).1 hq
      rw [upd_other _ _ hq2.1]
      exact j.mem b q hq2.2
    · rename_i hba
      intro hq
      have hqr : q ≠ r := by
        rintro rfl
        exact hba (j.inv.disj b a q hq hm)
      rw [upd_other _ _ hqr]
      exact j.mem b q hq
  · show Ring.Inv s' (fun x => (upd σ.target r none x).isSome) _
    rw [hatt]
    exact hi

/-- The loop that detaches all stored methods of an object. -/
theorem loop_ok {S : Spec} {z : Nat → Nat → Prop} {a : Nat} {o : Obj} (ho : S.objs a = some o) (hz : ∀ r, z r o.id) (rest : List Nat) :
    ∀ (c : Nat) {σ : St} {m : Ring.Lists}, J σ S m z → m a = c :: rest →
      ∃ σ1 m1, (∀ fuel, rest.length < fuel → dettachLoop σ a fuel (some c) = some (.ok σ1)) ∧ J σ1 S m1 z ∧ m1 a = [] ∧ σ1.bound = σ.bound ∧
        ∀ r, σ.target r = none → σ1.target r = none := by
  induction rest with
  | nil =>
    intro c σ m j hm
    have ht := (j.mem a c (by rw [hm]; exact List.mem_cons_self ..)).1
    obtain ⟨s1, hd, j1⟩ := j.lose ht (fun o' _ => by rename_i h; rw [ho] at h; cases h; exact hz c)
    have hm1 : (m.update a ((m a).erase c)) a = [] := by simp [Ring.Lists.update, hm]
    have hfirst : (s1.hdr a).first = none := by
      have := (j1.inv.ring a).first
      rw [hm1] at this
      exact this
    have hal : σ.alive c = true := by
      obtain ⟨o', _, h2, _⟩ := j.tgt c a ht
      rw [j.alive]
      exact j.fobj c (by rw [h2]; rfl)
    refine ⟨{ σ with ring := s1, target := upd σ.target c none }, _, ?_, j1, hm1, rfl, ?_⟩
    · intro fuel hf
      obtain ⟨fuel, rfl⟩ : ∃ k, fuel = k + 1 := ⟨fuel - 1, by simp at hf; omega⟩
      simp only [dettachLoop, onDettach, hal, if_true, ht, hd, Out.map, hfirst, ne_eq, not_true_eq_false, if_false]
    · intro r hr
      show upd σ.target c none r = none
      by_cases hrc : r = c
      · subst hrc
        exact upd_same _ _ _
      · rw [upd_other _ _ hrc]
        exact hr
  | cons c2 rest ih =>
    intro c σ m j hm
    have ht := (j.mem a c (by rw [hm]; exact List.mem_cons_self ..)).1
    obtain ⟨s1, hd, j1⟩ := j.lose ht (fun o' _ => by rename_i h; rw [ho] at h; cases h; exact hz c)
    have hm1 : (m.update a ((m a).erase c)) a = c2 :: rest := by simp [Ring.Lists.update, hm]
    have hfirst : (s1.hdr a).first = some c2 := by
      have := (j1.inv.ring a).first
      rw [hm1] at this
      exact this
    have hnext : σ.ring.heap.next c = some c2 := by
      have hr := j.inv.ring a
      rw [hm] at hr
      have := Ring.ring_succ (p := []) hr
      simpa using this
    have hal : σ.alive c = true := by
      obtain ⟨o', _, h2, _⟩ := j.tgt c a ht
      rw [j.alive]
      exact j.fobj c (by rw [h2]; rfl)
    obtain ⟨σ1, m1, he, j2, h2, hb, h3⟩ := ih c2 j1 hm1
    refine ⟨σ1, m1, ?_, j2, h2, hb, ?_⟩
    · intro fuel hf
      obtain ⟨fuel, rfl⟩ : ∃ k, fuel = k + 1 := ⟨fuel - 1, by simp at hf; omega⟩
      simp only [dettachLoop, onDettach, hal, if_true, ht, hd, Out.map, hfirst, ne_eq, reduceCtorEq, not_false_eq_true, hnext]
      exact he fuel (by simp at hf; omega)
    · intro r hr
      refine h3 r ?_
      show upd σ.target c none r = none
      by_cases hrc : r = c
      · subst hrc
        exact upd_same _ _ _
      · rw [upd_other _ _ hrc]
        exact hr

/-- Destroying an object. -/
theorem J.destroy {σ S m} (j : J σ S m (fun _ s => S.dead s = true)) {a : Nat} (ha : (S.objs a).isSome) :
    ∃ F σ1 m1, (∀ fuel, F ≤ fuel → destroy σ a fuel = some (.ok σ1)) ∧
      J σ1 (S.step (.destroy a)).1 m1 (fun _ s => (S.step (.destroy a)).1.dead s = true) := by
  obtain ⟨o, ho⟩ := Option.isSome_iff_exists.1 ha
  -- what may be lost meanwhile
  let z : Nat → Nat → Prop := fun r s => S.dead s = true ∨ s = o.id ∨ r = a
  have jz : J σ S m z := ⟨j.alive, j.data, j.isRef, j.fobj, j.tgt, fun r o h1 h2 => .inl (j.tnone r o h1 h2), j.mem, j.inv, j.lt,
    j.flt, j.blt, j.inj, j.live, j.bound, j.deadlt⟩
  -- the object itself is detached
  have h1 : ∃ σ1 m1, (if σ.isRef a then dettachRef σ a else .ok σ) = .ok σ1 ∧ J σ1 S m1 z ∧ σ1.target a = none ∧
      σ1.bound = σ.bound := by
    cases ht : σ.target a with
    | none =>
      refine ⟨σ, m, ?_, jz, ht, rfl⟩
      simp only [dettachRef, ht, ite_self]
    | some b =>
      obtain ⟨o', _, hf, _⟩ := j.tgt a b ht
      have hr : σ.isRef a = true := by rw [j.isRef a ha, hf]; rfl
      obtain ⟨s1, hd, j1⟩ := jz.lose ht (fun _ _ => .inr (.inr rfl))
      refine ⟨_, _, ?_, j1, upd_same _ _ _, rfl⟩
      simp only [hr, if_true, dettachRef, ht, hd, Out.map]
  obtain ⟨σ1, m1, e1, j1, t1, b1⟩ := h1
  -- then its stored methods
  have h2 : ∃ σ2 m2, (∀ fuel, (m1 a).length ≤ fuel → dettachAll σ1 a fuel = some (.ok σ2)) ∧ J σ2 S m2 z ∧ m2 a = [] ∧ σ2.target a = none ∧
      σ2.bound = σ.bound := by
    cases hm : m1 a with
    | nil =>
      refine ⟨σ1, m1, ?_, j1, hm, t1, b1⟩
      have hf := (j1.inv.ring a).first
      rw [hm] at hf
      intro fuel _
      simp only [dettachAll]
      split
      · rw [hf]
        rfl
      · rfl
    | cons c rest =>
      obtain ⟨σ2, m2, e2, j2, h2, hb, h3⟩ := loop_ok ho (fun r => .inr (.inl rfl)) rest c j1 hm
      refine ⟨σ2, m2, ?_, j2, h2, h3 a t1, hb.trans b1⟩
      have hf := (j1.inv.ring a).first
      rw [hm] at hf
      have hmade := (j1.mem a c (by rw [hm]; exact List.mem_cons_self ..)).2
      have hf2 := (j2.inv.ring a).first
      rw [h2] at hf2
      have hf' : (σ1.ring.hdr a).first = some c := hf
      have hf2' : (σ2.ring.hdr a).first = none := hf2
      intro fuel hfuel
      simp only [List.length_cons] at hfuel
      simp only [dettachAll, hmade, if_true, hf', e2 fuel (by omega), Ring.destroy, hf2']
  obtain ⟨σ2, m2, e2, j2, hm2, t2, b2⟩ := h2
  have hS : (S.step (.destroy a)).1 =
      { S with objs := upd S.objs a none, from_ := upd S.from_ a none, dead := upd S.dead o.id true } := by
    simp only [Spec.step, ho]
  rw [hS]
  have hot : ∀ b o', b ≠ a → S.objs b = some o' → o'.id ≠ o.id := fun b o' hb h1 h2 => hb (j.inj b a o' o h1 ho h2)
  refine ⟨(m1 a).length, { σ2 with alive := upd σ2.alive a false }, m2,
    fun fuel hfuel => by simp only [Weak.destroy, e1, e2 fuel hfuel], ?_⟩
  refine ⟨?_, ?_, ?_, ?_, ?_, ?_, j2.mem, j2.inv, ?_, ?_, j2.blt, ?_, ?_, ?_, ?_⟩
  · intro b
    show upd σ2.alive a false b = (upd S.objs a none b).isSome
    by_cases hb : b = a
    · subst hb
      rw [upd_same, upd_same]
      rfl
    · rw [upd_other _ _ hb, upd_other _ _ hb]
      exact j2.alive b
  · intro b o'
    show upd S.objs a none b = _ → _
    by_cases hb : b = a
    · subst hb
      rw [upd_same]
      intro h
      cases h
    · rw [upd_other _ _ hb]
      exact j2.data b o'
  · intro b
    show (upd S.objs a none b).isSome → σ2.isRef b = (upd S.from_ a none b).isSome
    by_cases hb : b = a
    · subst hb
      rw [upd_same]
      intro h
      cases h
    · rw [upd_other _ _ hb, upd_other _ _ hb]
      exact j2.isRef b
  · intro b
    show (upd S.from_ a none b).isSome → (upd S.objs a none b).isSome
    by_cases hb : b = a
    · subst hb
      rw [upd_same]
      intro h
      cases h
    · rw [upd_other _ _ hb, upd_other _ _ hb]
      exact j2.fobj b
  · intro r b hr
    have hr : σ2.target r = some b := hr
    obtain ⟨o', h1, h2, h3⟩ := j2.tgt r b hr
    have hb : b ≠ a := by
      rintro rfl
      rw [hm2] at h3
      cases h3
    have hra : r ≠ a := by
      rintro rfl
      rw [t2] at hr
      cases hr
    refine ⟨o', ?_, ?_, h3⟩
    · show upd S.objs a none b = _
      rw [upd_other _ _ hb]
      exact h1
    · show upd S.from_ a none r = _
      rw [upd_other _ _ hra]
      exact h2
  · intro r o'
    show upd S.from_ a none r = _ → _ → upd S.dead o.id true o'.id = true
    by_cases hr : r = a
    · subst hr
      rw [upd_same]
      intro h
      cases h
    · rw [upd_other _ _ hr]
      intro h1 h2
      rcases j2.tnone r o' h1 h2 with h | h | h
      · by_cases he : o'.id = o.id
        · rw [he, upd_same]
        · rw [upd_other _ _ he]
          exact h
      · rw [h, upd_same]
      · exact absurd h hr
  · intro b o'
    show upd S.objs a none b = _ → _
    by_cases hb : b = a
    · subst hb
      rw [upd_same]
      intro h
      cases h
    · rw [upd_other _ _ hb]
      exact j2.lt b o'
  · intro b o'
    show upd S.from_ a none b = _ → _
    by_cases hb : b = a
    · subst hb
      rw [upd_same]
      intro h
      cases h
    · rw [upd_other _ _ hb]
      exact j2.flt b o'
  · intro b c o1 o2
    show upd S.objs a none b = _ → upd S.objs a none c = _ → _
    by_cases hb : b = a
    · subst hb
      rw [upd_same]
      intro h
      cases h
    · by_cases hc : c = a
      · subst hc
        rw [upd_same]
        intro _ h
        cases h
      · rw [upd_other _ _ hb, upd_other _ _ hc]
        exact j2.inj b c o1 o2
  · intro b o'
    show upd S.objs a none b = _ → upd S.dead o.id true o'.id = false
    by_cases hb : b = a
    · subst hb
      rw [upd_same]
      intro h
      cases h
    · rw [upd_other _ _ hb]
      intro h
      rw [upd_other _ _ (hot b o' hb h)]
      exact j2.live b o' h
  · intro b o' hb
    obtain ⟨x, hx, h⟩ := j2.bound b o' hb
    refine ⟨x, hx, ?_⟩
    show (∃ c, x = some c ∧ upd S.objs a none c = some o') ∨ upd S.dead o.id true o'.id = true
    by_cases he : o'.id = o.id
    · right
      rw [he, upd_same]
    · rw [upd_other _ _ he]
      rcases h with ⟨c, h1, h2⟩ | h
      · left
        refine ⟨c, h1, ?_⟩
        rw [upd_other _ _ (by rintro rfl; rw [ho] at h2; cases h2; exact he rfl)]
        exact h2
      · exact .inr h
  · intro s
    show upd S.dead o.id true s = true → _
    by_cases hs : s = o.id
    · subst hs
      intro _
      exact j.lt a o ho
    · rw [upd_other _ _ hs]
      exact j2.deadlt s

/-- One operation. -/
theorem step_ok {σ S m} (j : J σ S m (fun _ s => S.dead s = true)) (op : Op) (hc : S.Can op) (hf : S.Fine op) :
    ∃ F σ1 m1, (∀ fuel, F ≤ fuel → step σ fuel op = some (.ok (σ1, (S.step op).2))) ∧
      J σ1 (S.step op).1 m1 (fun _ s => (S.step op).1.dead s = true) := by
  cases op with
  | new a d => exact ⟨0, _, m, fun _ _ => rfl, j.new d hc⟩
  | method r a d =>
    obtain ⟨σ1, m1, he, j1⟩ := j.method d hc.1 hc.2
    exact ⟨0, σ1, m1, fun fuel _ => by simp only [step, he, Out.map]; rfl, j1⟩
  | destroy a =>
    obtain ⟨F, σ1, m1, he, j1⟩ := j.destroy hc
    refine ⟨F, σ1, m1, fun fuel hfuel => ?_, j1⟩
    obtain ⟨o, ho⟩ := Option.isSome_iff_exists.1 (show (S.objs a).isSome from hc)
    simp only [step, he fuel hfuel, Option.map_some, Out.map, Spec.step, ho]
  | call r =>
    refine ⟨0, σ, m, fun fuel _ => ?_, j⟩
    obtain ⟨o, ho⟩ := Option.isSome_iff_exists.1 (show (S.from_ r).isSome from hc)
    simp only [step, Spec.step, ho, Spec.callOn]
    cases ht : σ.target r with
    | none =>
      have : S.dead o.id = true := j.tnone r o ho ht
      simp only [this, if_true]
    | some a =>
      obtain ⟨o', h1, h2, _⟩ := j.tgt r a ht
      rw [ho] at h2
      cases h2
      have hd := j.live a o h1
      have hal : σ.alive a = true := by rw [j.alive, h1]; rfl
      simp only [readAt, hal, if_true, Out.map, hd, Bool.false_eq_true, if_false, j.data a o h1]
  | print r =>
    refine ⟨0, σ, m, fun fuel _ => ?_, j⟩
    obtain ⟨o, ho⟩ := Option.isSome_iff_exists.1 (show (S.from_ r).isSome from hc)
    simp only [step, Spec.step]
    cases ht : σ.target r with
    | none =>
      have h1 : S.dead o.id = true := j.tnone r o ho ht
      have h2 : S.dead o.id = false := hf o ho
      rw [h1] at h2
      cases h2
    | some a =>
      obtain ⟨o', h1, h2, _⟩ := j.tgt r a ht
      have hal : σ.alive a = true := by rw [j.alive, h1]; rfl
      simp only [readAt, hal, if_true, Out.map]
  | bind b r =>
    refine ⟨0, _, m, fun fuel _ => rfl, ?_⟩
    obtain ⟨o, ho⟩ := Option.isSome_iff_exists.1 (show (S.from_ r).isSome from hc)
    refine ⟨j.alive, j.data, j.isRef, j.fobj, j.tgt, j.tnone, j.mem, j.inv, j.lt, j.flt, ?_, j.inj, j.live, ?_, j.deadlt⟩
    · intro c o'
      show upd S.bound b (S.from_ r) c = _ → _
      by_cases hcb : c = b
      · subst hcb
        rw [upd_same]
        exact j.flt r o'
      · rw [upd_other _ _ hcb]
        exact j.blt c o'
    · intro c o'
      show upd S.bound b (S.from_ r) c = _ → ∃ x, upd σ.bound b (some (σ.target r)) c = some x ∧ _
      by_cases hcb : c = b
      · subst hcb
        rw [upd_same, upd_same]
        intro h
        refine ⟨_, rfl, ?_⟩
        cases ht : σ.target r with
        | none => exact .inr (j.tnone r o' h ht)
        | some a =>
          obtain ⟨o2, h1, h2, _⟩ := j.tgt r a ht
          rw [h] at h2
          cases h2
          exact .inl ⟨a, rfl, h1⟩
      · rw [upd_other _ _ hcb, upd_other _ _ hcb]
        exact j.bound c o'
  | callBound b =>
    refine ⟨0, σ, m, fun fuel _ => ?_, j⟩
    obtain ⟨o, ho⟩ := Option.isSome_iff_exists.1 (show (S.bound b).isSome from hc)
    have hl : S.dead o.id = false := hf o ho
    obtain ⟨x, hx, h⟩ := j.bound b o ho
    rcases h with ⟨a, rfl, h1⟩ | h
    · have hal : σ.alive a = true := by rw [j.alive, h1]; rfl
      simp only [step, Spec.step, ho, Spec.callOn, hl, Bool.false_eq_true, if_false, hx, readAt, hal, if_true, Out.map, j.data a o h1]
    · rw [h] at hl
      cases hl

theorem run_ok (ops : List Op) : ∀ {σ S m}, J σ S m (fun _ s => S.dead s = true) → S.CanAll ops → S.FineAll ops →
    ∃ F, ∀ fuel, F ≤ fuel → run σ fuel ops = some (.ok (S.run ops)) := by
  induction ops with
  | nil => intro σ S m _ _ _; exact ⟨0, fun _ _ => rfl⟩
  | cons op ops ih =>
    intro σ S m j hc hf
    obtain ⟨F, σ1, m1, h, j1⟩ := step_ok j op hc.1 hf.1
    obtain ⟨F2, h2⟩ := ih j1 hc.2 hf.2
    refine ⟨max F F2, fun fuel hfuel => ?_⟩
    rw [run, h fuel (by omega)]
    simp only [h2 fuel (by omega), Option.map_some, Out.map, Spec.run]

end Verif.Vm.Weak
