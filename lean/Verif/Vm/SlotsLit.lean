import Verif.Vm.SlotsCopy
/-
Helper lemmas: literals, `extend` and `+`.
-/
namespace Verif.Slots
open Verif Verif.SlotsSpec

/-! ### Where a value was read -/

/-- A stack element holds it that variables lead to. -/
def Held (s : S) (A : Heap) (v : Val) : Prop :=
  (∃ n, v = .prim n) ∨ ∃ l, s.get l = some v ∧ ∀ p j, l = .elem p j → A.Reach (fun _ _ => False) p

theorem Held.reach {G : Nat → Prop} {s : S} {A : Heap} (h : St G Z s A) {v : Val} (hv : Held s A v) {o : Nat} (ht : tgt s v = some o) :
    A.Reach (fun _ _ => False) o := by
  rcases hv with ⟨n, rfl⟩ | ⟨l, hg, hl⟩
  · cases ht
  · cases l with
    | var x =>
      refine .var (x := x) ?_
      rw [← h.rl.var x, hg]
      exact av_ref ht
    | elem p j =>
      refine .elem (hl p j rfl) (fun h => h) (k := j) ?_
      rw [← h.rl.elem j (h.j.own hg), hg]
      simp [av_ref ht]

theorem follow_held {G : Nat → Prop} {s : S} {A : Heap} (h : St G Z s A) : ∀ (ks : List Nat) {v u : Val}, Held s A v → follow s v ks = .ok u → Held s A u
  | [], v, u, hv, hf => by simp only [follow, Out.ok.injEq] at hf; rw [← hf]; exact hv
  | k :: ks, v, u, hv, hf => by
    simp only [follow] at hf
    cases ht : target s v with
    | err => rw [ht] at hf; cases hf
    | ub => rw [ht] at hf; cases hf
    | ok o =>
      rw [ht] at hf
      simp only [Out.bind] at hf
      split at hf
      · cases hf
      · refine follow_held h ks ?_ hf
        cases hg : s.get (.elem o k) with
        | none => exact Or.inl ⟨0, rfl⟩
        | some c =>
          refine Or.inr ⟨.elem o k, by simpa using hg, ?_⟩
          intro p j e
          cases e
          apply hv.reach h
          cases v with
          | prim => cases ht
          | obj q => cases ht; rfl
          | slot i =>
            simp only [target] at ht
            split at ht
            · cases ht
            · next sl hs =>
              split at ht
              · cases ht
              · next q hq => cases ht; simp [tgt, hs, hq]

theorem read_held {G : Nat → Prop} {s : S} {A : Heap} (h : St G Z s A) {x : Nat} {ks : List Nat} {u : Val} (hr : read s x ks = .ok u) : Held s A u := by
  refine follow_held h ks ?_ hr
  cases hg : s.get (.var x) with
  | none => exact Or.inl ⟨0, rfl⟩
  | some c => exact Or.inr ⟨.var x, by simpa using hg, fun _ _ e => by cases e⟩

theorem held_zero {G : Nat → Prop} {τ : Nat → Nat} {s : S} {w : List Work} (j : J G τ s w) {l : Loc} {v : Val} {o : Nat} (hg : s.get l = some v) (ht : tgt s v = some o) :
    o ∉ s.zero := by
  intro hz
  obtain ⟨h1, h2, _⟩ := j.zer.1 hz
  have h3 := j.cnt h1
  have h4 : Slots.cnt s o = 0 := by omega
  have := cP_zero h4 hg
  simp [ht] at this

theorem reach_zero {G : Nat → Prop} {s : S} {A : Heap} (h : St G Z s A) {a : Nat → Nat → Prop} {o : Nat} (hr : A.Reach a o) : o ∉ s.zero := by
  cases hr with
  | @var x _ hx =>
    have := h.rl.var x
    rw [hx] at this
    cases hg : s.get (.var x) with
    | none => rw [hg] at this; cases this
    | some v =>
      rw [hg] at this
      rcases (h.good hg).cases with ⟨n, rfl⟩ | ⟨p, ht, _, ha, _⟩
      · cases this
      · have e : av s v = .ref o := this
        rw [ha] at e; cases e
        exact held_zero h.j hg ht
  | @elem p k _ hp _ he =>
    have := h.rl.elem k (h.rl.reach_live h.j hp)
    rw [he] at this
    cases hg : s.get (.elem p k) with
    | none => rw [hg] at this; cases this
    | some v =>
      rw [hg] at this
      rcases (h.good hg).cases with ⟨n, rfl⟩ | ⟨q, ht, _, ha, _⟩
      · cases this
      · have e : av s v = .ref o := Option.some.inj this
        rw [ha] at e; cases e
        exact held_zero h.j hg ht

theorem reach_weak {A : Heap} {a b : Nat → Nat → Prop} (hab : ∀ p k, b p k → a p k) {o : Nat} (h : A.Reach a o) : A.Reach b o :=
  reach_mono (fun _ => rfl) (fun p k hn => ⟨rfl, fun hb => hn (hab p k hb)⟩) h

/-- Nothing is reached through an object that waits. -/
theorem reach_past {G : Nat → Prop} {s : S} {A : Heap} (h : St G Z s A) {o q : Nat} (ho : o ∈ s.zero) (hr : A.Reach (fun _ _ => False) q) :
    A.Reach (fun p _ => p = o) q := by
  rcases reach_self (o := o) hr with h1 | h1
  · exact h1
  · exact absurd ho (reach_zero h h1)

/-! ### Literals -/

/-- A value for an element of a new object `o`. -/
def LitVal (s : S) (A : Heap) (o : Nat) (v : Val) : Prop :=
  (∃ X, v = .obj X ∧ X ∈ s.zero ∧ X ≠ o) ∨ Held s A v

theorem litElem_ok {G : Nat → Prop} {s : S} {A : Heap} (h : St G Z s A) {o k : Nat} {v : Val} (ho : o ∈ s.zero) (hv : LitVal s A o v) :
    ∃ t, setElem s o k v = .ok t ∧ St G Z t (A.setElem o k (some (av s v))) ∧ o ∈ t.zero := by
  obtain ⟨u, hu, hst, hz, hsome, _, hslot, hvar, helem⟩ := releaseElem_ok (k := k) h (h.j.zer.1 ho).1 (Or.inl ho)
  have ht0 := hst 0
  have hreset : resetElem s o k = .ok (u.put (.elem o k) (.prim 0)) := by simp only [resetElem, hu, Out.map]
  have hprim : ∀ n, v = .prim n → ∃ t, setElem s o k v = .ok t ∧ St G Z t (A.setElem o k (some (av s v))) ∧ o ∈ t.zero := by
    rintro n rfl
    refine ⟨(u.put (.elem o k) (.prim 0)).put (.elem o k) (.prim n), ?_, ?_, ?_⟩
    · simp only [setElem, hreset, Out.bind]
    · rw [put_put hsome]; exact hst n
    · show o ∈ u.zero; rw [hz]; exact ho
  generalize htt : u.put (.elem o k) (.prim 0) = t0 at *
  have hz0 : t0.zero = s.zero := by rw [← htt]; exact hz
  have ho0 : o ∈ t0.zero := by rw [hz0]; exact ho
  have g0 : t0.get (.elem o k) = some (.prim 0) := by rw [← htt, get_put, if_pos rfl]
  by_cases hvp : ∃ n, v = .prim n
  · obtain ⟨n, hn⟩ := hvp; exact hprim n hn
  -- the value is still the same
  obtain ⟨X, hX1, hX2, hXl, hXo⟩ : ∃ X, tgt s v = some X ∧ tgt t0 v = some X ∧ X ∈ t0.live ∧ X ≠ o := by
    rcases hv with ⟨X, rfl, hXz, hne⟩ | ⟨n, hn⟩ | ⟨l, hg, hl⟩
    · exact ⟨X, rfl, rfl, (ht0.j.zer.1 (by rw [hz0]; exact hXz)).1, hne⟩
    · exact absurd ⟨n, hn⟩ hvp
    · obtain ⟨X, ht, _⟩ : ∃ X, tgt s v = some X ∧ True := by
        rcases (h.good hg).cases with ⟨n, e⟩ | ⟨X, ht, _⟩
        · exact absurd ⟨n, e⟩ hvp
        · exact ⟨X, ht, trivial⟩
      have hlne : l ≠ .elem o k := by
        rintro rfl
        exact reach_zero h (hl o k rfl) ho
      have hget : t0.get l = some v := by
        rw [← htt, get_put, if_neg hlne, ← hg]
        cases l with
        | var x => exact hvar x
        | elem p j =>
          apply helem
          · have : p ∈ t0.live := by
              refine ht0.rl.reach_live ht0.j (av0 := fun q _ => q = o)
                (reach_mono (A := A) (B := A.write (.elem o k) (.prim 0)) (fun _ => rfl) ?_ (reach_past h ho (hl p j rfl)))
              intro q i hne
              refine ⟨?_, hne⟩
              simp [Heap.write, Heap.setElem, hne]
            rw [← htt] at this
            exact this
          · simpa using hlne
      have htt' : tgt t0 v = some X := by
        rw [← ht]
        apply tgt_slot
        rintro i rfl
        rw [← htt]
        apply hslot hlne
        rw [← htt, get_put, if_neg hlne] at hget
        exact hget
      refine ⟨X, ht, htt', ht0.j.tgl hget htt', ?_⟩
      rintro rfl
      exact held_zero h.j hg ht ho
  have htg : target t0 v = .ok X := target_ok hX2
  obtain ⟨hn, hd, hno⟩ := newSlot_ok ht0 (.elem o k)
  have hX' : X ∈ (newSlot t0 (.elem o k)).2.live := hXl
  obtain ⟨t, e, hst', _, hzz⟩ := fin_ok hn.j hn.rl hn.sf (fun l' i _ hi => hn.act l' i hi) (show _ = some (.prim 0) from g0) hd hX'
    (Or.inr ⟨(fun i e => by cases e), hno⟩)
  refine ⟨t, ?_, ?_, hzz o ho0 (Ne.symm hXo)⟩
  · cases v with
    | prim n => exact absurd ⟨n, rfl⟩ hvp
    | obj q => simp only [setElem, hreset, Out.bind, htg]; exact e
    | slot i => simp only [setElem, hreset, Out.bind, htg]; exact e
  · rw [write_write] at hst'
    rw [av_ref hX1]
    exact hst'

theorem evalLit_ok {G : Nat → Prop} {s : S} {A : Heap} (h : St G Z s A) {o : Nat} (ho : o ∈ s.zero) (e : Src) :
    match A.eval e with
    | none => eval s e = .err
    | some (a, B) => ∃ v s', eval s e = .ok (v, s') ∧ St G Z s' B ∧ av s' v = a ∧ LitVal s' B o v ∧ o ∈ s'.zero := by
  cases e with
  | prim n => exact ⟨.prim n, s, rfl, h, rfl, Or.inr (Or.inl ⟨n, rfl⟩), ho⟩
  | path x ks =>
    have hr := read_ok h x ks
    simp only [Heap.eval, eval]
    cases ha : A.read x ks with
    | none => rw [ha] at hr; simp only at hr; rw [hr]; rfl
    | some a =>
      rw [ha] at hr
      obtain ⟨u, e, hav, hg⟩ := hr
      rw [e]
      exact ⟨u, s, rfl, h, hav, Or.inr (read_held h e), ho⟩
  | new =>
    refine ⟨.obj (alloc s).1, (alloc s).2, rfl, h.alloc, ?_, Or.inl ⟨_, rfl, alloc_zero s, ?_⟩, ?_⟩
    · show AVal.ref s.nextO = AVal.ref A.next
      rw [h.rl.nx]
    · intro e
      have e : s.nextO = o := e
      have := h.j.bo (h.j.zer.1 ho).1
      omega
    · show o ∈ s.zero ++ [s.nextO]
      exact List.mem_append_left _ ho

theorem fields_ok {G : Nat → Prop} : ∀ (fs : List (Nat × Src)) {s : S} {A : Heap} {o : Nat}, St G Z s A → o ∈ s.zero →
    match A.fields o fs with
    | none => setElems s o fs = .err
    | some B => ∃ t, setElems s o fs = .ok t ∧ St G Z t B ∧ o ∈ t.zero
  | [], s, A, o, h, ho => ⟨s, rfl, h, ho⟩
  | f :: fs, s, A, o, h, ho => by
    have he := evalLit_ok h ho f.2
    simp only [Heap.fields, setElems]
    cases ha : A.eval f.2 with
    | none => rw [ha] at he; simp only at he; rw [he]; rfl
    | some r =>
      obtain ⟨a, B⟩ := r
      rw [ha] at he
      obtain ⟨v, s', e, h1, hav, hv, ho'⟩ := he
      obtain ⟨t, e2, h2, ho2⟩ := litElem_ok (k := f.1) h1 ho' hv
      rw [hav] at h2
      have ih := fields_ok fs h2 ho2
      rw [e]
      simp only [Out.bind, Option.bind, e2]
      exact ih

theorem lit_ok {G : Nat → Prop} {s : S} {A : Heap} (h : St G Z s A) (x : Nat) (fs : List (Nat × Src)) :
    match A.step (.lit x fs) with
    | none => step s (.lit x fs) = .err
    | some B => ∃ t, step s (.lit x fs) = .ok t ∧ St G Z t B := by
  have hnx : (alloc s).1 = A.next := h.rl.nx
  have hf := fields_ok fs h.alloc (alloc_zero s)
  rw [hnx] at hf
  simp only [Heap.step, step]
  cases ha : Heap.fields { A with next := A.next + 1 } A.next fs with
  | none => rw [ha] at hf; simp only at hf; rw [hnx, hf]; rfl
  | some B =>
    rw [ha] at hf
    obtain ⟨t, e, h1, h2⟩ := hf
    obtain ⟨t', e', h3⟩ := storeVar_ok h1 x (v := .obj A.next) ⟨_, rfl, (h1.j.zer.1 h2).1⟩
    rw [hnx, e]
    exact ⟨t', e', h3⟩

/-! ### Copies -/

/-- The elements with these names are copied from `p` to `o`. -/
def cp (A : Heap) (o p : Nat) (ks : List Nat) : Heap :=
  { A with elem := fun q k => if q = o ∧ k ∈ ks then A.elem p k else A.elem q k }

theorem cp_cons {A : Heap} {o p k : Nat} {a : AVal} (ha : A.elem p k = some a) (ks : List Nat) :
    cp (A.setElem o k (some a)) o p ks = cp A o p (k :: ks) := by
  apply heap_ext
  · rfl
  · funext q j
    simp only [cp, Heap.setElem, List.mem_cons]
    by_cases hq : q = o
    · subst hq
      by_cases hj : j = k
      · subst hj
        by_cases hp : p = q
        · subst hp; simp [ha]
        · simp [hp, ha]
      · by_cases hm : j ∈ ks
        · simp [hj, hm]
        · simp [hj, hm]
    · simp [hq]
  · rfl

theorem append_ok {G : Nat → Prop} : ∀ (ks : List Nat) {s : S} {A : Heap} {o p : Nat}, St G Z s A → o ∈ s.live →
    (o ∈ s.zero ∨ A.Reach (fun q _ => q = o) o) → A.Reach (fun q _ => q = o) p → A.Flat p →
    (∀ k ∈ ks, (A.elem p k).isSome) →
    ∃ t, append s o p (ks.map (Loc.elem p)) = .ok t ∧ St G Z t (cp A o p ks) ∧ t.zero = s.zero
  | [], s, A, o, p, h, _, _, _, _, _ => by
    refine ⟨s, rfl, ?_, rfl⟩
    have : cp A o p [] = A := by apply heap_ext <;> simp [cp]
    rw [this]; exact h
  | k :: ks, s, A, o, p, h, ho, hro, hrp, hfl, hks => by
    have hpl : p ∈ s.live := h.rl.reach_live h.j hrp
    obtain ⟨n, hn⟩ : ∃ n, A.elem p k = some (.prim n) := by
      have := hks k (by simp)
      cases he : A.elem p k with
      | none => rw [he] at this; cases this
      | some a =>
        cases a with
        | prim n => exact ⟨n, rfl⟩
        | ref q => exact absurd he (hfl k q)
    have hsp : s.get (.elem p k) = some (.prim n) := by
      have := h.rl.elem k hpl
      rw [hn] at this
      cases hg : s.get (.elem p k) with
      | none => rw [hg] at this; cases this
      | some v =>
        rw [hg] at this
        rcases (h.good hg).cases with ⟨m, rfl⟩ | ⟨X, _, _, ha, _⟩
        · cases this; rfl
        · have e : av s v = .prim n := Option.some.inj this
          rw [ha] at e; cases e
    obtain ⟨u, hu, hst, hz, hsome, hsame, hslot, hvar, helem⟩ := releaseElem_ok (k := k) h ho hro
    have ht := hst n
    have hel : ∀ q j, q ≠ o → (A.write (.elem o k) (.prim n)).elem q j = A.elem q j := by
      intro q j hne; simp [Heap.write, Heap.setElem, hne]
    have hre : ∀ {q}, A.Reach (fun q _ => q = o) q → (A.write (.elem o k) (.prim n)).Reach (fun q _ => q = o) q := by
      intro q hq
      exact reach_mono (A := A) (B := A.write (.elem o k) (.prim n)) (fun _ => rfl) (fun q j hne => ⟨hel q j hne, hne⟩) hq
    have hup : u.get (.elem p k) = some (.prim n) := by
      by_cases hpo : p = o
      · subst hpo
        rw [hsame n hsp]; exact hsp
      · rw [helem ?_ (fun e => hpo e.1)]
        · exact hsp
        · have : p ∈ (u.put (.elem o k) (.prim n)).live := ht.rl.reach_live ht.j (hre hrp)
          exact this
    have hzt : (u.put (.elem o k) (.prim n)).zero = s.zero := hz
    have hel' : ∀ j, (A.write (.elem o k) (.prim n)).elem p j = A.elem p j := by
      intro j
      by_cases hpo : p = o
      · subst hpo
        by_cases hj : j = k
        · subst hj; simp [Heap.write, Heap.setElem, hn]
        · simp [Heap.write, Heap.setElem, hj]
      · exact hel p j hpo
    have hot : o ∈ (u.put (.elem o k) (.prim n)).live := by
      rcases hro with hz' | hro
      · exact (ht.j.zer.1 (by rw [hzt]; exact hz')).1
      · exact ht.rl.reach_live ht.j (hre hro)
    obtain ⟨t, e, h1, h2⟩ := append_ok ks (o := o) (p := p) ht hot
      (hro.elim (fun hz' => Or.inl (by rw [hzt]; exact hz')) (fun hr => Or.inr (hre hr)))
      (hre hrp) (fun j q => by rw [hel' j]; exact hfl j q) (fun j hj => by rw [hel' j]; exact hks j (List.mem_cons_of_mem _ hj))
    refine ⟨t, ?_, ?_, h2.trans hzt⟩
    · simp only [List.map_cons, append, hpl, not_true_eq_false, if_false, setByKey, hu, Out.bind, hup, copyElem]
      exact e
    · rw [← cp_cons hn]
      exact h1

theorem cells_keys {G : Nat → Prop} {s : S} {A : Heap} (h : St G Z s A) {p : Nat} (hp : p ∈ s.live) :
    ∃ ks : List Nat, s.cells p = ks.map (Loc.elem p) ∧ ∀ k, k ∈ ks ↔ (A.elem p k).isSome := by
  have hex : ∀ ls : List Loc, (∀ l ∈ ls, ∃ k, l = .elem p k) → ∃ ks : List Nat, ls = ks.map (Loc.elem p) := by
    intro ls
    induction ls with
    | nil => intro _; exact ⟨[], rfl⟩
    | cons l ls ih =>
      intro hl
      obtain ⟨ks, e⟩ := ih (fun l' hl' => hl l' (List.mem_cons_of_mem _ hl'))
      obtain ⟨k, e'⟩ := hl l (by simp)
      exact ⟨k :: ks, by rw [e, e']; rfl⟩
  obtain ⟨ks, e⟩ := hex (s.cells p) (fun l hl => (mem_cells.1 hl).2)
  refine ⟨ks, e, ?_⟩
  intro k
  have h1 : k ∈ ks ↔ Loc.elem p k ∈ s.cells p := by rw [e]; simp
  rw [h1, mem_cells, ← h.rl.elem k hp]
  cases s.get (.elem p k) <;> simp

theorem cp_copy {A : Heap} {o p : Nat} {ks : List Nat} (h : ∀ k, k ∈ ks ↔ (A.elem p k).isSome) : cp A o p ks = A.copy o p := by
  apply heap_ext
  · rfl
  · funext q k
    simp only [cp, Heap.copy]
    by_cases hq : q = o
    · subst hq
      have := h k
      cases he : A.elem p k with
      | none => rw [he] at this; simp at this; simp [this]
      | some a => rw [he] at this; simp at this; simp [this]
    · simp [hq]
  · rfl

theorem copy_ok {G : Nat → Prop} {s : S} {A : Heap} (h : St G Z s A) {o p : Nat} (ho : o ∈ s.live)
    (hro : o ∈ s.zero ∨ A.Reach (fun q _ => q = o) o) (hrp : A.Reach (fun q _ => q = o) p) (hfl : A.Flat p) :
    ∃ t, append s o p (s.cells p) = .ok t ∧ St G Z t (A.copy o p) ∧ t.zero = s.zero := by
  obtain ⟨ks, e, hk⟩ := cells_keys h (h.rl.reach_live h.j hrp)
  obtain ⟨t, e2, h1, h2⟩ := append_ok ks h ho hro hrp hfl (fun k hk' => (hk k).1 hk')
  rw [cp_copy hk] at h1
  exact ⟨t, by rw [e]; exact e2, h1, h2⟩

theorem extend_ok {G : Nat → Prop} {s : S} {A : Heap} (h : St G Z s A) (x : Nat) (ks : List Nat) (y : Nat) (js : List Nat) (hf : A.Fine (.extend x ks y js)) :
    match A.step (.extend x ks y js) with
    | none => step s (.extend x ks y js) = .err
    | some B => ∃ t, step s (.extend x ks y js) = .ok t ∧ St G Z t B := by
  have hb := base_ok h x ks
  have hb' := base_ok h y js
  simp only [Heap.step, step]
  cases ho : A.base x ks with
  | none => rw [ho] at hb; simp only at hb; rw [hb]; rfl
  | some o =>
    rw [ho] at hb
    rw [hb.1]
    cases hp : A.base y js with
    | none => rw [hp] at hb'; simp only at hb'; rw [hb']; rfl
    | some p =>
      rw [hp] at hb'
      rw [hb'.1]
      obtain ⟨f1, f2⟩ := hf o p ho hp
      obtain ⟨t, e, h1, _⟩ := copy_ok h hb.2 (Or.inr (base_reach_self ho)) f2 f1
      exact ⟨t, e, h1⟩

/-- Nothing is reached through an object without references. -/
theorem reach_flat {A : Heap} {n q : Nat} (hn : A.Flat n) (h : A.Reach (fun _ _ => False) q) : A.Reach (fun p _ => p = n) q := by
  induction h with
  | var hx => exact .var hx
  | @elem p k o _ _ he ih => exact .elem ih (fun e => hn k o (e ▸ he)) he

theorem plus_ok {G : Nat → Prop} {s : S} {A : Heap} (h : St G Z s A) (z x : Nat) (ks : List Nat) (y : Nat) (js : List Nat) (hf : A.Fine (.plus z x ks y js)) :
    match A.step (.plus z x ks y js) with
    | none => step s (.plus z x ks y js) = .err
    | some B => ∃ t, step s (.plus z x ks y js) = .ok t ∧ St G Z t B := by
  have hb := base_ok h x ks
  have hb' := base_ok h y js
  simp only [Heap.step, step]
  cases ho : A.base x ks with
  | none => rw [ho] at hb; simp only at hb; rw [hb]; rfl
  | some o =>
    rw [ho] at hb
    rw [hb.1]
    cases hp : A.base y js with
    | none => rw [hp] at hb'; simp only at hb'; rw [hb']; rfl
    | some p =>
      rw [hp] at hb'
      rw [hb'.1]
      obtain ⟨f1, f2⟩ := hf o p ho hp
      have hnx : (alloc s).1 = A.next := h.rl.nx
      have ha := h.alloc
      have hz := alloc_zero s
      have hl := alloc_live s
      have hc : s.cells o = (alloc s).2.cells o := rfl
      simp only [Out.bind, hc]
      rw [hnx] at hz hl ⊢
      generalize (alloc s).2 = s0 at *
      let B : Heap := { A with next := A.next + 1 }
      have hfn : B.Flat A.next := fun k q e => by
        have : A.elem A.next k = none := h.rl.fr k (Nat.le_refl _)
        have e : A.elem A.next k = some (.ref q) := e
        rw [this] at e; cases e
      have hro : B.Reach (fun _ _ => False) o := reach_mono (A := A) (B := B) (fun _ => rfl) (fun _ _ _ => ⟨rfl, fun h => h⟩) (base_reach ho)
      have hrp : B.Reach (fun _ _ => False) p := reach_mono (A := A) (B := B) (fun _ => rfl) (fun _ _ _ => ⟨rfl, fun h => h⟩) (base_reach hp)
      obtain ⟨t, e, h1, hz1⟩ := copy_ok (A := B) (o := A.next) (p := o) ha hl (Or.inl hz) (reach_flat hfn hro) f1
      have hz2 : A.next ∈ t.zero := by rw [hz1]; exact hz
      have hpn : p ≠ A.next := by
        rintro rfl
        exact reach_zero ha hrp hz
      have hel : ∀ q k, q ≠ A.next → (B.copy A.next o).elem q k = B.elem q k := by
        intro q k hne; simp [Heap.copy, hne]
      obtain ⟨t2, e2, h2, hz3⟩ := copy_ok (A := B.copy A.next o) (o := A.next) (p := p) h1 (h1.j.zer.1 hz2).1 (Or.inl hz2)
        (reach_mono (A := B) (B := B.copy A.next o) (fun _ => rfl) (fun q k hne => ⟨hel q k hne, hne⟩) (reach_flat hfn hrp))
        (fun k q => by rw [hel p k hpn]; exact f2 k q)
      obtain ⟨t3, e3, h3⟩ := storeVar_ok h2 z (v := .obj A.next) ⟨_, rfl, (h2.j.zer.1 (by rw [hz3]; exact hz2)).1⟩
      refine ⟨t3, ?_, h3⟩
      simp only [e, e2]
      exact e3

/-! ### Every statement -/

theorem step_ok {G : Nat → Prop} {s : S} {A : Heap} (h : St G Z s A) (op : Op) (hf : A.Fine op) (hp : (∀ o, G o) ∨ A.NoSelf op) :
    match A.step op with
    | none => step s op = .err
    | some B => ∃ t, step s op = .ok t ∧ St G Z t B := by
  cases op with
  | setVar x e =>
    have he := eval_ok h e
    simp only [Heap.step, step]
    cases ha : A.eval e with
    | none => rw [ha] at he; simp only at he; rw [he]; rfl
    | some r =>
      obtain ⟨a, B⟩ := r
      rw [ha] at he
      obtain ⟨v, s', e, h1, hav, hg, _⟩ := he
      obtain ⟨t, e2, h2⟩ := storeVar_ok h1 x hg
      rw [hav] at h2
      rw [e]
      exact ⟨t, e2, h2⟩
  | setElem x ks k e =>
    have he := eval_ok h e
    simp only [Heap.step, step]
    cases ha : A.eval e with
    | none => rw [ha] at he; simp only at he; rw [he]; rfl
    | some r =>
      obtain ⟨a, B⟩ := r
      rw [ha] at he
      obtain ⟨v, s', e1, h1, hav, hg, hnew, hpath⟩ := he
      rw [e1]
      have hb := base_ok h1 x ks
      simp only [Out.bind, Option.bind]
      cases ho : B.base x ks with
      | none => rw [ho] at hb; simp only at hb; rw [hb]; rfl
      | some o =>
        rw [ho] at hb
        rw [hb.1]
        have hX : ∀ X, tgt s' v = some X → B.elem o k = some (.ref X) ∨ X ∈ s'.zero ∨ B.Reach (fun q j => q = o ∧ j = k) X := by
          intro X ht
          cases e with
          | prim n => cases e1; cases ht
          | new =>
            obtain ⟨q, rfl, hq⟩ := hnew rfl
            cases ht
            exact Or.inr (Or.inl hq)
          | path y js =>
            simp only [Heap.eval] at ha
            cases hr : A.read y js with
            | none => rw [hr] at ha; cases ha
            | some b =>
              rw [hr] at ha
              cases ha
              have hbase : A.base y js = some X := by
                rw [av_ref ht] at hav
                simp only [Heap.base, hr, ← hav]
              rcases hf o X ho hbase with hf | hf
              · exact Or.inl hf
              · exact Or.inr (Or.inr hf)
        obtain ⟨t, e2, h2⟩ := pushElem_ok (k := k) h1 hb.2 hg (base_reach_self ho) hX
        rw [hav] at h2
        exact ⟨t, e2, h2⟩
  | setItem x ks k e =>
    have he := eval_ok h e
    simp only [Heap.step, step]
    cases ha : A.eval e with
    | none => rw [ha] at he; simp only at he; rw [he]; rfl
    | some r =>
      obtain ⟨a, B⟩ := r
      rw [ha] at he
      obtain ⟨v, s', e1, h1, hav, hg, hnew, hpath⟩ := he
      rw [e1]
      have hb := base_ok h1 x ks
      simp only [Out.bind, Option.bind]
      cases ho : B.base x ks with
      | none => rw [ho] at hb; simp only at hb; rw [hb]; rfl
      | some o =>
        rw [ho] at hb
        rw [hb.1]
        have hX : ∀ X, tgt s' v = some X → ∀ q, B.elem o k ≠ some (.ref q) := by
          intro X ht
          cases e with
          | prim n => cases e1; cases ht
          | new =>
            intro q
            simp only [Heap.eval, Option.some.injEq, Prod.mk.injEq] at ha
            obtain ⟨_, rfl⟩ := ha
            have ho' : A.base x ks = some o := by
              have hfo : ∀ (js : List Nat) (v : AVal), Heap.follow { A with next := A.next + 1 } v js = A.follow v js := by
                intro js
                induction js with
                | nil => intro v; rfl
                | cons j js ih =>
                  intro v
                  cases v with
                  | prim => rfl
                  | ref p => exact ih _
              have : Heap.read { A with next := A.next + 1 } x ks = A.read x ks := hfo ks _
              simp only [Heap.base, this] at ho
              exact ho
            exact hf o q ho'
          | path y js =>
            intro q
            simp only [Heap.eval] at ha
            cases hr : A.read y js with
            | none => rw [hr] at ha; cases ha
            | some b =>
              rw [hr] at ha
              cases ha
              have hbase : A.base y js = some X := by
                rw [av_ref ht] at hav
                simp only [Heap.base, hr, ← hav]
              exact hf o X q ho hbase
        obtain ⟨t, e2, h2⟩ := pushItem_ok (k := k) h1 hb.2 hg hX
        rw [hav] at h2
        exact ⟨t, e2, h2⟩
  | lit x fs => exact lit_ok h x fs
  | erase x ks k =>
    have hb := base_ok h x ks
    simp only [Heap.step, step]
    cases ho : A.base x ks with
    | none => rw [ho] at hb; simp only at hb; rw [hb]; rfl
    | some o =>
      rw [ho] at hb
      rw [hb.1]
      simp only [Out.bind, Option.bind]
      have hel := h.rl.elem k hb.2
      cases hg : s.get (.elem o k) with
      | none => rw [hg] at hel; rw [← hel]; simp
      | some v =>
        rw [hg] at hel
        rw [← hel]
        simp only [Option.map_some, Option.isSome_some, if_true]
        exact drop_ok h o hg (fun e => h.sf o k (by rw [hg, e])) ⟨(fun _ e => by cases e), (fun _ _ e => by cases e; rfl)⟩
  | push x ks k e =>
    have he := eval_ok h e
    simp only [Heap.step, step]
    cases ha : A.eval e with
    | none => rw [ha] at he; simp only at he; rw [he]; rfl
    | some r =>
      obtain ⟨a, B⟩ := r
      rw [ha] at he
      obtain ⟨v, s', e1, h1, hav, hg, hnew, hpath⟩ := he
      rw [e1]
      have hb := base_ok h1 x ks
      simp only [Out.bind, Option.bind]
      cases ho : B.base x ks with
      | none => rw [ho] at hb; simp only at hb; rw [hb]
      | some o =>
        rw [ho] at hb
        rw [hb.1]
        have hel := h1.rl.elem k hb.2
        simp only
        cases hgo : s'.get (.elem o k) with
        | some c => rw [hgo] at hel; rw [← hel]; simp
        | none =>
          rw [hgo] at hel
          rw [← hel]
          simp only [Option.map_none, Option.isSome_none, Bool.false_eq_true, if_false]
          rcases hg.cases with ⟨n, rfl⟩ | ⟨X, ht, hXl, hXa, htg⟩
          · rw [← hav]
            exact ⟨_, rfl, addPrim_ok h1 hb.2 hgo n⟩
          · have hsf : X = o → G o := by
              rintro rfl
              rcases hp with hp | hp
              · exact hp X
              cases e with
              | prim n => cases e1; cases ht
              | new =>
                obtain ⟨q, rfl, hq⟩ := hnew rfl
                cases ht
                exact absurd hq (reach_zero h1 (base_reach ho))
              | path y js =>
                simp only [Heap.eval] at ha
                cases hr : A.read y js with
                | none => rw [hr] at ha; cases ha
                | some b =>
                  rw [hr] at ha
                  cases ha
                  refine absurd ?_ (hp X ho)
                  rw [av_ref ht] at hav
                  simp only [Heap.base, hr, ← hav]
            obtain ⟨t, e2, h2⟩ := addObj_ok h1 hb.2 hgo hXl hsf
            rw [← hav, hXa]
            refine ⟨t, ?_, h2⟩
            cases v with
            | prim => cases ht
            | obj q => simp only [htg, copyElem]; exact e2
            | slot i => simp only [htg, copyElem]; exact e2
  | extend x ks y js => exact extend_ok h x ks y js hf
  | plus z x ks y js => exact plus_ok h z x ks y js hf
  | leave x => exact leave_ok h x
  | sweep =>
    obtain ⟨t, e, h1, _⟩ := sweep_ok s.zero h rfl
    exact ⟨t, e, h1⟩

theorem St.init (G : Nat → Prop) : St G Z .init Heap.init := by
  refine ⟨⟨?_, ?_, ?_, ?_, ?_, ?_, ?_, ?_, ?_, ?_, ?_, ?_, ?_, ?_, ?_, ?_, ?_, ?_⟩, ?_, ⟨?_, ?_, ?_, ?_, ?_⟩, ?_⟩
  all_goals (first | exact List.nodup_nil | rfl | (simp [S.init, S.get, killIds, Heap.init, Act, Sf]; done) | skip)
  all_goals intros; simp_all [S.init, S.get, killIds, Heap.init]

theorem steps_ok {G : Nat → Prop} : ∀ (ops : List Op) {s : S} {A : Heap}, St G Z s A → A.FineAll ops → ((∀ o, G o) ∨ A.NoSelfAll ops) →
    match A.steps ops with
    | none => steps s ops = .err
    | some B => ∃ t, steps s ops = .ok t ∧ St G Z t B
  | [], s, A, h, _, _ => ⟨s, rfl, h⟩
  | op :: ops, s, A, h, hf, hp => by
    have hs := step_ok h op hf.1 (hp.imp id fun h => h.1)
    simp only [Heap.steps, steps]
    cases ha : A.step op with
    | none => rw [ha] at hs; simp only at hs; rw [hs]; rfl
    | some B =>
      rw [ha] at hs
      obtain ⟨t, e, h1⟩ := hs
      rw [e]
      exact steps_ok ops h1 (hf.2 B ha) (hp.imp id fun h => h.2 B ha)

end Verif.Slots
