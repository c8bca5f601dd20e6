import Verif.Core.Checkpoint
/-
C45: `clear()` returns to the saved state, functions and types. (Variables: `GlobalsProps.lean`.)
-/
namespace Verif.Core.Checkpoint

/-! ### Specification -/

/-- What a user sees: the functions by name with their code, the types by name with their members. A member whose
function object is gone shows as `none`. -/
structure View where
  funs : List (Option (String × Nat))
  types : List (String × List (Option (String × Nat)))
  deriving DecidableEq, Repr

def look (g : Eng) (i : Nat) : Option (String × Nat) := (find g i).map (fun f => (f.name, f.code))

def view (g : Eng) : View :=
  ⟨g.funs.map (look g), g.types.map (fun t => (t.name, t.members.map (look g)))⟩

/-- Every symbol that the user or a function of the tables can reach is still there. -/
def NoDangling (g : Eng) : Prop :=
  (∀ i ∈ g.funs, i ∉ g.dead) ∧ (∀ t ∈ g.types, ∀ i ∈ t.members, i ∉ g.dead) ∧
    ∀ f ∈ g.table, f.id ∉ g.dead ∧ ∀ c ∈ f.calls, ∀ i, c.2 = some i → i ∉ g.dead

/-- C45 as stated. -/
def ClearRestores : Prop :=
  ∀ before between : List Op, .save ∉ between →
    view (run {} (before ++ .save :: (between ++ [.clear]))) = view (run {} before)

/-- … and nothing that is left refers to something deleted. -/
def ClearSafe : Prop :=
  ∀ before between : List Op, .save ∉ between → NoDangling (run {} (before ++ .save :: (between ++ [.clear])))

/-- … and a script evaluated afterwards links as it would have before: a call of a function it defines is bound. -/
def ClearRelinks : Prop :=
  ∀ (before between : List Op) (x : String) (code : Nat), .save ∉ between →
    ∀ f ∈ (run {} (before ++ .save :: (between ++ [.clear, .script [(x, code, [])]]))).table,
      ∀ c ∈ f.calls, c.1 = x → c.2 ≠ none

/-- The operations that leave alone what was saved: they define only functions whose names were not there and add
members only to types that were not there. -/
def Quiet (names : List String) (nt : Nat) : Op → Prop
  | .script ds => ∀ d ∈ ds, d.1 ∉ names
  | .member t _ _ => nt ≤ t
  | .save => False
  | _ => True

/-! ### The counterexamples -/

/-- A function defined again is not restored. -/
theorem clear_restores_violated : ¬ ClearRestores := by
  intro h
  have := h [.script [("f", 1, [])]] [.script [("f", 2, [])]] (by decide)
  revert this; decide +kernel

/-- A member added to a saved type stays, and its function object is gone. -/
theorem clear_member_violated :
    view (run {} [.type "A", .save, .member 0 "f" 1, .clear]) = ⟨[], [("A", [none])]⟩ := by decide +kernel

/-- A saved function that calls `g`, defined after the state was saved: its call is left bound to a deleted symbol. -/
theorem clear_safe_violated : ¬ ClearSafe := by
  intro h
  have := (h [.script [("f", 1, ["g"])]] [.script [("g", 2, [])]] (by decide)).2.2 ⟨0, "f", 1, [("g", some 1)]⟩
    (by decide +kernel)
  exact this.2 ("g", some 1) (by simp) 1 rfl (by decide +kernel)

/-- A saved function with a call that is not bound yet is never linked again. -/
theorem clear_relinks_violated : ¬ ClearRelinks := by
  intro h
  have := h [.script [("f", 1, ["g"])]] [] "g" 2 (by decide) ⟨0, "f", 1, [("g", none)]⟩ (by decide +kernel)
    ("g", none) (by simp) rfl
  exact this rfl

/-! ### The invariant -/

structure WF (g : Eng) : Prop where
  ids : (g.table.map Fn.id).Nodup
  old : ∀ f ∈ g.table, f.id < g.fresh
  funs : ∀ i ∈ g.funs, ∃ f ∈ g.table, f.id = i
  mem : ∀ t ∈ g.types, ∀ i ∈ t.members, ∃ f ∈ g.table, f.id = i
  calls : ∀ f ∈ g.table, ∀ c ∈ f.calls, ∀ i, c.2 = some i → i ∈ g.funs

theorem byName_mem {g : Eng} {x : String} {i : Nat} (h : byName g x = some i) : i ∈ g.funs :=
  List.mem_of_find?_eq_some h

theorem link_wf {g : Eng} (h : WF g) : WF (link g) := by
  have hid : (link g).table.map Fn.id = g.table.map Fn.id := by
    simp only [link, List.map_map]
    apply List.map_congr_left
    intro f _
    simp only [Function.comp]
    split <;> rfl
  have hmem : ∀ i, (∃ f ∈ (link g).table, f.id = i) ↔ ∃ f ∈ g.table, f.id = i := by
    intro i
    have : i ∈ (link g).table.map Fn.id ↔ i ∈ g.table.map Fn.id := by rw [hid]
    simpa [List.mem_map] using this
  refine ⟨by rw [hid]; exact h.ids, ?_, fun i hi => (hmem i).mpr (h.funs i hi),
    fun t ht i hi => (hmem i).mpr (h.mem t ht i hi), ?_⟩
  · intro f hf
    obtain ⟨f0, hf0, e⟩ := (hmem f.id).mp ⟨f, hf, rfl⟩
    have := h.old f0 hf0
    rw [e] at this; exact this
  · intro f hf c hc i hi
    simp only [link, List.mem_map] at hf
    obtain ⟨f0, hf0, rfl⟩ := hf
    by_cases hp : g.pending.contains f0.id = true
    · simp only [hp, if_true, linkFn, List.mem_map] at hc
      obtain ⟨c0, hc0, rfl⟩ := hc
      obtain ⟨n, o⟩ := c0
      cases o with
      | some j =>
        cases Option.some.inj hi
        exact h.calls f0 hf0 _ hc0 _ rfl
      | none => exact byName_mem (g := g) hi
    · simp only [hp] at hc
      exact h.calls f0 hf0 c hc i hi

theorem define_wf {g : Eng} (h : WF g) (x : String) (code : Nat) (cs : List String) : WF (define g x code cs) := by
  unfold define
  cases hb : byName g x with
  | some i =>
    simp only
    have hid : (g.table.map (fun f => if f.id = i then { f with code := code, calls := cs.map (fun c => (c, none)) } else f)).map
        Fn.id = g.table.map Fn.id := by
      rw [List.map_map]
      apply List.map_congr_left
      intro f _
      simp only [Function.comp]
      split <;> rfl
    have hmem : ∀ j, (∃ f ∈ (g.table.map (fun f => if f.id = i then
        ({ f with code := code, calls := cs.map (fun c => (c, none)) } : Fn) else f)), f.id = j) ↔ ∃ f ∈ g.table, f.id = j := by
      intro j
      have : j ∈ (g.table.map (fun f => if f.id = i then
        ({ f with code := code, calls := cs.map (fun c => (c, none)) } : Fn) else f)).map Fn.id ↔ j ∈ g.table.map Fn.id := by
        rw [hid]
      rw [List.mem_map, List.mem_map] at this
      exact this
    refine ⟨by rw [hid]; exact h.ids, ?_, fun j hj => (hmem j).mpr (h.funs j hj),
      fun t ht j hj => (hmem j).mpr (h.mem t ht j hj), ?_⟩
    · intro f hf
      obtain ⟨f0, hf0, e⟩ := (hmem f.id).mp ⟨f, hf, rfl⟩
      have := h.old f0 hf0
      rw [e] at this; exact this
    · intro f hf c hc j hj
      simp only [List.mem_map] at hf
      obtain ⟨f0, hf0, rfl⟩ := hf
      by_cases he : f0.id = i
      · simp only [he, if_true, List.mem_map] at hc
        obtain ⟨c0, _, rfl⟩ := hc
        cases hj
      · simp only [he, if_false] at hc
        exact h.calls f0 hf0 c hc j hj
  | none =>
    simp only
    refine ⟨?_, ?_, ?_, ?_, ?_⟩
    · simp only [List.map_append, List.map_cons, List.map_nil]
      rw [List.nodup_append]
      refine ⟨h.ids, by simp, ?_⟩
      intro a ha b hb; rw [List.mem_singleton] at hb; subst hb
      rw [List.mem_map] at ha
      obtain ⟨f, hf, rfl⟩ := ha
      have := h.old f hf; omega
    · intro f hf
      simp only [List.mem_append, List.mem_singleton] at hf
      rcases hf with hf | rfl
      · have := h.old f hf; simp only; omega
      · simp only; omega
    · intro i hi
      simp only [List.mem_append, List.mem_singleton] at hi
      rcases hi with hi | rfl
      · obtain ⟨f, hf, e⟩ := h.funs i hi
        exact ⟨f, by simp [hf], e⟩
      · exact ⟨_, List.mem_append_right _ (List.mem_singleton.mpr rfl), rfl⟩
    · intro t ht i hi
      obtain ⟨f, hf, e⟩ := h.mem t ht i hi
      exact ⟨f, by simp [hf], e⟩
    · intro f hf c hc i hi
      simp only [List.mem_append, List.mem_singleton] at hf ⊢
      rcases hf with hf | rfl
      · exact Or.inl (h.calls f hf c hc i hi)
      · simp only [List.mem_map] at hc
        obtain ⟨c0, _, rfl⟩ := hc
        cases hi

theorem defines_wf : ∀ (ds : List (String × Nat × List String)) {g : Eng}, WF g →
    WF (ds.foldl (fun g d => define g d.1 d.2.1 d.2.2) g)
  | [], _, h => h
  | d :: ds, g, h => defines_wf ds (define_wf h d.1 d.2.1 d.2.2)

theorem step_wf {g : Eng} (h : WF g) (o : Op) (ho : o ≠ .clear) : WF (step g o) := by
  have happ : ∀ (f : Fn), f.id = g.fresh → f.calls = [] → ∀ (fu : List Nat) (ty : List Ty),
      (∀ i ∈ fu, i ∈ g.funs ∨ i = g.fresh) → (∀ i ∈ g.funs, i ∈ fu) →
      (∀ t ∈ ty, ∀ i ∈ t.members, (∃ f ∈ g.table, f.id = i) ∨ i = g.fresh) →
      WF { g with table := g.table ++ [f], funs := fu, types := ty, fresh := g.fresh + 1 } := by
    intro f hf hfc fu ty hfu hfu' hty
    refine ⟨?_, ?_, ?_, ?_, ?_⟩
    · simp only [List.map_append, List.map_cons, List.map_nil]
      rw [List.nodup_append]
      refine ⟨h.ids, by simp, ?_⟩
      intro a ha b hb; rw [List.mem_singleton] at hb; subst hb
      rw [List.mem_map] at ha
      obtain ⟨f', hf', rfl⟩ := ha
      have := h.old f' hf'; omega
    · intro f' hf'
      simp only [List.mem_append, List.mem_singleton] at hf'
      rcases hf' with hf' | rfl
      · have := h.old f' hf'; simp only; omega
      · simp only; omega
    · intro i hi
      rcases hfu i hi with hi | hi
      · obtain ⟨f', hf', e⟩ := h.funs i hi
        exact ⟨f', by simp [hf'], e⟩
      · exact ⟨f, by simp, by rw [hf, hi]⟩
    · intro t ht i hi
      rcases hty t ht i hi with ⟨f', hf', e⟩ | e
      · exact ⟨f', by simp [hf'], e⟩
      · exact ⟨f, by simp, by rw [hf, e]⟩
    · intro f' hf' c hc i hi
      simp only [List.mem_append, List.mem_singleton] at hf' ⊢
      rcases hf' with hf' | rfl
      · exact hfu' _ (h.calls f' hf' c hc i hi)
      · rw [hfc] at hc; cases hc
  cases o with
  | script ds => exact link_wf (defines_wf ds h)
  | native x c =>
    exact happ _ rfl rfl _ _ (by intro i hi; simpa using hi) (by intro i hi; simp [hi]) (fun t ht i hi => Or.inl (h.mem t ht i hi))
  | type x =>
    refine ⟨h.ids, h.old, h.funs, ?_, h.calls⟩
    intro t ht i hi
    simp only [step, List.mem_append, List.mem_singleton] at ht
    rcases ht with ht | rfl
    · exact h.mem t ht i hi
    · cases hi
  | member t f c =>
    refine happ _ rfl rfl _ _ (fun i hi => Or.inl hi) (fun i hi => hi) ?_
    intro y hy i hi
    obtain ⟨j, hj⟩ := List.getElem?_of_mem hy
    rw [List.getElem?_modify] at hj
    cases hg : g.types[j]? with
    | none => rw [hg] at hj; simp at hj
    | some y0 =>
      rw [hg] at hj
      have hm := h.mem y0 (List.mem_of_getElem? hg)
      have hj := Option.some.inj hj
      by_cases he : t = j
      · simp only [he, if_true] at hj
        subst hj
        simp only [List.mem_append, List.mem_singleton] at hi
        rcases hi with hi | hi
        · exact Or.inl (hm i hi)
        · exact Or.inr hi
      · simp only [he, if_false] at hj
        subst hj
        exact Or.inl (hm i hi)
  | save => exact ⟨h.ids, h.old, h.funs, h.mem, h.calls⟩
  | clear => exact absurd rfl ho

/-- Relative to the tables `s` of the saved state. -/
structure Over (s g : Eng) : Prop where
  wf : WF g
  table : s.table <+: g.table
  funs : s.funs <+: g.funs
  types : s.types <+: g.types
  ck : g.ckTable = s.table.length ∧ g.ckFuns = s.funs.length ∧ g.ckTypes = s.types.length
  dead : ∀ i ∈ g.dead, i < g.fresh ∧ ∀ f ∈ g.table, f.id ≠ i

/-- Every call of a saved function is bound. -/
def Linked (s : Eng) : Prop := ∀ f ∈ s.table, ∀ c ∈ f.calls, c.2 ≠ none

def names (s : Eng) : List String := s.table.map Fn.name

theorem linkFn_id {g : Eng} {f : Fn} (h : ∀ c ∈ f.calls, c.2 ≠ none) : linkFn g f = f := by
  have : f.calls.map (bindCall g) = f.calls := by
    conv => rhs; rw [show f.calls = f.calls.map id by simp]
    apply List.map_congr_left
    rintro ⟨a, b⟩ hc
    cases b with
    | none => exact absurd rfl (h _ hc)
    | some i => rfl
  unfold linkFn; rw [this]

theorem link_over {s g : Eng} (h : Over s g) (hl : Linked s) : Over s (link g) := by
  refine ⟨link_wf h.wf, ?_, h.funs, h.types, h.ck, ?_⟩
  · obtain ⟨tl, htl⟩ := h.table
    refine ⟨tl.map (fun f => if g.pending.contains f.id then linkFn g f else f), ?_⟩
    simp only [link]
    conv => rhs; rw [← htl]
    rw [List.map_append]
    congr 1
    rw [show s.table = s.table.map id by simp]
    simp only [List.map_map]
    apply List.map_congr_left
    intro f hf
    simp only [Function.comp, id]
    rw [linkFn_id (hl f hf)]
    split <;> rfl
  · intro i hi
    refine ⟨(h.dead i hi).1, ?_⟩
    intro f hf
    simp only [link, List.mem_map] at hf
    obtain ⟨f0, hf0, rfl⟩ := hf
    have := (h.dead i hi).2 f0 hf0
    split <;> exact this

theorem find_spec {g : Eng} (h : WF g) {f : Fn} (hf : f ∈ g.table) : find g f.id = some f := by
  unfold find
  cases hx : g.table.find? (fun f' => f'.id == f.id) with
  | none =>
    simp only [List.find?_eq_none, beq_iff_eq] at hx
    exact absurd rfl (hx f hf)
  | some f' =>
    have h1 := List.mem_of_find?_eq_some hx
    have h2 := List.find?_some hx
    simp only [beq_iff_eq] at h2
    have key : ∀ (l : List Fn), (l.map Fn.id).Nodup → ∀ a ∈ l, ∀ b ∈ l, a.id = b.id → a = b := by
      intro l
      induction l with
      | nil => intro _ a ha; cases ha
      | cons c l ih =>
        intro hn a ha b hb e
        simp only [List.map_cons, List.nodup_cons, List.mem_map, not_exists, not_and] at hn
        rcases List.mem_cons.mp ha with ha' | ha' <;> rcases List.mem_cons.mp hb with hb' | hb'
        · rw [ha', hb']
        · subst ha'; exact absurd e.symm (hn.1 _ hb')
        · subst hb'; exact absurd e (hn.1 _ ha')
        · exact ih hn.2 a ha' b hb' e
    rw [key g.table h.ids f' h1 f hf h2]

theorem define_over {s g : Eng} (h : Over s g) {x : String} (hx : x ∉ names s) (code : Nat) (cs : List String) :
    Over s (define g x code cs) := by
  have hw := define_wf h.wf x code cs
  unfold define at hw ⊢
  cases hb : byName g x with
  | some i =>
    rw [hb] at hw
    simp only at hw ⊢
    refine ⟨hw, ?_, h.funs, h.types, h.ck, ?_⟩
    · obtain ⟨tl, htl⟩ := h.table
      refine ⟨tl.map (fun f => if f.id = i then { f with code := code, calls := cs.map (fun c => (c, none)) } else f), ?_⟩
      simp only
      conv => rhs; rw [← htl]
      rw [List.map_append]
      congr 1
      rw [show s.table = s.table.map id by simp]
      simp only [List.map_map]
      apply List.map_congr_left
      intro f hf
      simp only [Function.comp, id]
      have hne : f.id ≠ i := by
        intro e
        have hfm : f ∈ g.table := by rw [← htl]; simp [hf]
        have h2 := List.find?_some hb
        rw [← e, find_spec h.wf hfm] at h2
        simp only [beq_iff_eq] at h2
        exact hx (List.mem_map.mpr ⟨f, hf, h2⟩)
      rw [if_neg hne]
    · intro j hj
      refine ⟨(h.dead j hj).1, ?_⟩
      intro f hf
      simp only [List.mem_map] at hf
      obtain ⟨f0, hf0, rfl⟩ := hf
      have := (h.dead j hj).2 f0 hf0
      split <;> exact this
  | none =>
    rw [hb] at hw
    simp only at hw ⊢
    refine ⟨hw, h.table.trans (List.prefix_append _ _), h.funs.trans (List.prefix_append _ _), h.types, h.ck, ?_⟩
    intro j hj
    have := h.dead j hj
    refine ⟨by simp only; omega, ?_⟩
    intro f hf
    simp only [List.mem_append, List.mem_singleton] at hf
    rcases hf with hf | rfl
    · exact this.2 f hf
    · simp only; omega

theorem defines_over {s : Eng} : ∀ (ds : List (String × Nat × List String)) {g : Eng}, Over s g →
    (∀ d ∈ ds, d.1 ∉ names s) → Over s (ds.foldl (fun g d => define g d.1 d.2.1 d.2.2) g)
  | [], _, h, _ => h
  | d :: ds, _, h, hq => defines_over ds (define_over h (hq d (by simp)) d.2.1 d.2.2) (fun d' hd' => hq d' (by simp [hd']))

theorem step_over {s g : Eng} (h : Over s g) (hs : WF s) (hl : Linked s) (o : Op) (hq : Quiet (names s) s.types.length o) :
    Over s (step g o) := by
  cases o with
  | script ds => exact link_over (defines_over ds h hq) hl
  | native x c =>
    refine ⟨step_wf h.wf (.native x c) (by simp), h.table.trans (List.prefix_append _ _),
      h.funs.trans (List.prefix_append _ _), h.types, h.ck, ?_⟩
    intro j hj
    have := h.dead j hj
    refine ⟨by simp only [step]; omega, ?_⟩
    intro f hf
    simp only [step, List.mem_append, List.mem_singleton] at hf
    rcases hf with hf | rfl
    · exact this.2 f hf
    · simp only; omega
  | type x =>
    exact ⟨step_wf h.wf (.type x) (by simp), h.table, h.funs, h.types.trans (List.prefix_append _ _), h.ck, h.dead⟩
  | member t f c =>
    refine ⟨step_wf h.wf (.member t f c) (by simp), h.table.trans (List.prefix_append _ _), h.funs, ?_, h.ck, ?_⟩
    · obtain ⟨tl, htl⟩ := h.types
      have hq' : s.types.length ≤ t := hq
      refine ⟨tl.modify (t - s.types.length) (fun y => { y with members := y.members ++ [g.fresh] }), ?_⟩
      simp only [step]
      apply List.ext_getElem?
      intro j
      rw [List.getElem?_modify, ← htl]
      by_cases hj : j < s.types.length
      · rw [List.getElem?_append_left hj, List.getElem?_append_left hj]
        have hne : t ≠ j := by omega
        simp only [hne, if_false]
        cases s.types[j]? <;> rfl
      · rw [List.getElem?_append_right (by omega), List.getElem?_append_right (by omega), List.getElem?_modify]
        by_cases he : t = j
        · simp [he]
        · have he' : ¬ t - s.types.length = j - s.types.length := by omega
          simp only [he, he', if_false]
    · intro j hj
      have := h.dead j hj
      refine ⟨by simp only [step]; omega, ?_⟩
      intro f' hf
      simp only [step, List.mem_append, List.mem_singleton] at hf
      rcases hf with hf | rfl
      · exact this.2 f' hf
      · simp only; omega
  | save => exact hq.elim
  | clear =>
    have e1 : g.table.take g.ckTable = s.table := by rw [h.ck.1]; exact (List.prefix_iff_eq_take.mp h.table).symm
    have e2 : g.funs.take g.ckFuns = s.funs := by rw [h.ck.2.1]; exact (List.prefix_iff_eq_take.mp h.funs).symm
    have e3 : g.types.take g.ckTypes = s.types := by rw [h.ck.2.2]; exact (List.prefix_iff_eq_take.mp h.types).symm
    have hsub : ∀ f ∈ s.table, f ∈ g.table := fun f hf => h.table.subset hf
    simp only [step, e1, e2, e3]
    refine ⟨⟨hs.ids, fun f hf => h.wf.old f (hsub f hf), hs.funs, hs.mem, hs.calls⟩, List.prefix_refl _,
      List.prefix_refl _, List.prefix_refl _, h.ck, ?_⟩
    intro j hj
    rcases List.mem_append.mp hj with hj | hj
    · exact ⟨(h.dead j hj).1, fun f hf => (h.dead j hj).2 f (hsub f hf)⟩
    · rw [List.mem_map] at hj
      obtain ⟨f, hf, rfl⟩ := hj
      refine ⟨h.wf.old f (List.mem_of_mem_drop hf), ?_⟩
      intro f' hf' e
      have hn := h.wf.ids
      rw [← List.take_append_drop g.ckTable g.table, List.map_append, List.nodup_append] at hn
      refine hn.2.2 f'.id ?_ f.id (List.mem_map.mpr ⟨f, hf, rfl⟩) e
      rw [e1]; exact List.mem_map.mpr ⟨f', hf', rfl⟩

theorem run_wf : ∀ (os : List Op) {g : Eng}, WF g → .clear ∉ os → WF (run g os)
  | [], _, h, _ => h
  | o :: os, _, h, hc => run_wf os (step_wf h o (by rintro rfl; simp at hc)) (by intro hm; exact hc (by simp [hm]))

theorem init_wf : WF {} := ⟨by simp, by simp, by simp, by simp, by simp⟩

theorem dead_nil : ∀ (os : List Op) {g : Eng}, g.dead = [] → .clear ∉ os → (run g os).dead = []
  | [], _, h, _ => h
  | o :: os, g, h, hc => by
    refine dead_nil os ?_ (by intro hm; exact hc (by simp [hm]))
    cases o with
    | clear => simp at hc
    | script ds =>
      have : ∀ (ds : List (String × Nat × List String)) (g : Eng), g.dead = [] →
          (ds.foldl (fun g d => define g d.1 d.2.1 d.2.2) g).dead = [] := by
        intro ds
        induction ds with
        | nil => intro g h; exact h
        | cons d ds ih =>
          intro g h
          refine ih _ ?_
          unfold define
          simp only
          split <;> exact h
      exact this ds g h
    | native x c => exact h
    | type x => exact h
    | member t f c => exact h
    | save => exact h

/-! ### The theorem -/

/-- C45. The state is saved when every call in it is bound; then anything is registered, any number of times cleared,
without touching the saved functions and types; then `clear()`: the tables are those of the saved state, entry by entry,
and nothing in them refers to anything deleted. -/
theorem clear_restores_partial (before between : List Op) (hb : .clear ∉ before)
    (hl : Linked (run {} before))
    (hq : ∀ o ∈ between, Quiet (names (run {} before)) (run {} before).types.length o) :
    let s := run {} before
    let g := run {} (before ++ .save :: (between ++ [.clear]))
    view g = view s ∧ g.table = s.table ∧ g.funs = s.funs ∧ g.types = s.types ∧ NoDangling g := by
  intro s g
  have hs : WF s := run_wf before init_wf hb
  have h0 : Over s (step s .save) :=
    ⟨step_wf hs .save (by simp), List.prefix_refl _, List.prefix_refl _, List.prefix_refl _, ⟨rfl, rfl, rfl⟩, by
      intro i hi
      have : s.dead = [] := dead_nil before rfl hb
      simp only [step, this] at hi; cases hi⟩
  have h1 : Over s (run (step s .save) between) := by
    have : ∀ (os : List Op) (x : Eng), Over s x → (∀ o ∈ os, Quiet (names s) s.types.length o) → Over s (run x os) := by
      intro os
      induction os with
      | nil => intro x h _; exact h
      | cons o os ih =>
        intro x h hq
        exact ih _ (step_over h hs hl o (hq o (by simp))) (fun o' ho' => hq o' (by simp [ho']))
    exact this between _ h0 hq
  have hg : g = step (run (step s .save) between) .clear := by
    simp [g, s, run, List.foldl_append]
  have h2 : Over s g := by rw [hg]; exact step_over h1 hs hl .clear trivial
  have e1 : g.table = s.table := by
    rw [hg]
    show (run (step s .save) between).table.take (run (step s .save) between).ckTable = _
    rw [h1.ck.1]; exact (List.prefix_iff_eq_take.mp h1.table).symm
  have e2 : g.funs = s.funs := by
    rw [hg]
    show (run (step s .save) between).funs.take (run (step s .save) between).ckFuns = _
    rw [h1.ck.2.1]; exact (List.prefix_iff_eq_take.mp h1.funs).symm
  have e3 : g.types = s.types := by
    rw [hg]
    show (run (step s .save) between).types.take (run (step s .save) between).ckTypes = _
    rw [h1.ck.2.2]; exact (List.prefix_iff_eq_take.mp h1.types).symm
  have hlook : look g = look s := by
    funext i; unfold look find; rw [e1]
  have hlive : ∀ i, (∃ f ∈ s.table, f.id = i) → i ∉ g.dead := by
    rintro _ ⟨f, hf, rfl⟩ hd
    exact (h2.dead _ hd).2 f (by rw [e1]; exact hf) rfl
  refine ⟨?_, e1, e2, e3, ?_, ?_, ?_⟩
  · unfold view; rw [hlook, e2, e3]
  · intro i hi; rw [e2] at hi; exact hlive i (hs.funs i hi)
  · intro t ht i hi; rw [e3] at ht; exact hlive i (hs.mem t ht i hi)
  · intro f hf
    rw [e1] at hf
    refine ⟨hlive _ ⟨f, hf, rfl⟩, ?_⟩
    intro c hc i hi
    exact hlive i (hs.funs i (hs.calls f hf c hc i hi))

/-! ### The hypotheses are met -/

def sampleBefore : List Op := [.type "A", .member 0 "m" 1, .native "print" 2, .script [("f", 3, ["g", "print"]), ("g", 4, [])]]
def sampleBetween : List Op :=
  [.script [("h", 5, ["f", "nobody"])], .type "B", .member 1 "n" 6, .clear, .native "h" 7, .script [("k", 8, ["k"])]]

example : .clear ∉ sampleBefore ∧ Linked (run {} sampleBefore) ∧
    ∀ o ∈ sampleBetween, Quiet (names (run {} sampleBefore)) (run {} sampleBefore).types.length o := by
  refine ⟨by decide, ?_, ?_⟩
  · unfold Linked; decide +kernel
  · intro o ho
    simp only [sampleBetween, List.mem_cons, List.not_mem_nil, or_false] at ho
    rcases ho with rfl | rfl | rfl | rfl | rfl | rfl
    · show ∀ d ∈ _, _; decide +kernel
    · trivial
    · show _ ≤ _; decide +kernel
    · trivial
    · trivial
    · show ∀ d ∈ _, _; decide +kernel

/-- The registrations in between do change what the user sees. -/
example : view (run {} (sampleBefore ++ .save :: sampleBetween)) ≠ view (run {} sampleBefore) := by decide +kernel

end Verif.Core.Checkpoint
