import Verif.Core.ScopeLemmas
/-
Every step of the compiler's scope handling keeps the relation with the specification's open scopes, and
goes on exactly when the specification says so.
-/
namespace Verif.Core.Scope
open Spec

/-! ### updating the symbols of a scope on the stack -/

theorem FrAll_set {a : Arena} {s : Nat} {g : Scope → Scope} {f f' : Frame} (hg : ∀ sc, a[s]? = some sc → Fr sc f → Fr (g sc) f') :
    ∀ (pre post : List Nat) (fpre fpost : List Frame), pre.length = fpre.length → s ∉ pre → s ∉ post →
      FrAll a (pre ++ s :: post) (fpre ++ f :: fpost) →
      FrAll (a.modify s g) (pre ++ s :: post) (fpre ++ f' :: fpost)
  | [], post, [], fpost, _, _, h2, ⟨⟨sc, h3, h4⟩, h5⟩ => by
    refine ⟨⟨g sc, by simp [get_mod, h3], hg sc h3 h4⟩, ?_⟩
    have : ∀ (t : List Nat) (ft : List Frame), s ∉ t → FrAll a t ft → FrAll (a.modify s g) t ft := by
      intro t
      induction t with
      | nil => intro ft _ h; cases ft with | nil => trivial | cons _ _ => exact h.elim
      | cons m t ih =>
        intro ft hm h
        cases ft with
        | nil => exact h.elim
        | cons w ft =>
          simp only [List.mem_cons, not_or] at hm
          obtain ⟨⟨sc, k1, k2⟩, k3⟩ := h
          exact ⟨⟨sc, by simp [get_mod, k1, hm.1], k2⟩, ih ft hm.2 k3⟩
    exact this post fpost h2 h5
  | m :: pre, post, w :: fpre, fpost, hl, h1, h2, ⟨⟨sc, h3, h4⟩, h5⟩ => by
    simp only [List.mem_cons, not_or] at h1
    exact ⟨⟨sc, by simp [get_mod, h3, h1.1], h4⟩, FrAll_set hg pre post fpre fpost (by simpa using hl) h1.2 h2 h5⟩

theorem edge_mod {a : Arena} {s : Nat} {g : Scope → Scope}
    (hg : ∀ sc, (g sc).fid = sc.fid ∧ (g sc).children = sc.children) (m c : Nat) :
    edge a m c ↔ edge (a.modify s g) m c := by
  unfold edge
  simp only [get_mod]
  constructor
  · rintro ⟨mc, cc, h1, h2, h3, h4⟩
    refine ⟨if s = m then g mc else mc, if s = c then g cc else cc, by simp [h1], by simp [h2], ?_, ?_⟩
    · by_cases h : s = m
      · rw [if_pos h, (hg mc).2]; exact h3
      · rw [if_neg h]; exact h3
    · have e1 : (if s = m then g mc else mc).fid = mc.fid := by split; exact (hg _).1; rfl
      have e2 : (if s = c then g cc else cc).fid = cc.fid := by split; exact (hg _).1; rfl
      rw [e1, e2, h4]
  · rintro ⟨mc, cc, h1, h2, h3, h4⟩
    simp only [Option.map_eq_some_iff] at h1 h2
    obtain ⟨mc0, k1, rfl⟩ := h1
    obtain ⟨cc0, k2, rfl⟩ := h2
    refine ⟨mc0, cc0, k1, k2, ?_, ?_⟩
    · by_cases h : s = m
      · rw [if_pos h, (hg mc0).2] at h3; exact h3
      · rw [if_neg h] at h3; exact h3
    · have e1 : (if s = m then g mc0 else mc0).fid = mc0.fid := by split; exact (hg _).1; rfl
      have e2 : (if s = c then g cc0 else cc0).fid = cc0.fid := by split; exact (hg _).1; rfl
      rw [← e1, ← e2, h4]

/-- Everything that must hold of an update of the symbols of one scope. -/
structure SymUpd (sc sc' : Scope) (nf' : Nat) : Prop where
  fid : sc'.fid = sc.fid
  parent : sc'.parent = sc.parent
  block : sc'.isBlock = sc.isBlock
  children : sc'.children = sc.children
  unused : sc'.unused = sc.unused
  nodup : (names sc').Nodup
  funs : ∀ y ∈ sc'.funs, sc.fid < y.fid ∧ y.fid < nf'

theorem sym_upd {a : Arena} {nf nf' : Nat} (hnf : nf ≤ nf') (w : WF a nf) {ss : List Nat} {fs : List Frame} (h : Al a ss fs)
    (hc : ClOk a none ss fs) {pre post : List Nat} {s : Nat} {fpre fpost : List Frame} {f f' : Frame}
    (e1 : ss = pre ++ s :: post) (e2 : fs = fpre ++ f :: fpost) (hl : pre.length = fpre.length)
    (hf' : f'.isFun = f.isFun ∧ f'.gone = f.gone) {g : Scope → Scope} {sc : Scope} (hs : a[s]? = some sc)
    (hg : ∀ sc, (g sc).fid = sc.fid ∧ (g sc).children = sc.children)
    (hu : SymUpd sc (g sc) nf') (hfr : Fr sc f → Fr (g sc) f') :
    WF (a.modify s g) nf' ∧ Al (a.modify s g) ss (fpre ++ f' :: fpost) ∧
      ClOk (a.modify s g) none ss (fpre ++ f' :: fpost) := by
  have hnd := h.nodup
  have hsm : s ∈ ss := by simp [e1]
  refine ⟨?_, ?_, ?_⟩
  · -- WF
    have get : ∀ (i : Nat) (b : Scope), (a.modify s g)[i]? = some b →
        (i = s ∧ b = g sc) ∨ (i ≠ s ∧ a[i]? = some b) := by
      intro i b hb
      rw [get_mod] at hb
      by_cases hi : s = i
      · subst hi; rw [hs] at hb; simp at hb; exact Or.inl ⟨rfl, hb.symm⟩
      · simp only [hi, if_false, Option.map_id'] at hb
        exact Or.inr ⟨fun h => hi h.symm, hb⟩
    have kid : ∀ (i : Nat) (c : Nat), (∃ cc, a[c]? = some cc ∧ cc.parent = some i ∧ i < c) →
        ∃ cc, (a.modify s g)[c]? = some cc ∧ cc.parent = some i ∧ i < c := by
      rintro i c ⟨cc, k1, k2, k3⟩
      by_cases hi : s = c
      · subst hi; rw [hs] at k1; cases Option.some.inj k1
        exact ⟨g sc, by simp [get_mod, hs], hu.parent.trans k2, k3⟩
      · exact ⟨cc, by simp [get_mod, k1, hi], k2, k3⟩
    constructor
    · intro i b hb c hcm
      rcases get i b hb with ⟨rfl, rfl⟩ | ⟨_, hb⟩
      · rw [hu.children] at hcm; exact kid _ c (w.kids _ sc hs c hcm)
      · exact kid i c (w.kids i b hb c hcm)
    · intro i b hb
      rcases get i b hb with ⟨rfl, rfl⟩ | ⟨_, hb⟩
      · exact hu.nodup
      · exact w.nodup i b hb
    · intro i b hb
      rcases get i b hb with ⟨rfl, rfl⟩ | ⟨_, hb⟩
      · rw [hu.fid]; have := w.fid _ sc hs; omega
      · have := w.fid i b hb; omega
    · intro i b hb y hy
      rcases get i b hb with ⟨rfl, rfl⟩ | ⟨_, hb⟩
      · rw [hu.fid]; exact hu.funs y hy
      · have := w.funs i b hb y hy; omega
    · intro i b hb hun
      rcases get i b hb with ⟨rfl, rfl⟩ | ⟨_, hb⟩
      · obtain ⟨sc0, k1, k2⟩ := h.mem _ hsm
        rw [hs] at k1; cases Option.some.inj k1
        rw [hu.unused, k2] at hun; cases hun
      · exact w.unused i b hb hun
  · refine Al_upd h ?_ ?_ ?_
    · intro m hm b hb
      by_cases hi : s = m
      · subst hi; rw [hs] at hb; cases Option.some.inj hb
        exact ⟨g sc, by simp [get_mod, hs], hu.fid, hu.parent, hu.block, hu.unused, by rw [hu.children]; exact fun _ h => h⟩
      · exact ⟨b, by simp [get_mod, hb, hi], rfl, rfl, rfl, rfl, fun _ h => h⟩
    · subst e1 e2
      rw [List.nodup_append] at hnd
      refine FrAll_set ?_ pre post fpre fpost hl ?_ ?_ h.frAll
      · intro sc' hs' hf
        rw [hs] at hs'; cases Option.some.inj hs'
        exact hfr hf
      · exact fun hx => hnd.2.2 s hx s (by simp) rfl
      · exact (List.nodup_cons.mp hnd.2.1).1
    · simp [e2, hf'.1]
  · refine ClOk_congr w h ?_ ?_ ss [] none fs _ rfl rfl ?_ ?_ hc
    · exact fun m _ y => edge_mod hg m y
    · intro y hy x k
      have hne : s ≠ y := fun hx => hy (hx ▸ hsm)
      unfold At
      simp [get_mod, hne]
    · exact fun m _ y => edge_mod hg m y
    · simp [e2, hf'.2]

/-! ### names and membership after an update -/

theorem names_append_var (sc : Scope) (y : Sym) :
    (names { sc with vars := sc.vars ++ [y] }).Perm (y.name :: names sc) := by
  unfold names symsOf
  simp only [List.map_append, List.map_map, List.map_cons, List.map_nil]
  have : ∀ (A B C : List String) (z : String), (A ++ (B ++ [z]) ++ C).Perm (z :: (A ++ B ++ C)) := by
    intro A B C z
    have : A ++ (B ++ [z]) ++ C = (A ++ B) ++ z :: C := by simp
    rw [this]
    exact List.perm_middle
  exact this _ _ _ _

theorem names_append_fn (sc : Scope) (y : Sym) :
    (names { sc with funs := sc.funs ++ [y] }).Perm (y.name :: names sc) := by
  unfold names symsOf
  simp only [List.map_append, List.map_map, List.map_cons, List.map_nil]
  have : ∀ (A C : List String) (z : String), (A ++ (C ++ [z])).Perm (z :: (A ++ C)) := by
    intro A C z
    have : A ++ (C ++ [z]) = (A ++ C) ++ z :: [] := by simp
    rw [this]
    exact List.perm_middle.trans (by simp)
  exact this _ _ _

theorem names_append_type (sc : Scope) (y : Sym) :
    (names { sc with types := sc.types ++ [y] }).Perm (y.name :: names sc) := by
  unfold names symsOf
  simp only [List.map_append, List.map_map, List.map_cons, List.map_nil]
  have : ∀ (A B C : List String) (z : String), (A ++ [z] ++ B ++ C).Perm (z :: (A ++ B ++ C)) := by
    intro A B C z
    have : A ++ [z] ++ B ++ C = A ++ z :: (B ++ C) := by simp
    rw [this, List.append_assoc]
    exact List.perm_middle
  exact this _ _ _ _

theorem not_mem_names {sc : Scope} {x : String} (h : ∀ d ∈ symsOf sc, d.name ≠ x) : x ∉ names sc := by
  unfold names
  simp only [List.mem_map, not_exists, not_and]
  exact h

/-! ### variables -/

theorem addVar_ok {st : St} {fs : List Frame} {n : Nat} (h : R st fs n) {s : Nat} {t : List Nat} {f : Frame} {r : List Frame}
    (e1 : st.stack = s :: t) (e2 : fs = f :: r) {x : String} (hx : f.find x = none) (d : Nat) :
    let a' := st.arena.modify s (fun sc => { sc with vars := sc.vars ++ [{ name := x, decl := d }] })
    let fs' := { f with decls := f.decls ++ [⟨x, .var, d⟩] } :: r
    WF a' st.nfun ∧ Al a' st.stack fs' ∧ ClOk a' none st.stack fs' := by
  intro a' fs'
  obtain ⟨s0, t0, f0, r0, sc, k1, k2, hs, hu, hfr, hb⟩ := h.al.top
  rw [e1] at k1; cases k1
  rw [e2] at k2; cases k2
  have hno : ∀ d ∈ symsOf sc, d.name ≠ x := by
    intro d hd hn
    unfold Frame.find at hx
    simp only [List.find?_eq_none, beq_iff_eq] at hx
    exact hx d ((hfr d).mp hd) hn
  refine sym_upd (f' := { f with decls := f.decls ++ [⟨x, .var, d⟩] })
    (g := fun sc => { sc with vars := sc.vars ++ [{ name := x, decl := d }] })
    (Nat.le_refl _) h.wf h.al h.cl (pre := []) (fpre := []) (f := f) e1 e2 rfl ⟨rfl, rfl⟩ hs
    (fun _ => ⟨rfl, rfl⟩) ⟨rfl, rfl, rfl, rfl, rfl, ?_, ?_⟩ ?_
  · rw [(names_append_var sc _).nodup_iff, List.nodup_cons]
    exact ⟨not_mem_names hno, h.wf.nodup _ _ hs⟩
  · exact fun y hy => h.wf.funs s sc hs y hy
  · intro hf d'
    have := hf d'
    simp only [mem_symsOf, List.mem_append, List.mem_singleton] at this ⊢
    rw [← this]
    constructor
    · rintro (k | ⟨y, hy | hy, e⟩ | k)
      · exact Or.inl (Or.inl k)
      · exact Or.inl (Or.inr (Or.inl ⟨y, hy, e⟩))
      · subst hy; exact Or.inr e
      · exact Or.inl (Or.inr (Or.inr k))
    · rintro ((k | ⟨y, hy, e⟩ | k) | k)
      · exact Or.inl k
      · exact Or.inr (Or.inl ⟨y, Or.inl hy, e⟩)
      · exact Or.inr (Or.inr k)
      · exact Or.inr (Or.inl ⟨_, Or.inr rfl, k⟩)

/-- A new name is free exactly when the model finds neither a type nor a clash. -/
theorem free_iff {st : St} {fs : List Frame} {n : Nat} (h : R st fs n) {s : Nat} {t : List Nat} {f : Frame} {r : List Frame}
    (e1 : st.stack = s :: t) (e2 : fs = f :: r) (x : String) (q : Option Nat)
    (hq : lookup fs x = none ∨ q = none) :
    (isType st.arena x = false ∧ upDown st.arena s x q = none) ↔ free fs x q := by
  have ha := h.al
  have hcl := h.cl
  rw [e1, e2] at ha hcl
  have hty := isType_iff h.wf h.al x
  have hdl : ∀ k, s < k → ((down st.arena x none k s = none) ↔ lookup fs x = none) := by
    intro k hk
    have := down_lookup h.wf x (s := s) (t := t) k h.al e1 hk
    cases h1 : down st.arena x none k s <;> cases h2 : lookup fs x <;> rw [h1, h2] at this <;> simp at this ⊢
  have hlt := ha.lt (s := s) (by simp)
  unfold free
  rw [← hty]
  cases hf : f.isFun with
  | true =>
    rw [upDown_root (ss := []) (fs := []) h.wf ha hcl hf]
    have hlk : lookup fs x = none ↔ f.find x = none := by
      rw [e2, lookup]
      cases f.find x <;> simp [hf]
    have hfind : f.find x = none ↔ ∀ d ∈ f.decls, d.name ≠ x := by
      simp [Frame.find, List.find?_eq_none]
    constructor
    · rintro ⟨h1, h2, h3⟩
      refine ⟨by simp [h1], ?_, ?_⟩
      · rcases hq with h | rfl
        · exact h
        · rw [hlk, hfind]
          exact fun d hd hn => h2 d hd hn (clash_none _)
      · intro f' r' e hff k hk
        rw [e2] at e; cases e
        exact h3 k hk
    · rintro ⟨h1, h2, h3⟩
      refine ⟨by simpa using h1, ?_, fun k hk => h3 f r e2 hf k hk⟩
      intro d hd hn
      rw [hlk, hfind] at h2
      exact absurd hn (h2 d hd)
  | false =>
    rw [upDown_block (ss := []) ha hf]
    constructor
    · rintro ⟨h1, h2⟩
      refine ⟨by simp [h1], ?_, ?_⟩
      · rcases hq with h | rfl
        · exact h
        · exact (hdl _ (by omega)).mp h2
      · intro f' r' e hff
        rw [e2] at e; cases e
        rw [hf] at hff; cases hff
    · rintro ⟨h1, h2, _⟩
      exact ⟨by simpa using h1, down_mono _ _ _ _ _ ((hdl _ (by omega)).mpr h2)⟩

theorem lookup_find {f : Frame} {r : List Frame} {x : String} (h : lookup (f :: r) x = none) : f.find x = none := by
  rw [lookup] at h
  cases hf : f.find x with
  | none => rfl
  | some d => rw [hf] at h; simp at h

/-- What a step has to satisfy. -/
def StepOk (st : St) (fs : List Frame) (n : Nat) (e : Ev) : Prop :=
  (step st e = .ub ↔ Undefined fs e) ∧ ((∃ st', step st e = .ok st') ↔ Accepts fs e) ∧
    ∀ st', step st e = .ok st' → R st' (next fs n e).1 (next fs n e).2

theorem R.stack {st : St} {fs : List Frame} {n : Nat} (h : R st fs n) :
    ∃ s t f r sc, st.stack = s :: t ∧ fs = f :: r ∧ st.arena[s]? = some sc ∧ sc.unused = false ∧ Fr sc f ∧
      sc.isBlock = !f.isFun := by
  obtain ⟨s, t, f, r, sc, h1, h2, h3, h4, h5, h6⟩ := h.al.top
  exact ⟨s, t, f, r, sc, h1, h2, h3, h4, h5, h6⟩

theorem step_var {st : St} {fs : List Frame} {n : Nat} (h : R st fs n) (x : String) : StepOk st fs n (.var x) := by
  obtain ⟨s, t, f, r, sc, e1, e2, hs, _⟩ := h.stack
  have hfree := free_iff h e1 e2 x none (Or.inr rfl)
  have hst : step st (.var x) =
      if isType st.arena x then .err
      else if (upDown st.arena s x none).isSome then .err
      else .ok { st with
        arena := st.arena.modify s (fun sc => { sc with vars := sc.vars ++ [{ name := x, decl := st.ndecl }] }),
        ndecl := st.ndecl + 1 } := by
    unfold step addVar
    rw [e1]
    simp only
    by_cases h1 : isType st.arena x = true
    · simp [h1]
    · by_cases h2 : (upDown st.arena s x none).isSome = true
      · simp [h1, h2]
      · simp [h1, h2]
  unfold StepOk
  rw [hst]
  by_cases h1 : isType st.arena x = true
  · rw [if_pos h1]
    refine ⟨by simp [Undefined], ⟨fun h => (by obtain ⟨_, h⟩ := h; cases h), fun ha => ?_⟩, fun _ h => by cases h⟩
    have := hfree.mpr ha
    rw [h1] at this; cases this.1
  · rw [if_neg h1]
    by_cases h2 : (upDown st.arena s x none).isSome = true
    · rw [if_pos h2]
      refine ⟨by simp [Undefined], ⟨fun h => (by obtain ⟨_, h⟩ := h; cases h), fun ha => ?_⟩, fun _ h => by cases h⟩
      have := hfree.mpr ha
      rw [this.2] at h2; cases h2
    · rw [if_neg h2]
      have hfr : free fs x none := hfree.mp ⟨by simpa using h1, by simpa using h2⟩
      refine ⟨by simp [Undefined], ⟨fun _ => hfr, fun _ => ⟨_, rfl⟩⟩, ?_⟩
      intro st' e
      cases Out.ok.inj e
      have hlk := hfr.2.1
      rw [e2] at hlk
      have key := addVar_ok h e1 e2 (lookup_find hlk) n
      rw [e2]
      simp only [next]
      have hn := h.nd
      subst hn
      exact ⟨rfl, key.1, key.2.1, key.2.2⟩

/-! ### types -/

theorem reach_blockNames {a : Arena} {nf : Nat} (w : WF a nf) (x : String) (k : Kind) :
    ∀ {ss : List Nat} {fs : List Frame} (o : Option Nat) (acc : List (String × Kind)), Al a ss fs → ClOk a o ss fs →
      (∀ s t sc, ss = s :: t → a[s]? = some sc →
        ((x, k) ∈ acc ↔ ∃ c e, o = some c ∧ edge a s c ∧ Reach a c e ∧ At a e x k)) →
      ((∃ c e, edge a 0 c ∧ Reach a c e ∧ At a e x k) ↔ (x, k) ∈ blockNames acc fs)
  | [s], [f], o, acc, ⟨h0, hf, sc, h1, h2⟩, hc, hacc => by
    subst h0
    simp only [blockNames, List.mem_append]
    rw [hacc 0 [] sc rfl h1, ← hc.1 x k]
    constructor
    · rintro ⟨c, e, he, hr, ha⟩
      by_cases ho : o = some c
      · exact Or.inr ⟨c, e, ho, he, hr, ha⟩
      · exact Or.inl ⟨c, e, he, ho, hr, ha⟩
    · rintro (⟨c, e, he, _, hr, ha⟩ | ⟨c, e, _, he, hr, ha⟩)
      · exact ⟨c, e, he, hr, ha⟩
      · exact ⟨c, e, he, hr, ha⟩
  | s :: p :: ss, f :: g :: fs, o, acc, ⟨⟨sc, pc, h1, h2, h3, h4, h5, h6, h7, h8, h9⟩, h'⟩, hc, hacc => by
    rw [blockNames]
    refine reach_blockNames w x k (some s) _ h' hc.2 ?_
    intro p' t pc' e hp
    cases e
    rw [h2] at hp; cases Option.some.inj hp
    cases hi : f.isFun with
    | true =>
      rw [hi, if_pos rfl] at h7
      rw [if_pos rfl]
      constructor
      · intro h; cases h
      · rintro ⟨c, e, hoc, ⟨mc, cc, g1, g2, g3, g4⟩, _⟩
        cases hoc
        rw [h2] at g1; cases Option.some.inj g1
        rw [h1] at g2; cases Option.some.inj g2
        omega
    | false =>
      rw [hi] at h7
      simp only [Bool.false_eq_true, if_false] at h7 ⊢
      have hedge : edge a p s := ⟨pc, sc, h2, h1, h6, h7.symm⟩
      rw [List.mem_append, List.mem_append, hacc s (p :: ss) sc rfl h1, ← hc.1 x k]
      have hkeys : (x, k) ∈ f.keys ↔ At a s x k := by
        unfold Frame.keys At
        simp only [List.mem_map, Prod.mk.injEq]
        constructor
        · rintro ⟨d, hd, e1, e2⟩; exact ⟨sc, h1, d, (h9 d).mpr hd, e1, e2⟩
        · rintro ⟨sc', k1, d, hd, e1, e2⟩
          rw [h1] at k1; cases Option.some.inj k1
          exact ⟨d, (h9 d).mp hd, e1, e2⟩
      rw [hkeys]
      constructor
      · rintro ((hat | ⟨c, e, he, _, hr, ha⟩) | ⟨c, e, _, he, hr, ha⟩)
        · exact ⟨s, s, rfl, hedge, .refl _, hat⟩
        · exact ⟨s, e, rfl, hedge, Reach.trans (.tail (.refl _) he) hr, ha⟩
        · exact ⟨s, e, rfl, hedge, Reach.trans (.tail (.refl _) he) hr, ha⟩
      · rintro ⟨c, e, hoc, _, hr, ha⟩
        cases hoc
        rcases Reach.head hr with rfl | ⟨c, he, hr'⟩
        · exact Or.inl (Or.inl ha)
        · by_cases ho : o = some c
          · exact Or.inr ⟨c, e, ho, he, hr', ha⟩
          · exact Or.inl (Or.inr ⟨c, e, he, ho, hr', ha⟩)

theorem declareLast_append (d : Decl) : ∀ (pre : List Frame) (f : Frame),
    declareLast d (pre ++ [f]) = pre ++ [{ f with decls := f.decls ++ [d] }]
  | [], f => rfl
  | [g], f => rfl
  | g :: g' :: pre, f => by
    have := declareLast_append d (g' :: pre) f
    simp only [List.cons_append, declareLast] at this ⊢
    rw [this]

theorem step_type {st : St} {fs : List Frame} {n : Nat} (h : R st fs n) (x : String) : StepOk st fs n (.type x) := by
  obtain ⟨s, t, f0, r, sc, e1, e2, hs, _⟩ := h.stack
  obtain ⟨pre, fpre, m, f, k1, k2, k3, k4, k5, k6, k7⟩ := h.al.bottom
  have hn := h.wf.nodup _ _ k5
  have hlt : 0 < st.arena.length := by
    cases ha : st.arena with
    | nil => rw [ha] at k5; cases k5
    | cons _ _ => simp
  have hacc : (isType st.arena x = false ∧ upDown st.arena 0 x none = none) ↔ Accepts fs (.type x) := by
    have hpar : m.parent = none := by
      have := Al.parent h.al pre 0 [] k1 m k5
      simpa using this
    have hud : upDown st.arena 0 x none = none ↔ up st.arena x none st.arena.length 0 = none := by
      have : up st.arena x none st.arena.length 0 = none → own m x none = none := by
        intro hup
        cases hl : st.arena.length with
        | zero => omega
        | succ k =>
          rw [hl, up] at hup
          simp only [k5] at hup
          cases ho : own m x none with
          | none => rfl
          | some y => rw [ho] at hup; simp at hup
      unfold upDown
      simp only [k5, hpar, Option.bind_none]
      cases ho : own m x none with
      | some y =>
        constructor
        · intro h; cases h
        · intro h; rw [this h] at ho; cases ho
      | none => simp
    rw [hud, ← Option.not_isSome_iff_eq_none, up_isSome h.wf x none _ 0 hlt (by omega)]
    unfold Accepts
    have hty := isType_iff h.wf h.al x
    have hgl : global fs x = none ↔ ∀ k, ¬ At st.arena 0 x k := by
      rw [k7]
      unfold Frame.find At
      simp only [List.find?_eq_none, beq_iff_eq]
      constructor
      · rintro H k ⟨sc, g1, d, hd, hn, _⟩
        rw [k5] at g1; cases Option.some.inj g1
        exact H d ((k6 d).mp hd) hn
      · intro H d hd hn
        exact H d.kind ⟨m, k5, d, (k6 d).mpr hd, hn, rfl⟩
    have hbn : ∀ k, (∃ c e, edge st.arena 0 c ∧ Reach st.arena c e ∧ At st.arena e x k) ↔ (x, k) ∈ blockNames [] fs := by
      intro k
      refine reach_blockNames h.wf x k none [] h.al h.cl ?_
      intro s t sc _ _
      simp
    constructor
    · rintro ⟨h1, h2⟩
      refine ⟨hgl.mpr fun k hat => h2 ⟨0, k, .refl _, hat, clash_none _⟩, fun k hk => ?_⟩
      obtain ⟨c, e, he, hr, ha⟩ := (hbn k).mpr hk
      exact h2 ⟨e, k, Reach.trans (.tail (.refl _) he) hr, ha, clash_none _⟩
    · rintro ⟨h1, h2⟩
      refine ⟨?_, ?_⟩
      · cases hT : isType st.arena x with
        | false => rfl
        | true =>
          obtain ⟨d, hd, _⟩ := hty.mp hT
          rw [h1] at hd; cases hd
      · rintro ⟨e, k, hr, ha, _⟩
        rcases Reach.head hr with rfl | ⟨c, he, hr'⟩
        · exact hgl.mp h1 k ha
        · exact h2 k ((hbn k).mp ⟨c, e, he, hr', ha⟩)
  have hst : step st (.type x) =
      if isType st.arena x then .err
      else if (upDown st.arena 0 x none).isSome then .err
      else .ok { st with
          arena := st.arena.modify 0 (fun m => { m with types := m.types ++ [{ name := x, decl := st.ndecl }] }),
          ndecl := st.ndecl + 1 } := by
    unfold step; rw [e1]
  unfold StepOk
  rw [hst]
  by_cases h1 : isType st.arena x = true
  · rw [if_pos h1]
    refine ⟨by simp [Undefined], ⟨fun h => (by obtain ⟨_, h⟩ := h; cases h), fun ha => ?_⟩, fun _ h => by cases h⟩
    have := hacc.mpr ha
    rw [h1] at this; cases this.1
  · rw [if_neg h1]
    by_cases h2 : (upDown st.arena 0 x none).isSome = true
    · rw [if_pos h2]
      refine ⟨by simp [Undefined], ⟨fun h => (by obtain ⟨_, h⟩ := h; cases h), fun ha => ?_⟩, fun _ h => by cases h⟩
      have := hacc.mpr ha
      rw [this.2] at h2; cases h2
    · rw [if_neg h2]
      have hac := hacc.mp ⟨by simpa using h1, by simpa using h2⟩
      refine ⟨by simp [Undefined], ⟨fun _ => hac, fun _ => ⟨_, rfl⟩⟩, ?_⟩
      intro st' e
      cases Out.ok.inj e
      have hno : ∀ d ∈ symsOf m, d.name ≠ x := by
        intro d hd hx
        have h3 := hac.1
        rw [k7] at h3
        unfold Frame.find at h3
        simp only [List.find?_eq_none, beq_iff_eq] at h3
        exact h3 d ((k6 d).mp hd) hx
      have key := sym_upd (f' := { f with decls := f.decls ++ [⟨x, .type, n⟩] })
        (g := fun m => { m with types := m.types ++ [{ name := x, decl := st.ndecl }] })
        (Nat.le_refl _) h.wf h.al h.cl k1 k2 k3 ⟨rfl, rfl⟩ k5
        (fun _ => ⟨rfl, rfl⟩) ⟨rfl, rfl, rfl, rfl, rfl, ?_, ?_⟩ ?_
      · simp only [next]
        rw [k2, declareLast_append]
        exact ⟨by simp [h.nd], key.1, key.2.1, key.2.2⟩
      · rw [(names_append_type m _).nodup_iff, List.nodup_cons]
        exact ⟨not_mem_names hno, hn⟩
      · exact fun y hy => h.wf.funs 0 m k5 y hy
      · intro hf d'
        have := hf d'
        have hnd := h.nd
        simp only [mem_symsOf, List.mem_append, List.mem_singleton] at this ⊢
        rw [← this, ← hnd]
        constructor
        · rintro (⟨y, hy | hy, e⟩ | k | k)
          · exact Or.inl (Or.inl ⟨y, hy, e⟩)
          · subst hy; exact Or.inr e
          · exact Or.inl (Or.inr (Or.inl k))
          · exact Or.inl (Or.inr (Or.inr k))
        · rintro ((⟨y, hy, e⟩ | k | k) | k)
          · exact Or.inl ⟨y, Or.inl hy, e⟩
          · exact Or.inr (Or.inl k)
          · exact Or.inr (Or.inr k)
          · exact Or.inl ⟨_, Or.inr rfl, k⟩

/-! ### opening a scope -/

theorem get_new (a : Arena) (sc : Scope) (p i : Nat) :
    (newScope a sc p)[i]? = if i = a.length then some sc
      else (a[i]?).map (fun z => if p = i then { z with children := z.children ++ [a.length] } else z) := by
  unfold newScope
  by_cases h : i < a.length
  · rw [List.getElem?_append_left (by simpa using h), get_mod, if_neg (by omega)]
  · by_cases h' : i = a.length
    · subst h'
      rw [if_pos rfl, List.getElem?_append_right (by simp)]
      simp
    · rw [if_neg h', List.getElem?_append_right (by simp; omega), List.getElem?_eq_none (by simp; omega),
        List.getElem?_eq_none (by omega)]
      rfl

theorem lt_of_get {a : Arena} {i : Nat} {sc : Scope} (h : a[i]? = some sc) : i < a.length := by
  rcases Nat.lt_or_ge i a.length with h' | h'
  · exact h'
  · rw [List.getElem?_eq_none h'] at h; cases h

theorem newScope_ok {a : Arena} {nf : Nat} (w : WF a nf) {s : Nat} {t : List Nat} {f : Frame} {r : List Frame}
    (h : Al a (s :: t) (f :: r)) (hc : ClOk a none (s :: t) (f :: r)) {sc : Scope} (hs : a[s]? = some sc)
    (fid : Nat) (blk : Bool) (hfid : fid < nf) (hb : if blk = true then sc.fid = fid else sc.fid < fid) :
    let b := newScope a { fid := fid, parent := some s, isBlock := blk } s
    let f' : Frame := { isFun := !blk, decls := [] }
    WF b nf ∧ Al b (a.length :: s :: t) (f' :: f :: r) ∧ ClOk b none (a.length :: s :: t) (f' :: f :: r) := by
  intro b f'
  have hslt := lt_of_get hs
  have hnd := h.nodup
  have gets : b[s]? = some { sc with children := sc.children ++ [a.length] } := by
    show (newScope _ _ _)[s]? = _
    rw [get_new, if_neg (by omega), hs]; simp
  have getn : b[a.length]? = some { fid := fid, parent := some s, isBlock := blk } := by
    show (newScope _ _ _)[_]? = _
    rw [get_new, if_pos rfl]
  have geto : ∀ i, i ≠ s → i ≠ a.length → b[i]? = a[i]? := by
    intro i h1 h2
    show (newScope _ _ _)[i]? = _
    rw [get_new, if_neg h2]
    have : ¬ s = i := fun h => h1 h.symm
    simp [this]
  have get : ∀ (i : Nat) (z : Scope), b[i]? = some z →
      (i = a.length ∧ z = { fid := fid, parent := some s, isBlock := blk }) ∨
      (i = s ∧ z = { sc with children := sc.children ++ [a.length] }) ∨ (i ≠ s ∧ i ≠ a.length ∧ a[i]? = some z) := by
    intro i z hz
    by_cases h1 : i = a.length
    · subst h1; rw [getn] at hz; exact Or.inl ⟨rfl, (Option.some.inj hz).symm⟩
    · by_cases h2 : i = s
      · subst h2; rw [gets] at hz; exact Or.inr (Or.inl ⟨rfl, (Option.some.inj hz).symm⟩)
      · rw [geto i h2 h1] at hz; exact Or.inr (Or.inr ⟨h2, h1, hz⟩)
  have lift : ∀ (i : Nat) (z : Scope), a[i]? = some z → ∃ z', b[i]? = some z' ∧ Sh z z' ∧ symsOf z' = symsOf z ∧
      (i ≠ s → z' = z) := by
    intro i z hz
    have := lt_of_get hz
    by_cases h2 : i = s
    · subst h2; rw [hs] at hz; cases Option.some.inj hz
      exact ⟨_, gets, ⟨rfl, rfl, rfl, rfl, fun c hc => by simp [hc]⟩, rfl, fun h => absurd rfl h⟩
    · exact ⟨z, (geto i h2 (by omega)).trans hz, ⟨rfl, rfl, rfl, rfl, fun _ h => h⟩, rfl, fun _ => rfl⟩
  have hedge : ∀ m y, m ≠ s → (edge a m y ↔ edge b m y) := by
    intro m y hm
    constructor
    · rintro ⟨mc, cc, g1, g2, g3, g4⟩
      obtain ⟨mc', k1, k2, _, k3⟩ := lift m mc g1
      obtain ⟨cc', l1, l2, _, _⟩ := lift y cc g2
      cases k3 hm
      exact ⟨mc, cc', k1, l1, g3, by rw [l2.1, g4]⟩
    · rintro ⟨mc, cc, g1, g2, g3, g4⟩
      rcases get m mc g1 with ⟨_, rfl⟩ | ⟨h1, _⟩ | ⟨_, h2, h3⟩
      · cases g3
      · exact absurd h1 hm
      · obtain ⟨cc0, k1, _, _⟩ := w.kids m mc h3 y g3
        obtain ⟨cc', l1, l2, _, _⟩ := lift y cc0 k1
        rw [g2] at l1; cases Option.some.inj l1
        exact ⟨mc, cc0, h3, k1, g3, by rw [← l2.1, g4]⟩
  have hat : ∀ y x k, At a y x k ↔ At b y x k := by
    intro y x k
    constructor
    · rintro ⟨z, g1, d, hd, e1, e2⟩
      obtain ⟨z', k1, _, k2, _⟩ := lift y z g1
      exact ⟨z', k1, d, by rw [k2]; exact hd, e1, e2⟩
    · rintro ⟨z, g1, d, hd, e1, e2⟩
      rcases get y z g1 with ⟨_, rfl⟩ | ⟨rfl, rfl⟩ | ⟨_, _, h3⟩
      · cases hd
      · exact ⟨sc, hs, d, hd, e1, e2⟩
      · exact ⟨z, h3, d, hd, e1, e2⟩
  refine ⟨?_, ?_, ?_⟩
  · constructor
    · intro i z hz c hcm
      rcases get i z hz with ⟨_, rfl⟩ | ⟨rfl, rfl⟩ | ⟨_, _, h3⟩
      · cases hcm
      · rcases List.mem_append.mp hcm with hcm | hcm
        · obtain ⟨cc, k1, k2, k3⟩ := w.kids _ sc hs c hcm
          obtain ⟨cc', l1, l2, _⟩ := lift c cc k1
          exact ⟨cc', l1, by rw [l2.2.1, k2], k3⟩
        · rw [List.mem_singleton] at hcm; subst hcm
          exact ⟨_, getn, rfl, hslt⟩
      · obtain ⟨cc, k1, k2, k3⟩ := w.kids i z h3 c hcm
        obtain ⟨cc', l1, l2, _⟩ := lift c cc k1
        exact ⟨cc', l1, by rw [l2.2.1, k2], k3⟩
    · intro i z hz
      rcases get i z hz with ⟨_, rfl⟩ | ⟨rfl, rfl⟩ | ⟨_, _, h3⟩
      · exact List.nodup_nil
      · exact w.nodup _ sc hs
      · exact w.nodup i z h3
    · intro i z hz
      rcases get i z hz with ⟨_, rfl⟩ | ⟨rfl, rfl⟩ | ⟨_, _, h3⟩
      · exact hfid
      · exact w.fid _ sc hs
      · exact w.fid i z h3
    · intro i z hz y hy
      rcases get i z hz with ⟨_, rfl⟩ | ⟨rfl, rfl⟩ | ⟨_, _, h3⟩
      · cases hy
      · exact w.funs _ sc hs y hy
      · exact w.funs i z h3 y hy
    · intro i z hz hun
      rcases get i z hz with ⟨_, rfl⟩ | ⟨rfl, rfl⟩ | ⟨_, _, h3⟩
      · rfl
      · exact w.unused _ sc hs hun
      · exact w.unused i z h3 hun
  · refine ⟨⟨_, _, getn, gets, rfl, hslt, by simp [f'], by simp, ?_, rfl, fun d => Iff.rfl⟩, ?_⟩
    · cases blk with
      | true => simpa [f'] using hb
      | false => simpa [f'] using hb
    · refine Al_upd h ?_ ?_ rfl
      · intro m _ z hz
        obtain ⟨z', k1, k2, _⟩ := lift m z hz
        exact ⟨z', k1, k2⟩
      · have : ∀ (ss : List Nat) (fs : List Frame), FrAll a ss fs → FrAll b ss fs := by
          intro ss
          induction ss with
          | nil => intro fs h; cases fs with | nil => trivial | cons _ _ => exact h.elim
          | cons m ss ih =>
            intro fs h
            cases fs with
            | nil => exact h.elim
            | cons g fs =>
              obtain ⟨⟨z, k1, k2⟩, k3⟩ := h
              obtain ⟨z', l1, _, l3, _⟩ := lift m z k1
              exact ⟨⟨z', l1, fun d => by rw [l3]; exact k2 d⟩, ih fs k3⟩
        exact this _ _ h.frAll
  · refine ⟨?_, ?_, ?_⟩
    · intro x k
      constructor
      · rintro ⟨c, e, ⟨mc, cc, g1, g2, g3, g4⟩, _⟩
        rw [getn] at g1; cases Option.some.inj g1
        cases g3
      · intro h; cases h
    · intro x k
      rw [← hc.1 x k]
      constructor
      · rintro ⟨c, e, ⟨mc, cc, g1, g2, g3, g4⟩, ho, hr, ha⟩
        rw [gets] at g1; cases Option.some.inj g1
        have hcm : c ∈ sc.children := by
          rcases List.mem_append.mp g3 with h | h
          · exact h
          · rw [List.mem_singleton] at h; subst h; exact absurd rfl ho
        obtain ⟨cc0, k1, _, _⟩ := w.kids _ sc hs c hcm
        obtain ⟨cc', l1, l2, _⟩ := lift c cc0 k1
        rw [g2] at l1; cases Option.some.inj l1
        have he : edge a s c := ⟨sc, cc0, hs, k1, hcm, by rw [← l2.1, g4]⟩
        have av := fun z hz => closed_avoid (pre := []) (y := z) w h rfl he (by simp) hz
        have hr' := (reach_congr (fun z => z ∈ s :: t) av
          (fun m z hmz => hedge m z (fun h => hmz (by simp [h]))) e).mpr hr
        exact ⟨c, e, he, by simp, hr', (hat e x k).mpr ha⟩
      · rintro ⟨c, e, he, ho, hr, ha⟩
        have av := fun z hz => closed_avoid (pre := []) (y := z) w h rfl he (by simp) hz
        have hr' := (reach_congr (fun z => z ∈ s :: t) av
          (fun m z hmz => hedge m z (fun h => hmz (by simp [h]))) e).mp hr
        obtain ⟨mc, cc, g1, g2, g3, g4⟩ := he
        rw [hs] at g1; cases Option.some.inj g1
        obtain ⟨cc', l1, l2, _⟩ := lift c cc g2
        have := lt_of_get g2
        refine ⟨c, e, ⟨_, cc', gets, l1, by simp [g3], by rw [l2.1]; exact g4⟩, ?_, hr', (hat e x k).mp ha⟩
        intro h; have := Option.some.inj h; omega
    · refine ClOk_congr w h (fun m hm y => hedge m y (fun h => hm (by simp [h]))) (fun y _ => hat y)
        t [s] (some s) r r rfl rfl ?_ rfl hc.2
      intro m hm c
      refine hedge m c ?_
      rintro rfl
      exact (List.nodup_cons.mp hnd).1 hm

theorem step_block {st : St} {fs : List Frame} {n : Nat} (h : R st fs n) : StepOk st fs n .block := by
  obtain ⟨s, t, f, r, sc, e1, e2, hs, _⟩ := h.stack
  have hst : step st .block = .ok { st with
          arena := newScope st.arena { fid := sc.fid, parent := some s, isBlock := true } s,
          stack := st.arena.length :: s :: t } := by
    unfold step; rw [e1]; simp only [hs]
  unfold StepOk
  rw [hst]
  refine ⟨by simp [Undefined], ⟨fun _ => trivial, fun _ => ⟨_, rfl⟩⟩, ?_⟩
  intro st' e
  cases Out.ok.inj e
  have ha := h.al
  have hc := h.cl
  rw [e1, e2] at ha hc
  have key := newScope_ok h.wf ha hc hs sc.fid true (h.wf.fid _ _ hs) (by simp)
  rw [e2]
  exact ⟨h.nd, key.1, key.2.1, key.2.2⟩

/-! ### closing a scope -/

theorem get_mark (a : Arena) (c p i : Nat) (sc : Scope) (hc : a[c]? = some sc) (hp : sc.parent = some p) :
    (markUnused a c)[i]? = (a[i]?).map (fun z =>
      let z1 := if p = i then { z with children := z.children ++ sc.children } else z
      let z2 := if i ∈ sc.children then { z1 with parent := some p } else z1
      if c = i then { z2 with children := [], unused := true } else z2) := by
  unfold markUnused
  simp only [hc, hp]
  rw [get_mod, List.getElem?_mapIdx, get_mod]
  cases a[i]? with
  | none => rfl
  | some z => simp [List.contains_eq_mem]

theorem step_close {st : St} {fs : List Frame} {n : Nat} (h : R st fs n) (loop : Bool) : StepOk st fs n (.close loop) := by
  obtain ⟨c, t, f, r, sc, e1, e2, hs, _, _, hblk⟩ := h.stack
  have ha := h.al
  have hcl := h.cl
  rw [e1, e2] at ha hcl
  match t, r, ha with
  | [], [], _ =>
    have hst : step st (.close loop) = .err := by unfold step; rw [e1]
    unfold StepOk
    rw [hst]
    exact ⟨by simp [Undefined], ⟨fun h => (by obtain ⟨_, h⟩ := h; cases h), fun ha => by simp [Accepts, e2] at ha⟩,
      fun _ h => by cases h⟩
  | p :: t, g :: r, ⟨⟨sc', pc, h1, h2, h3, h4, h5, h6, h7, h8, h9⟩, h'⟩ =>
    rw [hs] at h1; cases Option.some.inj h1
    have ha : Al st.arena (c :: p :: t) (f :: g :: r) := by rw [← e1, ← e2]; exact h.al
    have hst : step st (.close loop) = .ok { st with
          arena := if sc.isBlock && sc.vars.isEmpty && !loop then markUnused st.arena c else st.arena,
          stack := p :: t } := by
      unfold step; rw [e1]; simp only [hs]
    unfold StepOk
    rw [hst]
    refine ⟨by simp [Undefined], ⟨fun _ => by simp [Accepts, e2], fun _ => ⟨_, rfl⟩⟩, ?_⟩
    intro st' est
    cases Out.ok.inj est
    -- what the parent's subtree holds once the scope is closed
    have hkeys : ∀ x k, (x, k) ∈ f.keys ↔ At st.arena c x k := by
      intro x k
      unfold Frame.keys At
      simp only [List.mem_map, Prod.mk.injEq]
      constructor
      · rintro ⟨d, hd, e1, e2⟩; exact ⟨sc, hs, d, (h9 d).mpr hd, e1, e2⟩
      · rintro ⟨sc', k1, d, hd, e1, e2⟩
        rw [hs] at k1; cases Option.some.inj k1
        exact ⟨d, (h9 d).mp hd, e1, e2⟩
    cases hf : f.isFun with
    | true =>
      have hb : sc.isBlock = false := by rw [hblk, hf]; rfl
      rw [hf, if_pos rfl] at h7
      simp only [hb, Bool.false_and, Bool.false_eq_true, if_false]
      rw [e2]
      simp only [next, hf, if_true]
      refine ⟨h.nd, h.wf, h', ?_, hcl.2.2⟩
      intro x k
      rw [← hcl.2.1 x k]
      constructor
      · rintro ⟨y, e, he, _, hr, hat⟩
        refine ⟨y, e, he, ?_, hr, hat⟩
        intro hy; cases Option.some.inj hy
        obtain ⟨mc, cc, g1, g2, g3, g4⟩ := he
        rw [h2] at g1; cases Option.some.inj g1
        rw [hs] at g2; cases Option.some.inj g2
        omega
      · rintro ⟨y, e, he, _, hr, hat⟩
        exact ⟨y, e, he, by simp, hr, hat⟩
    | false =>
      have hb : sc.isBlock = true := by rw [hblk, hf]; rfl
      rw [hf] at h7
      simp only [Bool.false_eq_true, if_false] at h7
      have hedge : edge st.arena p c := ⟨pc, sc, h2, hs, h6, h7.symm⟩
      have hgone : ∀ x k, Closed st.arena p none x k ↔ (x, k) ∈ g.gone ++ f.keys ++ f.gone := by
        intro x k
        rw [List.mem_append, List.mem_append, hkeys, ← hcl.1 x k, ← hcl.2.1 x k]
        constructor
        · rintro ⟨y, e, he, _, hr, hat⟩
          by_cases hy : y = c
          · subst hy
            rcases Reach.head hr with rfl | ⟨y', he', hr'⟩
            · exact Or.inl (Or.inr hat)
            · exact Or.inr ⟨y', e, he', by simp, hr', hat⟩
          · exact Or.inl (Or.inl ⟨y, e, he, fun h => hy (Option.some.inj h).symm, hr, hat⟩)
        · rintro ((⟨y, e, he, _, hr, hat⟩ | hat) | ⟨y, e, he, _, hr, hat⟩)
          · exact ⟨y, e, he, by simp, hr, hat⟩
          · exact ⟨c, c, hedge, by simp, .refl _, hat⟩
          · exact ⟨c, e, hedge, by simp, Reach.trans (.tail (.refl _) he) hr, hat⟩
      rw [e2]
      simp only [next, hf, Bool.false_eq_true, if_false]
      have hAl2 : Al st.arena (p :: t) ({ g with gone := g.gone ++ f.keys ++ f.gone } :: r) := by
        refine Al_upd h' (fun m _ z hz => ⟨z, hz, rfl, rfl, rfl, rfl, fun _ h => h⟩) ?_ (by simp)
        have hfa := h'.frAll
        exact ⟨hfa.1, hfa.2⟩
      by_cases hm : (sc.isBlock && sc.vars.isEmpty && !loop) = true
      · -- the scope is flagged and its children handed over
        simp only [hm, if_true]
        have hvars : sc.vars = [] := by
          simp only [Bool.and_eq_true, List.isEmpty_iff] at hm; exact hm.1.2
        have gm := fun i => get_mark st.arena c p i sc hs h3
        generalize hbd : markUnused st.arena c = b at gm
        have hpc : p ≠ c := by omega
        have notkid : ∀ m ∈ (p :: t), m ∉ sc.children := by
          intro m hm hk
          obtain ⟨_, _, _, k3⟩ := h.wf.kids c sc hs m hk
          have := Al.sorted ha c (p :: t) rfl m hm
          omega
        have lift : ∀ (i : Nat) (z : Scope), st.arena[i]? = some z → ∃ z', b[i]? = some z' ∧
            z'.fid = z.fid ∧ z'.isBlock = z.isBlock ∧ symsOf z' = symsOf z ∧ z'.funs = z.funs ∧ z'.vars = z.vars ∧
            (i ≠ c → z'.unused = z.unused) ∧ (i ∉ sc.children → z'.parent = z.parent) ∧
            (i ∈ sc.children → z'.parent = some p) ∧
            (i ≠ c → i ≠ p → z'.children = z.children) ∧ (i = p → z'.children = z.children ++ sc.children) ∧
            (i = c → z'.children = []) := by
          intro i z hz
          have hgi := gm i
          rw [hz, Option.map_some] at hgi
          refine ⟨_, hgi, ?_⟩
          by_cases q1 : p = i <;> by_cases q2 : i ∈ sc.children <;> by_cases q3 : c = i <;>
            simp [q1, q2, q3, symsOf] <;> (intros; omega)
        have lower : ∀ (i : Nat) (z' : Scope), b[i]? = some z' → ∃ z, st.arena[i]? = some z := by
          intro i z' hz'
          rw [gm i] at hz'
          cases hz : st.arena[i]? with
          | none => rw [hz] at hz'; cases hz'
          | some z => exact ⟨z, rfl⟩
        have hat : ∀ y x k, At st.arena y x k ↔ At b y x k := by
          intro y x k
          constructor
          · rintro ⟨z, g1, d, hd, e⟩
            obtain ⟨z', k1, _, _, k4, _⟩ := lift y z g1
            exact ⟨z', k1, d, by rw [k4]; exact hd, e⟩
          · rintro ⟨z', g1, d, hd, e⟩
            obtain ⟨z, hz⟩ := lower y z' g1
            obtain ⟨z'', k1, _, _, k4, _⟩ := lift y z hz
            rw [g1] at k1; cases Option.some.inj k1
            exact ⟨z, hz, d, by rw [← k4]; exact hd, e⟩
        have hed : ∀ m y, m ≠ c → m ≠ p → (edge st.arena m y ↔ edge b m y) := by
          intro m y hmc hmp
          constructor
          · rintro ⟨mc, cc, g1, g2, g3, g4⟩
            obtain ⟨mc', k1, k2, _, _, _, _, _, _, _, k9, _⟩ := lift m mc g1
            obtain ⟨cc', l1, l2, _⟩ := lift y cc g2
            exact ⟨mc', cc', k1, l1, by rw [k9 hmc hmp]; exact g3, by rw [l2, k2, g4]⟩
          · rintro ⟨mc', cc', g1, g2, g3, g4⟩
            obtain ⟨mc, hmz⟩ := lower m mc' g1
            obtain ⟨cc, hcz⟩ := lower y cc' g2
            obtain ⟨mc'', k1, k2, _, _, _, _, _, _, _, k9, _⟩ := lift m mc hmz
            obtain ⟨cc'', l1, l2, _⟩ := lift y cc hcz
            rw [g1] at k1; cases Option.some.inj k1
            rw [g2] at l1; cases Option.some.inj l1
            exact ⟨mc, cc, hmz, hcz, by rw [← k9 hmc hmp]; exact g3, by rw [← l2, ← k2, g4]⟩
        have hreach : ∀ q e, q ∉ (c :: p :: t) → (∀ y, Reach st.arena q y → y ∉ (c :: p :: t)) →
            (Reach st.arena q e ↔ Reach b q e) := by
          intro q e _ av
          refine reach_congr (fun z => z ∈ c :: p :: t) av ?_ e
          intro m z hmz
          simp only [List.mem_cons, not_or] at hmz
          exact hed m z hmz.1 hmz.2.1
        refine ⟨h.nd, ?_, ?_, ?_, ?_⟩
        · constructor
          · intro i z' hz' y hy
            obtain ⟨z, hz⟩ := lower i z' hz'
            obtain ⟨z'', k1, k2, k3, k4, k5, k6, k7, k8, k9, k10, k11, k12⟩ := lift i z hz
            rw [hz'] at k1; cases Option.some.inj k1
            by_cases q1 : i = c
            · rw [k12 q1] at hy; cases hy
            · by_cases q2 : i = p
              · rw [k11 q2] at hy
                subst q2
                rcases List.mem_append.mp hy with hy | hy
                · obtain ⟨cc, l1, l2, l3⟩ := h.wf.kids i z hz y hy
                  obtain ⟨cc', m1, _, _, _, _, _, _, m8, m9, _⟩ := lift y cc l1
                  refine ⟨cc', m1, ?_, l3⟩
                  by_cases q3 : y ∈ sc.children
                  · exact m9 q3
                  · rw [m8 q3]; exact l2
                · obtain ⟨cc, l1, l2, l3⟩ := h.wf.kids c sc hs y hy
                  obtain ⟨cc', m1, _, _, _, _, _, _, m8, m9, _⟩ := lift y cc l1
                  exact ⟨cc', m1, m9 hy, by omega⟩
              · rw [k10 q1 q2] at hy
                obtain ⟨cc, l1, l2, l3⟩ := h.wf.kids i z hz y hy
                obtain ⟨cc', m1, _, _, _, _, _, _, m8, m9, _⟩ := lift y cc l1
                refine ⟨cc', m1, ?_, l3⟩
                have q3 : y ∉ sc.children := by
                  intro q3
                  obtain ⟨cc2, n1, n2, _⟩ := h.wf.kids c sc hs y q3
                  rw [l1] at n1; cases Option.some.inj n1
                  rw [l2] at n2; exact q1 (Option.some.inj n2)
                rw [m8 q3]; exact l2
          · intro i z' hz'
            obtain ⟨z, hz⟩ := lower i z' hz'
            obtain ⟨z'', k1, _, _, k4, _⟩ := lift i z hz
            rw [hz'] at k1; cases Option.some.inj k1
            unfold names; rw [k4]; exact h.wf.nodup i z hz
          · intro i z' hz'
            obtain ⟨z, hz⟩ := lower i z' hz'
            obtain ⟨z'', k1, k2, _⟩ := lift i z hz
            rw [hz'] at k1; cases Option.some.inj k1
            rw [k2]; exact h.wf.fid i z hz
          · intro i z' hz' y hy
            obtain ⟨z, hz⟩ := lower i z' hz'
            obtain ⟨z'', k1, k2, _, _, k5, _⟩ := lift i z hz
            rw [hz'] at k1; cases Option.some.inj k1
            rw [k5] at hy
            rw [k2]; exact h.wf.funs i z hz y hy
          · intro i z' hz' hun
            obtain ⟨z, hz⟩ := lower i z' hz'
            obtain ⟨z'', k1, k2, _, _, _, k6, k7, _⟩ := lift i z hz
            rw [hz'] at k1; cases Option.some.inj k1
            rw [k6]
            by_cases q1 : i = c
            · subst q1; rw [hs] at hz; cases Option.some.inj hz; exact hvars
            · rw [k7 q1] at hun; exact h.wf.unused i z hz hun
        · refine Al_upd hAl2 ?_ ?_ rfl
          · intro m hmm z hz
            obtain ⟨z', k1, k2, k3, k4, k5, k6, k7, k8, k9, k10, k11, k12⟩ := lift m z hz
            have hne : m ≠ c := by
              have := Al.sorted ha c (p :: t) rfl m hmm; omega
            refine ⟨z', k1, k2, k8 (notkid m hmm), k3, k7 hne, ?_⟩
            intro y hy
            by_cases q2 : m = p
            · rw [k11 q2]; simp [hy]
            · rw [k10 hne q2]; exact hy
          · have : ∀ (ss : List Nat) (fs : List Frame), FrAll st.arena ss fs → FrAll b ss fs := by
              intro ss
              induction ss with
              | nil => intro fs h; cases fs with | nil => trivial | cons _ _ => exact h.elim
              | cons m ss ih =>
                intro fs h
                cases fs with
                | nil => exact h.elim
                | cons g fs =>
                  obtain ⟨⟨z, k1, k2⟩, k3⟩ := h
                  obtain ⟨z', l1, _, _, l3, _⟩ := lift m z k1
                  exact ⟨⟨z', l1, fun d => by rw [l3]; exact k2 d⟩, ih fs k3⟩
            exact this _ _ hAl2.frAll
        · intro x k
          rw [← hgone x k]
          obtain ⟨pc', kp1, kp2, _, _, _, _, _, _, _, _, kp11, _⟩ := lift p pc h2
          obtain ⟨sc2, ks1, ks2, _, _, _, _, _, _, _, _, _, ks12⟩ := lift c sc hs
          constructor
          · rintro ⟨q, e, ⟨mc, cc, g1, g2, g3, g4⟩, _, hr, hA⟩
            rw [kp1] at g1; cases Option.some.inj g1
            rw [kp11 rfl] at g3
            obtain ⟨cc0, hcc0⟩ := lower q cc g2
            obtain ⟨cc1, l1, l2, _⟩ := lift q cc0 hcc0
            rw [g2] at l1; cases Option.some.inj l1
            have hfid : cc0.fid = pc.fid := by rw [← l2, g4, kp2]
            rcases List.mem_append.mp g3 with g3 | g3
            · have he : edge st.arena p q := ⟨pc, cc0, h2, hcc0, g3, hfid⟩
              by_cases hqc : q = c
              · subst hqc
                rcases Reach.head hr with rfl | ⟨y, ⟨mc, _, n1, _, n3, _⟩, _⟩
                · exact ⟨q, q, he, by simp, .refl _, (hat q x k).mpr hA⟩
                · rw [ks1] at n1; cases Option.some.inj n1
                  rw [ks12 rfl] at n3; cases n3
              · have av := fun z hz => closed_avoid (pre := [c]) (post := t) (y := z) h.wf ha rfl he
                  (by simpa using fun h => hqc h.symm) hz
                exact ⟨q, e, he, by simp, (hreach q e (av q (.refl _)) av).mpr hr, (hat e x k).mpr hA⟩
            · have he : edge st.arena c q := ⟨sc, cc0, hs, hcc0, g3, by rw [hfid, h7]⟩
              have av := fun z hz => closed_avoid (pre := []) (post := p :: t) (y := z) h.wf ha rfl he (by simp) hz
              exact ⟨c, e, hedge, by simp, Reach.trans (.tail (.refl _) he) ((hreach q e (av q (.refl _)) av).mpr hr),
                (hat e x k).mpr hA⟩
          · rintro ⟨q, e, he, _, hr, hA⟩
            by_cases hqc : q = c
            · subst hqc
              rcases Reach.head hr with rfl | ⟨y, he', hr'⟩
              · exact ⟨q, q, ⟨pc', sc2, kp1, ks1, by rw [kp11 rfl]; simp [h6], by rw [ks2, kp2, h7]⟩, by simp, .refl _,
                  (hat q x k).mp hA⟩
              · have av := fun z hz => closed_avoid (pre := []) (post := p :: t) (y := z) h.wf ha rfl he' (by simp) hz
                have hr2 := (hreach y e (av y (.refl _)) av).mp hr'
                obtain ⟨mc, cc, n1, n2, n3, n4⟩ := he'
                rw [hs] at n1; cases Option.some.inj n1
                obtain ⟨cc1, l1, l2, _⟩ := lift y cc n2
                exact ⟨y, e, ⟨pc', cc1, kp1, l1, by rw [kp11 rfl]; simp [n3], by rw [l2, n4, kp2, h7]⟩, by simp, hr2,
                  (hat e x k).mp hA⟩
            · have av := fun z hz => closed_avoid (pre := [c]) (post := t) (y := z) h.wf ha rfl he
                (by simpa using fun h => hqc h.symm) hz
              have hr2 := (hreach q e (av q (.refl _)) av).mp hr
              obtain ⟨mc, cc, n1, n2, n3, n4⟩ := he
              rw [h2] at n1; cases Option.some.inj n1
              obtain ⟨cc1, l1, l2, _⟩ := lift q cc n2
              exact ⟨q, e, ⟨pc', cc1, kp1, l1, by rw [kp11 rfl]; simp [n3], by rw [l2, n4, kp2]⟩, by simp, hr2,
                (hat e x k).mp hA⟩
        · refine ClOk_congr h.wf ha ?_ (fun y _ => hat y) t [c, p] (some p) r r rfl rfl ?_ rfl hcl.2.2
          · intro m hmm y
            simp only [List.mem_cons, not_or] at hmm
            exact hed m y hmm.1 hmm.2.1
          · intro m hmm y
            have q1 := Al.sorted ha c (p :: t) rfl m (by simp [hmm])
            have q2 := Al.sorted h' p t rfl m hmm
            exact hed m y (by omega) (by omega)
      · simp only [hm]
        exact ⟨h.nd, h.wf, hAl2, fun x k => hgone x k, hcl.2.2⟩

end Verif.Core.Scope
