import Verif.Core.ScopeSpec
/-
Lemmas about the scope tree: the relation between the model's arena and the specification's open scopes,
and its preservation by every step.
-/
namespace Verif.Core.Scope
open Spec

/-! ### the symbols of one scope -/

def symsOf (sc : Scope) : List Decl :=
  sc.types.map (fun y => ⟨y.name, .type, y.decl⟩) ++
  sc.vars.map (fun y => ⟨y.name, .var, y.decl⟩) ++
  sc.funs.map (fun y => ⟨y.name, .fn y.np, y.decl⟩)

theorem mem_symsOf {sc : Scope} {d : Decl} :
    d ∈ symsOf sc ↔ (∃ y ∈ sc.types, d = ⟨y.name, .type, y.decl⟩) ∨
      (∃ y ∈ sc.vars, d = ⟨y.name, .var, y.decl⟩) ∨ (∃ y ∈ sc.funs, d = ⟨y.name, .fn y.np, y.decl⟩) := by
  simp only [symsOf, List.mem_append, List.mem_map]
  constructor
  · rintro ((⟨y, h, e⟩ | ⟨y, h, e⟩) | ⟨y, h, e⟩)
    · exact Or.inl ⟨y, h, e.symm⟩
    · exact Or.inr (Or.inl ⟨y, h, e.symm⟩)
    · exact Or.inr (Or.inr ⟨y, h, e.symm⟩)
  · rintro (⟨y, h, e⟩ | ⟨y, h, e⟩ | ⟨y, h, e⟩)
    · exact Or.inl (Or.inl ⟨y, h, e.symm⟩)
    · exact Or.inl (Or.inr ⟨y, h, e.symm⟩)
    · exact Or.inr ⟨y, h, e.symm⟩

theorem own_isSome (sc : Scope) (x : String) (q : Option Nat) :
    (own sc x q).isSome = true ↔ ∃ d ∈ symsOf sc, d.name = x ∧ clash q d.kind := by
  unfold own
  cases ht : sc.types.find? (fun y => y.name == x) with
  | some y =>
    have h1 := List.mem_of_find?_eq_some ht
    have h2 := List.find?_some ht
    simp only [beq_iff_eq] at h2
    simp only [Option.isSome_some, true_iff]
    exact ⟨_, mem_symsOf.mpr (Or.inl ⟨y, h1, rfl⟩), h2, trivial⟩
  | none =>
    simp only [List.find?_eq_none, beq_iff_eq] at ht
    cases hv : sc.vars.find? (fun y => y.name == x) with
    | some y =>
      have h1 := List.mem_of_find?_eq_some hv
      have h2 := List.find?_some hv
      simp only [beq_iff_eq] at h2
      simp only [Option.isSome_some, true_iff]
      exact ⟨_, mem_symsOf.mpr (Or.inr (Or.inl ⟨y, h1, rfl⟩)), h2, trivial⟩
    | none =>
      simp only [List.find?_eq_none, beq_iff_eq] at hv
      simp only [List.find?_isSome, Bool.and_eq_true, beq_iff_eq, Bool.or_eq_true]
      constructor
      · rintro ⟨y, hy, hn, hq⟩
        exact ⟨_, mem_symsOf.mpr (Or.inr (Or.inr ⟨y, hy, rfl⟩)), hn, by
          rcases hq with h | h
          · exact Or.inr h
          · exact Or.inl h⟩
      · rintro ⟨d, hd, hn, hc⟩
        rcases mem_symsOf.mp hd with ⟨y, hy, e⟩ | ⟨y, hy, e⟩ | ⟨y, hy, e⟩
        · subst e; exact absurd hn (ht y hy)
        · subst e; exact absurd hn (hv y hy)
        · subst e
          exact ⟨y, hy, hn, by rcases hc with h | h; exact Or.inr h; exact Or.inl h⟩

theorem own_none_iff (sc : Scope) (x : String) (q : Option Nat) :
    own sc x q = none ↔ ∀ d ∈ symsOf sc, d.name = x → ¬ clash q d.kind := by
  rw [← Option.not_isSome_iff_eq_none, own_isSome]
  exact ⟨fun h d hd hn hc => h ⟨d, hd, hn, hc⟩, fun h ⟨d, hd, hn, hc⟩ => h d hd hn hc⟩

/-- Looking a name up in a scope whose names are all different. -/
theorem own_decl (sc : Scope) (x : String) :
    (own sc x none).map Sym.decl = ((symsOf sc).find? (fun d => d.name == x)).map Decl.id := by
  unfold own symsOf
  rw [List.find?_append, List.find?_append, List.find?_map, List.find?_map, List.find?_map]
  have e1 : ((fun d : Decl => d.name == x) ∘ fun y : Sym => (⟨y.name, .type, y.decl⟩ : Decl)) =
      fun y => y.name == x := rfl
  have e2 : ((fun d : Decl => d.name == x) ∘ fun y : Sym => (⟨y.name, .var, y.decl⟩ : Decl)) =
      fun y => y.name == x := rfl
  have e3 : ((fun d : Decl => d.name == x) ∘ fun y : Sym => (⟨y.name, .fn y.np, y.decl⟩ : Decl)) =
      fun y => y.name == x := rfl
  rw [e1, e2, e3]
  cases ht : sc.types.find? (fun y => y.name == x) with
  | some y => simp
  | none =>
    cases hv : sc.vars.find? (fun y => y.name == x) with
    | some y => simp
    | none =>
      simp only [Option.map_none, Option.none_or]
      have : (fun y : Sym => y.name == x && ((none : Option Nat) == some y.np || (none : Option Nat) == none))
          = fun y => y.name == x := by funext y; simp
      rw [this]
      cases sc.funs.find? (fun y => y.name == x) <;> simp

def names (sc : Scope) : List String := (symsOf sc).map Decl.name

def Fr (sc : Scope) (f : Frame) : Prop := ∀ d : Decl, d ∈ symsOf sc ↔ d ∈ f.decls

theorem names_inj {sc : Scope} (hn : (names sc).Nodup) {d e : Decl} (hd : d ∈ symsOf sc) (he : e ∈ symsOf sc)
    (h : d.name = e.name) : d = e := by
  unfold names at hn
  generalize symsOf sc = l at *
  induction l with
  | nil => cases hd
  | cons c l ih =>
    simp only [List.map_cons, List.nodup_cons, List.mem_map, not_exists, not_and] at hn
    rcases List.mem_cons.mp hd with rfl | hd' <;> rcases List.mem_cons.mp he with rfl | he'
    · rfl
    · exact absurd h.symm (hn.1 _ he')
    · exact absurd h (hn.1 _ hd')
    · exact ih hn.2 hd' he'

/-- A frame and a scope with the same declarations, all names different, find the same. -/
theorem find_eq {sc : Scope} {f : Frame} (hn : (names sc).Nodup) (h : Fr sc f) (x : String) :
    (symsOf sc).find? (fun d => d.name == x) = f.find x := by
  unfold Frame.find
  cases h1 : (symsOf sc).find? (fun d => d.name == x) with
  | none =>
    simp only [List.find?_eq_none, beq_iff_eq] at h1
    symm
    simp only [List.find?_eq_none, beq_iff_eq]
    exact fun d hd => h1 d ((h d).mpr hd)
  | some d =>
    have m1 := List.mem_of_find?_eq_some h1
    have n1 := List.find?_some h1
    simp only [beq_iff_eq] at n1
    cases h2 : f.decls.find? (fun d => d.name == x) with
    | none =>
      simp only [List.find?_eq_none, beq_iff_eq] at h2
      exact absurd n1 (h2 d ((h d).mp m1))
    | some e =>
      have m2 := List.mem_of_find?_eq_some h2
      have n2 := List.find?_some h2
      simp only [beq_iff_eq] at n2
      rw [names_inj hn m1 ((h e).mpr m2) (n1.trans n2.symm)]

theorem own_find {sc : Scope} {f : Frame} (hn : (names sc).Nodup) (h : Fr sc f) (x : String) :
    (own sc x none).map Sym.decl = (f.find x).map Decl.id := by
  rw [own_decl, find_eq hn h]

theorem own_none_find {sc : Scope} {f : Frame} (h : Fr sc f) (x : String) :
    own sc x none = none ↔ f.find x = none := by
  rw [own_none_iff]
  unfold Frame.find
  simp only [List.find?_eq_none, beq_iff_eq]
  constructor
  · intro H d hd hn
    refine H d ((h d).mpr hd) hn ?_
    cases hk : d.kind <;> simp [clash]
  · intro H d hd hn _
    exact H d ((h d).mp hd) hn

theorem clash_none (k : Kind) : clash none k := by cases k <;> simp [clash]

/-! ### the tree -/

def edge (a : Arena) (m c : Nat) : Prop :=
  ∃ mc cc, a[m]? = some mc ∧ a[c]? = some cc ∧ c ∈ mc.children ∧ cc.fid = mc.fid

inductive Reach (a : Arena) : Nat → Nat → Prop
  | refl (s : Nat) : Reach a s s
  | tail {s m c : Nat} : Reach a s m → edge a m c → Reach a s c

theorem Reach.trans {a : Arena} {x y z : Nat} (h : Reach a x y) (h' : Reach a y z) : Reach a x z := by
  induction h' with
  | refl => exact h
  | tail _ e ih => exact .tail ih e

theorem Reach.head {a : Arena} {x z : Nat} (h : Reach a x z) : x = z ∨ ∃ y, edge a x y ∧ Reach a y z := by
  induction h with
  | refl => exact Or.inl rfl
  | tail h e ih =>
    rcases ih with rfl | ⟨y, h1, h2⟩
    · exact Or.inr ⟨_, e, .refl _⟩
    · exact Or.inr ⟨y, h1, .tail h2 e⟩

/-- Some symbol named `x` of kind `k` sits at scope `s`. -/
def At (a : Arena) (s : Nat) (x : String) (k : Kind) : Prop :=
  ∃ sc, a[s]? = some sc ∧ ∃ d ∈ symsOf sc, d.name = x ∧ d.kind = k

/-- … in the subtree of a child of `s` of the same function, other than `o`. -/
def Closed (a : Arena) (s : Nat) (o : Option Nat) (x : String) (k : Kind) : Prop :=
  ∃ c e, edge a s c ∧ o ≠ some c ∧ Reach a c e ∧ At a e x k

structure WF (a : Arena) (nf : Nat) : Prop where
  kids : ∀ (i : Nat) (sc : Scope), a[i]? = some sc → ∀ c ∈ sc.children,
    ∃ cc, a[c]? = some cc ∧ cc.parent = some i ∧ i < c
  nodup : ∀ (i : Nat) (sc : Scope), a[i]? = some sc → (names sc).Nodup
  fid : ∀ (i : Nat) (sc : Scope), a[i]? = some sc → sc.fid < nf
  funs : ∀ (i : Nat) (sc : Scope), a[i]? = some sc → ∀ y ∈ sc.funs, sc.fid < y.fid ∧ y.fid < nf
  unused : ∀ (i : Nat) (sc : Scope), a[i]? = some sc → sc.unused = true → sc.vars = []

theorem edge_lt {a : Arena} {nf : Nat} (w : WF a nf) {m c : Nat} (h : edge a m c) :
    m < c ∧ ∃ cc, a[c]? = some cc ∧ cc.parent = some m := by
  obtain ⟨mc, cc, h1, h2, h3, _⟩ := h
  obtain ⟨cc', g1, g2, g3⟩ := w.kids m mc h1 c h3
  exact ⟨g3, cc', g1, g2⟩

theorem reach_le {a : Arena} {nf : Nat} (w : WF a nf) {x y : Nat} (h : Reach a x y) : x ≤ y := by
  induction h with
  | refl => exact Nat.le_refl _
  | tail _ e ih => have := (edge_lt w e).1; omega

theorem reach_fid {a : Arena} {x y : Nat} (h : Reach a x y) {sx sy : Scope} (hx : a[x]? = some sx)
    (hy : a[y]? = some sy) : sx.fid = sy.fid := by
  induction h generalizing sy with
  | refl => rw [hx] at hy; rw [Option.some.inj hy]
  | tail _ e ih =>
    obtain ⟨mc, cc, h1, h2, _, h4⟩ := e
    rw [hy] at h2
    cases Option.some.inj h2
    rw [ih h1, h4]

/-- `up` finds something exactly when the subtree holds a match. -/
theorem up_isSome {a : Arena} {nf : Nat} (w : WF a nf) (x : String) (q : Option Nat) :
    ∀ (k s : Nat), s < a.length → a.length ≤ k + s →
      ((up a x q k s).isSome = true ↔ ∃ e kd, Reach a s e ∧ At a e x kd ∧ clash q kd) := by
  intro k
  induction k with
  | zero => intro s h1 h2; omega
  | succ k ih =>
    intro s h1 h2
    have hs : a[s]? = some a[s] := List.getElem?_eq_getElem h1
    generalize a[s] = sc at hs
    unfold up
    rw [hs]
    simp only
    cases ho : own sc x q with
    | some y =>
      simp only [Option.isSome_some, true_iff]
      have : (own sc x q).isSome = true := by rw [ho]; rfl
      obtain ⟨d, hd, hn, hc⟩ := (own_isSome sc x q).mp this
      exact ⟨s, d.kind, .refl _, ⟨sc, hs, d, hd, hn, rfl⟩, hc⟩
    | none =>
      simp only
      rw [own_none_iff] at ho
      rw [List.findSome?_isSome_iff]
      constructor
      · rintro ⟨c, hc, h⟩
        cases hcc : a[c]? with
        | none => simp [hcc] at h
        | some cc =>
          simp only [hcc] at h
          by_cases hf : cc.fid = sc.fid
          · rw [if_pos hf] at h
            obtain ⟨cc', g1, g2, g3⟩ := w.kids s sc hs c hc
            have hlt : c < a.length := by
              rcases Nat.lt_or_ge c a.length with h' | h'
              · exact h'
              · rw [List.getElem?_eq_none h'] at hcc; cases hcc
            obtain ⟨e, kd, r, ha, hcl⟩ := (ih c hlt (by omega)).mp h
            exact ⟨e, kd, Reach.trans (.tail (.refl _) ⟨sc, cc, hs, hcc, hc, hf⟩) r, ha, hcl⟩
          · rw [if_neg hf] at h; cases h
      · rintro ⟨e, kd, r, ha, hcl⟩
        rcases Reach.head r with rfl | ⟨c, he, r'⟩
        · obtain ⟨sc', g, d, hd, hn, hk⟩ := ha
          rw [hs] at g
          cases Option.some.inj g
          subst hk
          exact absurd hcl (ho d hd hn)
        · obtain ⟨mc, cc, g1, g2, g3, g4⟩ := he
          rw [hs] at g1
          cases Option.some.inj g1
          refine ⟨c, g3, ?_⟩
          obtain ⟨cc', g5, _, g6⟩ := w.kids s sc hs c g3
          have hlt : c < a.length := by
            rcases Nat.lt_or_ge c a.length with h' | h'
            · exact h'
            · rw [List.getElem?_eq_none h'] at g2; cases g2
          simp only [g2]
          rw [if_pos g4]
          exact (ih c hlt (by omega)).mpr ⟨e, kd, r', ha, hcl⟩

/-- Two arenas with the same edges out of everything that can be reached reach the same. -/
theorem reach_congr {a b : Arena} {c : Nat} (P : Nat → Prop)
    (hav : ∀ y, Reach a c y → ¬ P y)
    (he : ∀ m y, ¬ P m → (edge a m y ↔ edge b m y)) (y : Nat) :
    Reach a c y ↔ Reach b c y := by
  constructor
  · intro h
    induction h with
    | refl => exact .refl _
    | tail h e ih => exact .tail ih ((he _ _ (hav _ h)).mp e)
  · intro h
    induction h with
    | refl => exact .refl _
    | tail h e ih => exact .tail ih ((he _ _ (hav _ ih)).mpr e)

/-! ### the relation between the arena and the open scopes -/

def Al (a : Arena) : List Nat → List Frame → Prop
  | [s], [f] => s = 0 ∧ f.isFun = true ∧ ∃ sc, a[s]? = some sc ∧ sc.parent = none ∧ sc.isBlock = false ∧
      sc.unused = false ∧ Fr sc f
  | s :: p :: ss, f :: g :: fs =>
      (∃ sc pc, a[s]? = some sc ∧ a[p]? = some pc ∧ sc.parent = some p ∧ p < s ∧ sc.isBlock = !f.isFun ∧
        s ∈ pc.children ∧ (if f.isFun then pc.fid < sc.fid else pc.fid = sc.fid) ∧ sc.unused = false ∧
        Fr sc f) ∧
      Al a (p :: ss) (g :: fs)
  | _, _ => False

def ClOk (a : Arena) : Option Nat → List Nat → List Frame → Prop
  | _, [], [] => True
  | o, s :: ss, f :: fs =>
      (∀ x k, Closed a s o x k ↔ (x, k) ∈ f.gone) ∧ ClOk a (some s) ss fs
  | _, _, _ => False

structure R (st : St) (fs : List Frame) (n : Nat) : Prop where
  nd : st.ndecl = n
  wf : WF st.arena st.nfun
  al : Al st.arena st.stack fs
  cl : ClOk st.arena none st.stack fs

theorem Al.top {a : Arena} {ss : List Nat} {fs : List Frame} (h : Al a ss fs) :
    ∃ s ss' f fs' sc, ss = s :: ss' ∧ fs = f :: fs' ∧ a[s]? = some sc ∧ sc.unused = false ∧ Fr sc f ∧
      sc.isBlock = !f.isFun := by
  match ss, fs, h with
  | [s], [f], ⟨_, hf, sc, h1, _, h3, h4, h5⟩ => exact ⟨s, [], f, [], sc, rfl, rfl, h1, h4, h5, by simp [hf, h3]⟩
  | s :: p :: ss, f :: g :: fs, ⟨⟨sc, pc, h1, _, _, _, h5, _, _, h8, h9⟩, _⟩ =>
    exact ⟨s, p :: ss, f, g :: fs, sc, rfl, rfl, h1, h8, h9, h5⟩

theorem Al.mem {a : Arena} : ∀ {ss : List Nat} {fs : List Frame}, Al a ss fs → ∀ s ∈ ss,
    ∃ sc, a[s]? = some sc ∧ sc.unused = false
  | [s], [f], ⟨_, _, sc, h1, _, _, h4, _⟩, m, hm => by
    rw [List.mem_singleton] at hm; subst hm; exact ⟨sc, h1, h4⟩
  | s :: p :: ss, f :: g :: fs, ⟨⟨sc, pc, h1, _, _, _, _, _, _, h8, _⟩, h'⟩, m, hm => by
    rcases List.mem_cons.mp hm with rfl | hm
    · exact ⟨sc, h1, h8⟩
    · exact Al.mem h' m hm

/-- The stack is strictly decreasing. -/
theorem Al.sorted {a : Arena} : ∀ {ss : List Nat} {fs : List Frame}, Al a ss fs → ∀ s t, ss = s :: t →
    ∀ m ∈ t, m < s
  | [s], [f], _, s', t, e => by cases e; intro m hm; cases hm
  | s :: p :: ss, f :: g :: fs, ⟨⟨sc, pc, _, _, _, h4, _⟩, h'⟩, s', t, e => by
    cases e
    intro m hm
    rcases List.mem_cons.mp hm with rfl | hm
    · exact h4
    · have := Al.sorted h' p ss rfl m hm; omega

/-- The parent of an element of the stack, if any, is the next one. -/
theorem Al.parent {a : Arena} : ∀ {ss : List Nat} {fs : List Frame}, Al a ss fs → ∀ (pre : List Nat) (s : Nat)
    (t : List Nat), ss = pre ++ s :: t → ∀ (sc : Scope), a[s]? = some sc → sc.parent = t.head?
  | [s], [f], ⟨_, _, sc0, h1, h2, _⟩, pre, s', t, e, sc, hs => by
    cases pre with
    | nil =>
      simp only [List.nil_append, List.cons.injEq] at e
      obtain ⟨rfl, rfl⟩ := e
      rw [h1] at hs; cases Option.some.inj hs
      simpa using h2
    | cons _ pre => simp at e
  | s :: p :: ss, f :: g :: fs, ⟨⟨sc0, pc, h1, _, h3, _⟩, h'⟩, pre, s', t, e, sc, hs => by
    cases pre with
    | nil =>
      simp only [List.nil_append, List.cons.injEq] at e
      obtain ⟨rfl, rfl⟩ := e
      rw [h1] at hs; cases Option.some.inj hs
      simpa using h3
    | cons q pre =>
      simp only [List.cons_append, List.cons.injEq] at e
      exact Al.parent h' pre s' t e.2 sc hs

/-- Whatever reaches an element of the stack is on the stack. -/
theorem reach_stack {a : Arena} {nf : Nat} (w : WF a nf) {ss : List Nat} {fs : List Frame} (h : Al a ss fs)
    {c t : Nat} (hr : Reach a c t) (ht : t ∈ ss) : c ∈ ss := by
  induction hr with
  | refl => exact ht
  | tail _ e ih =>
    obtain ⟨_, cc, g1, g2⟩ := edge_lt w e
    obtain ⟨pre, post, rfl⟩ := List.append_of_mem ht
    have := Al.parent h pre _ post rfl cc g1
    rw [g2] at this
    cases post with
    | nil => cases this
    | cons p post =>
      simp only [List.head?_cons, Option.some.injEq] at this
      subst this
      exact ih (by simp)

theorem Al.nodup {a : Arena} : ∀ {ss : List Nat} {fs : List Frame}, Al a ss fs → ss.Nodup := by
  intro ss
  induction ss with
  | nil => intro fs _; exact List.nodup_nil
  | cons x xs ih =>
    intro fs h
    rw [List.nodup_cons]
    refine ⟨fun hx => ?_, ?_⟩
    · have := Al.sorted h x xs rfl x hx; omega
    · match xs, fs, h with
      | [], _, _ => exact List.nodup_nil
      | y :: ys, f :: g :: fs, ⟨_, h'⟩ => exact ih h'

/-- A child of a stack element that is on the stack itself is the one just above. -/
theorem child_on_stack {a : Arena} {ss : List Nat} {fs : List Frame} (h : Al a ss fs)
    {pre post : List Nat} {s c : Nat} (e : ss = pre ++ s :: post) {cc : Scope} (hc : a[c]? = some cc)
    (hp : cc.parent = some s) (hm : c ∈ ss) : pre.getLast? = some c := by
  subst e
  obtain ⟨pre', post', e'⟩ := List.append_of_mem hm
  have h1 := Al.parent h pre' c post' e' cc hc
  rw [hp] at h1
  cases post' with
  | nil => cases h1
  | cons p post' =>
    simp only [List.head?_cons, Option.some.injEq] at h1
    subst h1
    -- s occurs once
    have hnd : (pre ++ s :: post).Nodup := h.nodup
    have e2 : pre ++ s :: post = (pre' ++ [c]) ++ s :: post' := by simpa using e'
    have : pre = pre' ++ [c] := by
      have hn1 : s ∉ pre := by
        intro hx
        have := List.nodup_append.mp hnd
        exact this.2.2 s hx s (by simp) rfl
      have hn2 : s ∉ pre' ++ [c] := by
        intro hx
        rw [e2] at hnd
        have := List.nodup_append.mp hnd
        exact this.2.2 s hx s (by simp) rfl
      clear hnd e' h hm
      generalize pre' ++ [c] = r at *
      induction pre generalizing r with
      | nil =>
        cases r with
        | nil => rfl
        | cons y r => simp only [List.nil_append, List.cons_append, List.cons.injEq] at e2; simp [e2.1] at hn2
      | cons y pre ih =>
        cases r with
        | nil => simp only [List.nil_append, List.cons_append, List.cons.injEq] at e2; simp [e2.1] at hn1
        | cons z r =>
          simp only [List.cons_append, List.cons.injEq] at e2
          rw [e2.1, ih (fun h => hn1 (by simp [h])) r e2.2 (fun h => hn2 (by simp [h]))]
    rw [this]; simp

/-- Closed subtrees avoid the stack. -/
theorem closed_avoid {a : Arena} {nf : Nat} (w : WF a nf) {ss : List Nat} {fs : List Frame} (h : Al a ss fs)
    {pre post : List Nat} {s c y : Nat} (e : ss = pre ++ s :: post) (he : edge a s c)
    (ho : pre.getLast? ≠ some c) (hr : Reach a c y) : y ∉ ss := by
  intro hy
  have hc := reach_stack w h hr hy
  obtain ⟨_, cc, g1, g2⟩ := edge_lt w he
  exact ho (child_on_stack h e g1 g2 hc)

/-! ### preservation: general parts -/

theorem get_mod (a : Arena) (s m : Nat) (g : Scope → Scope) :
    (a.modify s g)[m]? = (a[m]?).map (fun sc => if s = m then g sc else sc) := by
  rw [List.getElem?_modify]
  rfl

theorem closed_congr {a b : Arena} {nf : Nat} (w : WF a nf) {ss : List Nat} {fs : List Frame} (h : Al a ss fs)
    {pre post : List Nat} {s : Nat} (e : ss = pre ++ s :: post)
    (hs : ∀ c, edge a s c ↔ edge b s c)
    (hm : ∀ m, m ∉ ss → ∀ y, edge a m y ↔ edge b m y)
    (hat : ∀ y, y ∉ ss → ∀ x k, At a y x k ↔ At b y x k) (x : String) (k : Kind) :
    Closed a s pre.getLast? x k ↔ Closed b s pre.getLast? x k := by
  constructor
  · rintro ⟨c, y, he, ho, hr, ha⟩
    have av := fun z hz => closed_avoid (y := z) w h e he ho hz
    exact ⟨c, y, (hs c).mp he, ho, (reach_congr (fun z => z ∈ ss) av (fun m z hmz => hm m hmz z) y).mp hr,
      (hat y (av y hr) x k).mp ha⟩
  · rintro ⟨c, y, he, ho, hr, ha⟩
    have he' := (hs c).mpr he
    have av := fun z hz => closed_avoid (y := z) w h e he' ho hz
    have hr' := (reach_congr (fun z => z ∈ ss) av (fun m z hmz => hm m hmz z) y).mpr hr
    exact ⟨c, y, he', ho, hr', (hat y (av y hr') x k).mpr ha⟩

theorem ClOk_congr {a b : Arena} {nf : Nat} (w : WF a nf) {ss : List Nat} {fs : List Frame} (h : Al a ss fs)
    (hm : ∀ m, m ∉ ss → ∀ y, edge a m y ↔ edge b m y)
    (hat : ∀ y, y ∉ ss → ∀ x k, At a y x k ↔ At b y x k) :
    ∀ (t : List Nat) (pre : List Nat) (o : Option Nat) (gs gs' : List Frame), ss = pre ++ t → o = pre.getLast? →
      (∀ s ∈ t, ∀ c, edge a s c ↔ edge b s c) →
      gs'.map Frame.gone = gs.map Frame.gone → ClOk a o t gs → ClOk b o t gs'
  | [], _, _, [], [], _, _, _, _, _ => trivial
  | [], _, _, [], _ :: _, _, _, _, hg, _ => by simp at hg
  | s :: t, pre, o, g :: gs, g' :: gs', e, ho, hs, hg, hc => by
    simp only [List.map_cons, List.cons.injEq] at hg
    refine ⟨?_, ?_⟩
    · intro x k
      rw [ho, ← closed_congr w h e (fun c => hs s (by simp) c) hm hat, hg.1, ← ho]
      exact hc.1 x k
    · refine ClOk_congr w h hm hat t (pre ++ [s]) (some s) gs gs' (by simp [e]) (by simp) ?_ hg.2 hc.2
      exact fun m hm c => hs m (by simp [hm]) c
  | s :: t, pre, o, g :: gs, [], _, _, _, hg, _ => by simp at hg

/-- Same shape; the children may only grow. -/
def Sh (sc sc' : Scope) : Prop :=
  sc'.fid = sc.fid ∧ sc'.parent = sc.parent ∧ sc'.isBlock = sc.isBlock ∧ sc'.unused = sc.unused ∧
    ∀ c ∈ sc.children, c ∈ sc'.children

def FrAll (b : Arena) : List Nat → List Frame → Prop
  | [], [] => True
  | s :: ss, f :: fs => (∃ sc, b[s]? = some sc ∧ Fr sc f) ∧ FrAll b ss fs
  | _, _ => False

theorem Al.frAll {a : Arena} : ∀ {ss : List Nat} {fs : List Frame}, Al a ss fs → FrAll a ss fs
  | [s], [f], ⟨_, _, sc, h1, _, _, _, h5⟩ => ⟨⟨sc, h1, h5⟩, trivial⟩
  | s :: p :: ss, f :: g :: fs, ⟨⟨sc, pc, h1, _, _, _, _, _, _, _, h9⟩, h'⟩ => ⟨⟨sc, h1, h9⟩, Al.frAll h'⟩

theorem Al_upd {a b : Arena} : ∀ {ss : List Nat} {fs fs' : List Frame}, Al a ss fs →
    (∀ m ∈ ss, ∀ sc, a[m]? = some sc → ∃ sc', b[m]? = some sc' ∧ Sh sc sc') →
    FrAll b ss fs' → fs'.map Frame.isFun = fs.map Frame.isFun → Al b ss fs'
  | [s], [f], [f'], ⟨h0, hf, sc, h1, h2, h3, h4, h5⟩, hb, ⟨⟨sc1, g1, g2⟩, _⟩, hi => by
    obtain ⟨sc', k1, k2, k3, k4, k5, _⟩ := hb s (by simp) sc h1
    rw [g1] at k1
    cases Option.some.inj k1
    simp only [List.map_cons, List.map_nil, List.cons.injEq, and_true] at hi
    exact ⟨h0, hi.trans hf, sc1, g1, k3.trans h2, k4.trans h3, k5.trans h4, g2⟩
  | s :: p :: ss, f :: g :: fs, f' :: g' :: fs', ⟨⟨sc, pc, h1, h2, h3, h4, h5, h6, h7, h8, h9⟩, h'⟩, hb,
      ⟨⟨sc1, g1, g2⟩, hfr⟩, hi => by
    obtain ⟨sc', k1, k2, k3, k4, k5, _⟩ := hb s (by simp) sc h1
    rw [g1] at k1
    cases Option.some.inj k1
    obtain ⟨pc', l1, l2, l3, l4, l5, l6⟩ := hb p (by simp) pc h2
    simp only [List.map_cons, List.cons.injEq] at hi
    refine ⟨⟨sc1, pc', g1, l1, k3.trans h3, h4, ?_, l6 s h6, ?_, k5.trans h8, g2⟩, ?_⟩
    · rw [k4, h5, hi.1]
    · rw [k2, l2, hi.1]; exact h7
    · exact Al_upd h' (fun m hm => hb m (List.mem_cons_of_mem _ hm)) hfr (by simp [hi.2])
  | [s], [f], [], _, _, h, _ => h.elim
  | [s], [f], _ :: _ :: _, _, _, h, hi => by simp at hi
  | s :: p :: ss, f :: g :: fs, [], _, _, h, _ => h.elim
  | s :: p :: ss, f :: g :: fs, [_], _, _, _, hi => by simp at hi

/-! ### lookups -/

theorem Al.lt {a : Arena} {ss : List Nat} {fs : List Frame} (h : Al a ss fs) {s : Nat} (hs : s ∈ ss) :
    s < a.length := by
  obtain ⟨sc, h1, _⟩ := h.mem s hs
  rcases Nat.lt_or_ge s a.length with h' | h'
  · exact h'
  · rw [List.getElem?_eq_none h'] at h1; cases h1

theorem down_lookup {a : Arena} {nf : Nat} (w : WF a nf) (x : String) : ∀ {ss : List Nat} {fs : List Frame} {s : Nat}
    {t : List Nat} (k : Nat), Al a ss fs → ss = s :: t → s < k →
    (down a x none k s).map Sym.decl = (lookup fs x).map Decl.id
  | [s0], [f], s, t, k + 1, ⟨_, hf, sc, h1, h2, h3, h4, h5⟩, e, hk => by
    cases e
    have ho := own_find (w.nodup _ _ h1) h5 x
    simp only [down, h1, lookup]
    cases hw : own sc x none with
    | some y =>
      rw [hw] at ho
      cases hf' : f.find x with
      | none => rw [hf'] at ho; simp at ho
      | some d => rw [hf'] at ho; exact ho
    | none =>
      rw [hw] at ho
      cases hf' : f.find x with
      | none => simp [h2, hf]
      | some d => rw [hf'] at ho; simp at ho
  | s0 :: p :: ss, f :: g :: fs, s, t, k + 1, ⟨⟨sc, pc, h1, h2, h3, h4, h5, h6, h7, h8, h9⟩, h'⟩, e, hk => by
    cases e
    have ho := own_find (w.nodup _ _ h1) h9 x
    rw [down, lookup]
    simp only [h1]
    cases hw : own sc x none with
    | some y =>
      rw [hw] at ho
      cases hf' : f.find x with
      | none => rw [hf'] at ho; simp at ho
      | some d => rw [hf'] at ho; exact ho
    | none =>
      rw [hw] at ho
      cases hf' : f.find x with
      | some d => rw [hf'] at ho; simp at ho
      | none =>
        simp only [h3, h2]
        cases hi : f.isFun with
        | true =>
          rw [hi, if_pos rfl] at h7
          rw [if_neg (by omega), if_pos rfl]; rfl
        | false =>
          rw [hi] at h7
          simp only [Bool.false_eq_true, if_false] at h7
          rw [if_pos h7, if_neg (by simp)]
          exact down_lookup w x k h' rfl (by omega)

theorem own_mono {sc : Scope} {x : String} (h : own sc x none = none) (q : Option Nat) : own sc x q = none := by
  rw [own_none_iff] at h ⊢
  exact fun d hd hn _ => h d hd hn (clash_none _)

theorem down_mono (a : Arena) (x : String) (q : Option Nat) : ∀ (k s : Nat), down a x none k s = none →
    down a x q k s = none
  | 0, _, _ => rfl
  | k + 1, s, h => by
    rw [down] at h ⊢
    cases hs : a[s]? with
    | none => rfl
    | some sc =>
      simp only [hs] at h ⊢
      cases ho : own sc x none with
      | some y => simp [ho] at h
      | none =>
        rw [own_mono ho q]
        simp only [ho] at h ⊢
        cases hp : sc.parent with
        | none => rfl
        | some p =>
          simp only [hp] at h ⊢
          cases hpc : a[p]? with
          | none => rfl
          | some pc =>
            simp only [hpc] at h ⊢
            by_cases hf : pc.fid = sc.fid
            · rw [if_pos hf] at h ⊢; exact down_mono a x q k p h
            · rw [if_neg hf]

/-- The search before a declaration, at the top level of a function. -/
theorem upDown_root {a : Arena} {nf : Nat} (w : WF a nf) {ss : List Nat} {fs : List Frame} {s : Nat} {t : List Nat}
    {f : Frame} {r : List Frame} (h : Al a (s :: t) (f :: r)) (hc : ClOk a none (s :: t) (f :: r))
    (hf : f.isFun = true) (x : String) (q : Option Nat) :
    upDown a s x q = none ↔
      (∀ d ∈ f.decls, d.name = x → ¬ clash q d.kind) ∧ ∀ k, (x, k) ∈ f.gone → ¬ clash q k := by
  obtain ⟨s0, t0, f0, r0, sc, e1, e2, hs, hu, hfr, hb⟩ := h.top
  cases e1; cases e2
  have hlt := h.lt (s := s) (by simp)
  have hup : upDown a s x q = none ↔ (own sc x q = none ∧ up a x q a.length s = none) := by
    unfold upDown
    simp only [hs]
    cases ho : own sc x q with
    | some y => simp
    | none =>
      have : (sc.parent.bind fun p => a[p]?) = none ∨
          ∃ pc, (sc.parent.bind fun p => a[p]?) = some pc ∧ pc.fid ≠ sc.fid := by
        match t, r, h with
        | [], [], ⟨_, _, sc', g1, g2, _⟩ =>
          rw [hs] at g1; cases Option.some.inj g1
          exact Or.inl (by simp [g2])
        | p :: t, g :: r, ⟨⟨sc', pc, g1, g2, g3, g4, g5, g6, g7, _⟩, _⟩ =>
          rw [hs] at g1; cases Option.some.inj g1
          rw [hf, if_pos rfl] at g7
          exact Or.inr ⟨pc, by simp [g3, g2], by omega⟩
      rcases this with e | ⟨pc, e, hne⟩
      · simp [e]
      · simp [e, hne]
  rw [hup, own_none_iff, ← Option.not_isSome_iff_eq_none, up_isSome w x q a.length s hlt (by omega)]
  constructor
  · rintro ⟨h1, h2⟩
    refine ⟨fun d hd => h1 d ((hfr d).mpr hd), fun k hk hcl => h2 ?_⟩
    obtain ⟨c, e, he, _, hr, ha⟩ := (hc.1 x k).mpr hk
    exact ⟨e, k, Reach.trans (.tail (.refl _) he) hr, ha, hcl⟩
  · rintro ⟨h1, h2⟩
    refine ⟨fun d hd => h1 d ((hfr d).mp hd), ?_⟩
    rintro ⟨e, k, hr, ha, hcl⟩
    rcases Reach.head hr with rfl | ⟨c, he, hr'⟩
    · obtain ⟨sc', g, d, hd, hn, hk⟩ := ha
      rw [hs] at g; cases Option.some.inj g
      subst hk
      exact h1 d ((hfr d).mp hd) hn hcl
    · exact h2 k ((hc.1 x k).mp ⟨c, e, he, by simp, hr', ha⟩) hcl

/-- The search before a declaration, in a block. -/
theorem upDown_block {a : Arena} {ss : List Nat} {s : Nat} {t : List Nat}
    {f : Frame} {r : List Frame} (h : Al a (s :: t) (f :: r)) (hf : f.isFun = false) (x : String) (q : Option Nat) :
    upDown a s x q = none ↔ down a x q (a.length + 1) s = none := by
  match t, r, h with
  | [], [], ⟨_, g, _⟩ => rw [hf] at g; cases g
  | p :: t, g :: r, ⟨⟨sc, pc, g1, g2, g3, g4, g5, g6, g7, _⟩, _⟩ =>
    rw [hf] at g7
    simp only [Bool.false_eq_true, if_false] at g7
    rw [down]
    simp only [upDown, g1, g3, g2, g7, Option.bind_some, Option.getD_some, if_true]

/-! ### the outermost scope -/

theorem Al.bottom {a : Arena} : ∀ {ss : List Nat} {fs : List Frame}, Al a ss fs →
    ∃ (pre : List Nat) (fpre : List Frame) (m : Scope) (f : Frame), ss = pre ++ [0] ∧ fs = fpre ++ [f] ∧
      pre.length = fpre.length ∧ f.isFun = true ∧ a[0]? = some m ∧ Fr m f ∧ ∀ x, global fs x = f.find x
  | [s], [f], ⟨h0, hf, sc, h1, _, _, _, h5⟩ => by
    subst h0
    exact ⟨[], [], sc, f, rfl, rfl, rfl, hf, h1, h5, fun x => rfl⟩
  | s :: p :: ss, f :: g :: fs, ⟨_, h'⟩ => by
    obtain ⟨pre, fpre, m, f', e1, e2, e3, e4, e5, e6, e7⟩ := Al.bottom h'
    refine ⟨s :: pre, f :: fpre, m, f', by simp [e1], by simp [e2], by simp [e3], e4, e5, e6, fun x => ?_⟩
    rw [← e7 x]; rfl

theorem isType_iff {a : Arena} {nf : Nat} (w : WF a nf) {ss : List Nat} {fs : List Frame} (h : Al a ss fs) (x : String) :
    isType a x = true ↔ typeName fs x := by
  obtain ⟨pre, fpre, m, f, _, _, _, _, h0, hfr, hg⟩ := h.bottom
  have hn := w.nodup _ _ h0
  unfold isType typeName
  simp only [h0, List.any_eq_true, beq_iff_eq, hg]
  rw [← find_eq hn hfr]
  constructor
  · rintro ⟨y, hy, hx⟩
    have hm : (⟨y.name, .type, y.decl⟩ : Decl) ∈ symsOf m := mem_symsOf.mpr (Or.inl ⟨y, hy, rfl⟩)
    cases hf : (symsOf m).find? (fun d => d.name == x) with
    | none =>
      simp only [List.find?_eq_none, beq_iff_eq] at hf
      exact absurd hx (hf _ hm)
    | some d =>
      have m1 := List.mem_of_find?_eq_some hf
      have n1 := List.find?_some hf
      simp only [beq_iff_eq] at n1
      refine ⟨d, rfl, ?_⟩
      rw [names_inj hn m1 hm (n1.trans hx.symm)]
  · rintro ⟨d, hf, hk⟩
    have m1 := List.mem_of_find?_eq_some hf
    have n1 := List.find?_some hf
    simp only [beq_iff_eq] at n1
    rcases mem_symsOf.mp m1 with ⟨y, hy, e⟩ | ⟨y, hy, e⟩ | ⟨y, hy, e⟩
    · exact ⟨y, hy, by rw [← n1, e]⟩
    · rw [e] at hk; cases hk
    · rw [e] at hk; cases hk

end Verif.Core.Scope
