import Verif.Vm.MetaSpec
import Verif.Core.TypesLemmas
import Verif.Core.TypesProps
/-
Lemmas for `MetaProps.lean`: cells of the stack after a call, and the functions a script class keeps for its operators.
-/
namespace Verif.Meta
open Verif Verif.Types

variable {W : World}

theorem puts_below (vs : List W.V) : ∀ (mem : Nat → W.V) (b i : Nat), i < b → puts mem b vs i = mem i := by
  induction vs with
  | nil => intros; rfl
  | cons v vs ih =>
    intro mem b i h
    rw [puts, ih _ _ _ (by omega)]
    simp only [put]
    rw [if_neg (by omega)]

theorem puts_head (mem : Nat → W.V) (b : Nat) (v : W.V) (vs : List W.V) : puts mem b (v :: vs) b = v := by
  rw [puts, puts_below _ _ _ _ (by omega)]
  simp [put]

theorem map_map {α β γ : Type _} (f : α → β) (h : β → γ) (x : Out α) : (x.map f).map h = x.map (fun a => h (f a)) := by
  cases x <;> rfl

theorem map_ok {α β : Type _} {f : α → β} {x : Out α} {b : β} : x.map f = .ok b ↔ ∃ a, x = .ok a ∧ f a = b := by
  cases x <;> simp [Out.map]

theorem bind_ok {α β : Type _} {f : α → Out β} {x : Out α} {b : β} : x.bind f = .ok b ↔ ∃ a, x = .ok a ∧ f a = .ok b := by
  cases x <;> simp [Out.bind]

/-- A call whose arguments are the cells from `b` on. -/
theorem execute_ok {f : Fn} {this : Option W.V} {b : Nat} {m : Mach W} {args : List W.V}
    (ha : ((List.range f.params.length).map fun i => m.mem (b + i)) = args) {rs : List W.V} {s' : W.St}
    (hb : W.body f.code this args m.st = .ok (rs, s')) :
    ∃ m', execute W f this b m = .ok m' ∧ m'.cur = b + W.locals f.code + rs.length ∧ m'.st = s' ∧
      (∀ i, i < b → m'.mem i = m.mem i) ∧ (∀ v vs, rs = v :: vs → m'.mem (b + W.locals f.code) = v) ∧
      (0 < W.locals f.code → m'.mem b = W.undef) ∧
      (rs = [] → ∀ i, b + W.locals f.code ≤ i → m'.mem i = m.mem i) := by
  refine ⟨_, by rw [execute, ha, hb]; rfl, rfl, rfl, ?_, ?_, ?_, ?_⟩
  · intro i hi
    show puts _ _ rs i = _
    rw [puts_below _ _ _ _ (by omega), if_neg (by omega)]
  · rintro v vs rfl
    exact puts_head _ _ _ _
  · intro h
    show puts _ _ rs b = _
    rw [puts_below _ _ _ _ (by omega), if_pos (by omega)]
  · rintro rfl i hi
    simp only [puts]
    rw [if_neg (by omega)]

theorem execute_inv {f : Fn} {this : Option W.V} {b : Nat} {m m' : Mach W} (h : execute W f this b m = .ok m') :
    ∃ rs s', W.body f.code this ((List.range f.params.length).map fun i => m.mem (b + i)) m.st = .ok (rs, s') := by
  rw [execute, map_ok] at h
  obtain ⟨⟨rs, s'⟩, h, _⟩ := h
  exact ⟨rs, s', h⟩

/-! ### The functions kept by a script class -/

/-- Those of `fs` named `n` and owned by `c`. -/
def ownFns (fs : List Sym) (c : Nat) (n : String) : List Sym := fs.filter fun s => s.name == n && s.fn.owner == c

/-- Invariant of script-only histories. -/
structure Kept (g : Reg) (ds : List Def) : Prop where
  old : ∀ d ∈ ds, d.cls < g.length
  owner : ∀ (c : Nat) (ty : Ty), g[c]? = some ty → ∀ s ∈ ty.funs, s.fn.owner < g.length
  same : ∀ (c : Nat) (ty : Ty), g[c]? = some ty → ∀ n, (ownFns ty.funs c n).map (·.fn.code)
    = (ds.filter fun d => d.cls == c && d.name == n).map Def.code
  one : ∀ (c : Nat) (ty : Ty), g[c]? = some ty → ∀ n, (ownFns ty.funs c n).length ≤ 1
  last : ∀ (c : Nat) (ty : Ty), g[c]? = some ty → ∀ n, ownFns ty.funs c n ≠ [] →
    ∃ s, lastSym ty.funs n = some s ∧ s.fn.site = c

theorem kept_nil : Kept [] [] := ⟨by simp, by simp, by simp, by simp, by simp⟩

theorem kept_push {g : Reg} {ds : List Def} (K : Kept g ds) (t : Ty) (ht : ∀ s ∈ t.funs, s.fn.owner < g.length) :
    Kept (g ++ [t]) ds := by
  have hempty : ∀ n, ownFns t.funs g.length n = [] := by
    intro n
    rw [ownFns, List.filter_eq_nil_iff]
    intro s hs
    have := ht s hs
    simp only [Bool.and_eq_true, beq_iff_eq, not_and]
    intro _; omega
  have hds : ∀ n, (ds.filter fun d => d.cls == g.length && d.name == n) = [] := by
    intro n
    rw [List.filter_eq_nil_iff]
    intro d hd
    have := K.old d hd
    simp only [Bool.and_eq_true, beq_iff_eq, not_and]
    intro e; omega
  constructor
  · intro d hd
    have := K.old d hd
    simp; omega
  · intro c ty hc s hs
    simp only [List.length_append, List.length_cons, List.length_nil]
    rcases get_append_cases hc with hc | ⟨rfl, rfl⟩
    · have := K.owner c ty hc s hs; omega
    · have := ht s hs; omega
  · intro c ty hc n
    rcases get_append_cases hc with hc | ⟨rfl, rfl⟩
    · exact K.same c ty hc n
    · rw [hempty, hds]; rfl
  · intro c ty hc n
    rcases get_append_cases hc with hc | ⟨rfl, rfl⟩
    · exact K.one c ty hc n
    · rw [hempty]; simp
  · intro c ty hc n hne
    rcases get_append_cases hc with hc | ⟨rfl, rfl⟩
    · exact K.last c ty hc n hne
    · exact absurd (hempty n) hne

theorem kept_step {cpp : Cpp} {g : Reg} {ds : List Def} (K : Kept g ds) (op : Op)
    (hop : match op with
      | .ext _ _ => False
      | .fun _ _ _ native _ _ => native = false
      | _ => True) :
    Kept (step cpp g op).1 (ds ++ defOf (step cpp g op).2 op) := by
  have sh := step_shape cpp g op
  generalize (step cpp g op).1 = g' at sh ⊢
  generalize (step cpp g op).2 = ok at sh ⊢
  cases sh with
  | same =>
    have : defOf false op = [] := by cases op <;> rfl
    rw [this, List.append_nil]
    exact K
  | @push _ n nat _ h1 h2 =>
    have : defOf ok op = [] := by
      cases op with
      | «fun» c n ps a b k => exact absurd rfl (h1 _ _ _ _ _ _)
      | _ => rfl
    rw [this, List.append_nil]
    exact kept_push K _ (by simp)
  | @derive n b i t hne hf ht =>
    simp only [defOf, List.append_nil]
    exact kept_push K _ (fun s hs => K.owner i t ht s hs)
  | self =>
    simp only [defOf, List.append_nil]
    exact kept_push K _ (by simp)
  | ext => exact absurd hop (by simp)
  | @fn c n ps native static code ty hc hadd =>
    simp only at hop
    subst hop
    have hfresh := addFn_fresh hadd
    have hlen := (List.getElem?_eq_some_iff.1 hc).1
    simp only [defOf, if_true]
    constructor
    · intro d hd
      rw [List.length_set]
      simp only [List.mem_append, List.mem_singleton] at hd
      rcases hd with hd | rfl
      · exact K.old d hd
      · exact hlen
    · intro c' ty' hc' s hs
      rw [List.length_set]
      rcases get_set_cases hc' with ⟨rfl, rfl⟩ | ⟨_, hc'⟩
      · simp only [List.mem_append, List.mem_singleton] at hs
        rcases hs with hs | rfl
        · exact K.owner c' ty hc s hs
        · exact hlen
      · exact K.owner c' ty' hc' s hs
    · intro c' ty' hc' n'
      rcases get_set_cases hc' with ⟨rfl, rfl⟩ | ⟨hne, hc'⟩
      · have := K.same c' ty hc n'
        simp only [ownFns, List.filter_append, List.map_append] at this ⊢
        rw [this]
        by_cases hn : n = n'
        · simp [hn, List.filter_cons]
        · simp [hn, List.filter_cons]
      · rw [K.same c' ty' hc' n']
        simp [List.filter_append, List.filter_cons, Ne.symm hne]
    · intro c' ty' hc' n'
      rcases get_set_cases hc' with ⟨rfl, rfl⟩ | ⟨hne, hc'⟩
      · simp only [ownFns, List.filter_append]
        by_cases hn : n = n'
        · subst hn
          have : ownFns ty.funs c' n = [] := by
            apply Classical.byContradiction
            intro h
            obtain ⟨s, hs, he⟩ := K.last c' ty hc n h
            exact hfresh s hs he
          rw [ownFns] at this
          rw [this]; simp
        · have := K.one c' ty hc n'
          rw [ownFns] at this
          simpa [hn, List.filter_cons] using this
      · exact K.one c' ty' hc' n'
    · intro c' ty' hc' n' hne'
      rcases get_set_cases hc' with ⟨rfl, rfl⟩ | ⟨hne, hc'⟩
      · rw [lastSym_append]
        by_cases hn : n = n'
        · exact ⟨⟨n, ⟨code, false, static, c', c', ps⟩⟩, by simp [lastSym, hn], rfl⟩
        · have : ownFns ty.funs c' n' ≠ [] := by
            simpa [ownFns, List.filter_append, hn, List.filter_cons] using hne'
          obtain ⟨s, hs, he⟩ := K.last c' ty hc n' this
          exact ⟨s, by simp [lastSym, hn] at hs ⊢; exact hs, he⟩
      · exact K.last c' ty' hc' n' hne'

theorem kept_run {cpp : Cpp} (ops : List Op) : ∀ g ds, Kept g ds → ScriptOnly ops →
    Kept (run cpp g ops) (ds ++ defs cpp g ops) := by
  induction ops with
  | nil => intro g ds h _; simpa [defs, run] using h
  | cons op ops ih =>
    intro g ds h hs
    have := ih _ _ (kept_step (cpp := cpp) h op (hs op (by simp))) (fun o ho => hs o (by simp [ho]))
    simpa [defs, run, List.append_assoc] using this

/-- What a script class keeps for an operator is its own definition, if it has one. -/
theorem members_own (cpp : Cpp) (ops : List Op) (hs : ScriptOnly ops) (c : Nat) (n : String) (hc : c < (run cpp [] ops).length) :
    match ownDef (defs cpp [] ops) c n with
    | none => members (run cpp [] ops) c n = []
    | some k => ∃ s, members (run cpp [] ops) c n = [s] ∧ s.fn.code = k := by
  have K := kept_run (cpp := cpp) ops [] [] kept_nil hs
  rw [List.nil_append] at K
  have hty : (run cpp [] ops)[c]? = some ((run cpp [] ops)[c]) := List.getElem?_eq_getElem hc
  have h1 := K.same c _ hty n
  have h2 := K.one c _ hty n
  have hm : members (run cpp [] ops) c n = ownFns ((run cpp [] ops)[c]).funs c n := by
    rw [members, hty]; rfl
  rw [hm]
  generalize ownFns ((run cpp [] ops)[c]).funs c n = l at h1 h2
  unfold ownDef
  rw [← List.getLast?_map, ← h1]
  match l, h2 with
  | [], _ => rfl
  | [s], _ => exact ⟨s, rfl, rfl⟩

theorem members_mem {g : Reg} {c : Nat} {n : String} {s : Sym} (h : s ∈ members g c n) :
    ∃ ty ∈ g, s ∈ ty.funs ∧ s.name = n ∧ s.fn.owner = c := by
  unfold members at h
  split at h
  · simp at h
  · rename_i ty hty
    simp only [List.mem_filter, Bool.and_eq_true, beq_iff_eq] at h
    exact ⟨ty, List.mem_of_getElem? hty, h.1, h.2.1, h.2.2⟩

theorem lookup_mem {g : Reg} {c : Nat} {n : String} {s : Sym} (h : lookup g c n = some s) :
    ∃ ty ∈ g, s ∈ ty.funs ∧ s.name = n := by
  unfold lookup at h
  split at h
  · cases h
  · rename_i ty hty
    unfold lastSym at h
    have h1 := List.mem_of_find?_eq_some h
    have h2 := List.find?_some h
    exact ⟨ty, List.mem_of_getElem? hty, by simpa using h1, by simpa using h2⟩

end Verif.Meta
