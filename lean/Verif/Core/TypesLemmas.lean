import Verif.Core.TypesSpec
/- Lemmas about the type registry. -/
namespace Verif.Types
open Verif

/-! ## The inheritance relation -/

theorem Extends.trans {g : Reg} {a b c : Nat} (h : Extends g a b) (k : Extends g b c) : Extends g a c := by
  induction h with
  | refl => exact k
  | step h1 h2 _ ih => exact .step h1 h2 (ih k)

/-- A height: bases exist and are lower. -/
def Height (g : Reg) (h : Nat → Nat) : Prop :=
  ∀ (a : Nat) (ty : Ty) (x : Nat), g[a]? = some ty → x ∈ ty.bases → x < g.length ∧ h x < h a

theorem Height.le {g : Reg} {h : Nat → Nat} (H : Height g h) {a b : Nat} (e : Extends g a b) : a = b ∨ h b < h a := by
  induction e with
  | refl => exact .inl rfl
  | step h1 h2 _ ih =>
    right
    have := (H _ _ _ h1 h2).2
    rcases ih with rfl | ih
    · exact this
    · omega

theorem Height.antisymm {g : Reg} {h : Nat → Nat} (H : Height g h) {a b : Nat} (e : Extends g a b) (f : Extends g b a) :
    a = b := by
  rcases H.le e with h1 | h1
  · exact h1
  · rcases H.le f with h2 | h2
    · exact h2.symm
    · omega

theorem Height.decides {g : Reg} {h : Nat → Nat} (H : Height g h) (b : Nat) (n : Nat) :
    ∀ a, a < g.length → h a < n → ∃ r, inherits g n a b = some r ∧ (r = true ↔ Extends g a b) := by
  induction n with
  | zero => intro a _ h; omega
  | succ n ih =>
    intro a ha hn
    by_cases hab : a = b
    · exact ⟨true, by simp [inherits, hab], by simp [hab, Extends.refl]⟩
    · have hget : g[a]? = some g[a] := List.getElem?_eq_getElem ha
      have key : ∀ xs : List Nat, (∀ x ∈ xs, x < g.length ∧ h x < n) →
          ∃ r, anyBase (fun x => inherits g n x b) xs = some r ∧ (r = true ↔ ∃ x ∈ xs, Extends g x b) := by
        intro xs
        induction xs with
        | nil => intro _; exact ⟨false, by simp [anyBase], by simp⟩
        | cons x xs ihx =>
          intro hx
          obtain ⟨r1, e1, f1⟩ := ih x (hx x (by simp)).1 (hx x (by simp)).2
          obtain ⟨r2, e2, f2⟩ := ihx (fun y hy => hx y (by simp [hy]))
          cases r1 with
          | true => exact ⟨true, by simp [anyBase, e1], by simp [f1.1 rfl]⟩
          | false =>
            refine ⟨r2, by simp [anyBase, e1, e2], ?_⟩
            have : ¬ Extends g x b := fun e => by simpa using f1.2 e
            simp [this, f2]
      obtain ⟨r, e, f⟩ := key (g[a]).bases (fun x hx => by
        have := H a _ x hget hx
        exact ⟨this.1, by omega⟩)
      refine ⟨r, by simp [inherits, hab, hget, e], f.trans ⟨?_, ?_⟩⟩
      · rintro ⟨x, hx, e⟩
        exact .step hget hx e
      · intro e
        cases e with
        | refl => exact absurd rfl hab
        | step h1 h2 h3 =>
          rw [hget] at h1
          cases h1
          exact ⟨_, h2, h3⟩

/-- Heights can be taken no larger than the number of types. -/
theorem Height.bounded {g : Reg} {h : Nat → Nat} (H : Height g h) :
    ∃ h', Height g h' ∧ ∀ a, h' a ≤ g.length := by
  refine ⟨fun a => ((List.range g.length).filter (fun y => decide (h y < h a))).length, ?_, ?_⟩
  · intro a ty x h1 h2
    obtain ⟨hx, hlt⟩ := H a ty x h1 h2
    refine ⟨hx, ?_⟩
    simp only [← List.countP_eq_length_filter]
    have hmem : x ∈ List.range g.length := by simpa using hx
    obtain ⟨l1, l2, e⟩ := List.append_of_mem hmem
    rw [e]
    simp only [List.countP_append, List.countP_cons]
    have m1 : List.countP (fun y => decide (h y < h x)) l1 ≤ List.countP (fun y => decide (h y < h a)) l1 :=
      List.countP_mono_left (fun y _ hy => by simp only [decide_eq_true_eq] at hy ⊢; omega)
    have m2 : List.countP (fun y => decide (h y < h x)) l2 ≤ List.countP (fun y => decide (h y < h a)) l2 :=
      List.countP_mono_left (fun y _ hy => by simp only [decide_eq_true_eq] at hy ⊢; omega)
    simp only [hlt, decide_true, Nat.lt_irrefl, decide_false]
    simp
    omega
  · intro a
    refine Nat.le_trans (List.length_filter_le _ _) ?_
    simp

/-! ## The invariant of registrations -/

/-- Script classes have bases registered before them; the bases of a native class are native and rank lower. -/
structure Ranked (rank : String → Nat) (g : Reg) : Prop where
  script : ∀ (a : Nat) (ty : Ty) (x : Nat), g[a]? = some ty → ty.native = none → x ∈ ty.bases → x < a
  native : ∀ (a : Nat) (ty : Ty) (x : Nat) (n : String), g[a]? = some ty → ty.native = some n → x ∈ ty.bases →
    ∃ (tx : Ty) (m : String), g[x]? = some tx ∧ tx.native = some m ∧ rank m < rank n

/-- Rank of a type. -/
def rankOf (rank : String → Nat) (t : Ty) : Nat := match t.native with | some n => rank n | none => 0

theorem mem_le_sum (l : List Nat) (x : Nat) (h : x ∈ l) : x ≤ l.sum := by
  induction l with
  | nil => simp at h
  | cons y l ih =>
    rcases List.mem_cons.1 h with rfl | h
    · simp
    · have := ih h
      simp only [List.sum_cons]
      omega

theorem Ranked.height {rank : String → Nat} {g : Reg} (R : Ranked rank g) : ∃ h, Height g h := by
  let B := (g.map (rankOf rank)).sum
  refine ⟨fun a => match g[a]? with
    | some ty => (match ty.native with | some n => rank n | none => B + 1 + a)
    | none => 0, ?_⟩
  intro a ty x h1 h2
  have hal : a < g.length := (List.getElem?_eq_some_iff.1 h1).1
  cases hn : ty.native with
  | none =>
    have hx := R.script a ty x h1 hn h2
    have hxl : x < g.length := by omega
    refine ⟨hxl, ?_⟩
    have hget : g[x]? = some g[x] := List.getElem?_eq_getElem hxl
    simp only [h1, hn, hget]
    cases hm : (g[x]).native with
    | none => simp only; omega
    | some m =>
      have : rank m ≤ B := by
        apply mem_le_sum
        refine List.mem_map.2 ⟨g[x], List.getElem_mem hxl, ?_⟩
        simp [rankOf, hm]
      simp only
      omega
  | some n =>
    obtain ⟨tx, m, e1, e2, e3⟩ := R.native a ty x n h1 hn h2
    refine ⟨(List.getElem?_eq_some_iff.1 e1).1, ?_⟩
    simp only [h1, hn, e1, e2]
    exact e3

theorem findName_lt {g : Reg} {n : String} {i : Nat} (h : findName g n = some i) : i < g.length := by
  unfold findName at h
  rw [List.findIdx?_eq_some_iff_getElem] at h
  exact h.1

theorem findName_name {g : Reg} {n : String} {i : Nat} (h : findName g n = some i) : ∃ ty, g[i]? = some ty ∧ ty.name = n := by
  unfold findName at h
  rw [List.findIdx?_eq_some_iff_getElem] at h
  exact ⟨g[i]'h.1, List.getElem?_eq_getElem h.1, by simpa using h.2.1⟩

theorem findNative_name {g : Reg} {n : String} {i : Nat} (h : findNative g n = some i) :
    ∃ ty, g[i]? = some ty ∧ ty.native = some n := by
  unfold findNative at h
  rw [List.findIdx?_eq_some_iff_getElem] at h
  exact ⟨g[i]'h.1, List.getElem?_eq_getElem h.1, by simpa using h.2.1⟩

theorem addFn_shape {g : Reg} {c : Nat} {ty ty' : Ty} {n : String} {ps : List String} {native static : Bool}
    {code site : Nat} (h : addFn g c ty n ps native static code site = some ty') :
    ty' = { ty with funs := ty.funs ++ [⟨n, ⟨code, native, static, c, site, ps⟩⟩] } := by
  unfold addFn at h
  simp only at h
  split at h
  · split at h
    · exact (Option.some.inj h).symm
    · cases h
  · split at h
    · split at h
      · cases h
      · split at h
        · exact (Option.some.inj h).symm
        · cases h
    · split at h
      · exact (Option.some.inj h).symm
      · cases h

/-- A script function is not defined twice in its class. -/
theorem addFn_fresh {g : Reg} {c : Nat} {ty ty' : Ty} {n : String} {ps : List String} {static : Bool}
    {code site : Nat} (h : addFn g c ty n ps false static code site = some ty') :
    ∀ s, lastSym ty.funs n = some s → s.fn.site ≠ c := by
  intro s hs e
  unfold addFn at h
  simp [hs, e] at h

theorem copyFns_shape (g : Reg) (c : Nat) (fs : List Sym) :
    ∀ ty, (copyFns g c fs ty).1.bases = ty.bases ∧ (copyFns g c fs ty).1.native = ty.native
      ∧ (copyFns g c fs ty).1.name = ty.name
      ∧ ((copyFns g c fs ty).2 = true →
          (copyFns g c fs ty).1.funs = ty.funs ++ fs.map (fun s => ⟨s.name, { s.fn with owner := c }⟩)) := by
  induction fs with
  | nil => intro ty; simp [copyFns]
  | cons s fs ih =>
    intro ty
    unfold copyFns
    split
    · simp
    · rename_i ty' h
      have := addFn_shape h
      obtain ⟨i1, i2, i3, i4⟩ := ih ty'
      refine ⟨by rw [i1, this], by rw [i2, this], by rw [i3, this], fun ok => ?_⟩
      rw [i4 ok, this]
      simp

/-- The possible outcomes of one operation. -/
inductive StepShape (cpp : Cpp) (g : Reg) : Op → Reg → Bool → Prop where
  | same {op} : StepShape cpp g op g false
  | push {op} {n : String} {nat : Option String} {ok : Bool} :
      (∀ c n ps a b k, op ≠ .fun c n ps a b k) → (∀ t b, op ≠ .ext t b) →
      StepShape cpp g op (g ++ [⟨n, nat, [], []⟩]) ok
  | derive {n b : String} {i : Nat} {t : Ty} : n ≠ b → findName g b = some i → g[i]? = some t →
      StepShape cpp g (.cls n (some b)) (g ++ [⟨n, none, [i], t.funs⟩]) true
  | self {n : String} : StepShape cpp g (.cls n (some n)) (g ++ [⟨n, none, [g.length], []⟩]) true
  | ext {t b : String} {ti bi : Nat} {ty bt : Ty} {ok : Bool} : findNative g t = some ti → findNative g b = some bi →
      g[ti]? = some ty → g[bi]? = some bt → inherits g (g.length + 1) ti bi = some false → cpp b t = true →
      (copyFns g ti bt.funs { ty with bases := ty.bases ++ [bi] }).2 = ok →
      StepShape cpp g (.ext t b) (g.set ti (copyFns g ti bt.funs { ty with bases := ty.bases ++ [bi] }).1) ok
  | fn {c : Nat} {n : String} {ps : List String} {native static : Bool} {code : Nat} {ty : Ty} : g[c]? = some ty →
      addFn g c ty n ps native static code c
        = some { ty with funs := ty.funs ++ [⟨n, ⟨code, native, static, c, c, ps⟩⟩] } →
      StepShape cpp g (.fun c n ps native static code)
        (g.set c { ty with funs := ty.funs ++ [⟨n, ⟨code, native, static, c, c, ps⟩⟩] }) true

theorem findName_append (g : Reg) (t : Ty) (n : String) :
    findName (g ++ [t]) n = match findName g n with
      | some i => some i
      | none => if t.name == n then some g.length else none := by
  unfold findName
  rw [List.findIdx?_append]
  cases h : List.findIdx? (fun t => t.name == n) g with
  | some i => simp
  | none =>
    by_cases e : t.name = n
    · simp [List.findIdx?_cons, e]
    · simp [List.findIdx?_cons, e]

theorem regCls_shape (cpp : Cpp) (g : Reg) (n : String) (base : Option String) :
    StepShape cpp g (.cls n base) (regCls g n base).1 (regCls g n base).2 := by
  unfold regCls
  split
  · rename_i hok
    cases base with
    | none => exact .push (by intros; simp) (by intros; simp)
    | some b =>
      simp only [findName_append]
      have hfresh : findName g n = none := by
        simp only [nameOk, Bool.and_eq_true, Option.isNone_iff_eq_none] at hok
        exact hok.2
      by_cases hnb : n = b
      · subst hnb
        simp only [hfresh, beq_self_eq_true, if_true]
        have : (g ++ [(⟨n, none, [], []⟩ : Ty)])[g.length]? = some ⟨n, none, [], []⟩ := by simp
        simp only [this]
        exact .self
      · cases h : findName g b with
        | none =>
          simp only [beq_iff_eq, hnb, if_false]
          exact .push (by intros; simp) (by intros; simp)
        | some i =>
          simp only
          have hl := findName_lt h
          have : (g ++ [(⟨n, none, [], []⟩ : Ty)])[i]? = some g[i] := by
            rw [List.getElem?_append_left hl, List.getElem?_eq_getElem hl]
          simp only [this]
          exact .derive hnb h (List.getElem?_eq_getElem hl)
  · exact .same

theorem step_shape (cpp : Cpp) (g : Reg) (op : Op) : StepShape cpp g op (step cpp g op).1 (step cpp g op).2 := by
  cases op with
  | cls n base => exact regCls_shape cpp g n base
  | prim n nat =>
    simp only [step, regCls]
    by_cases hh : nameOk g n = true
    · simp only [hh, if_true, List.dropLast_concat]
      exact .push (by intros; simp) (by intros; simp)
    · simp only [hh]
      exact .same
  | nat n nat =>
    unfold step
    simp only
    split
    · exact .push (by intros; simp) (by intros; simp)
    · exact .same
  | ext t b =>
    unfold step
    simp only
    split
    · rename_i bi ti hb ht
      split
      · rename_i ty bt h1 h2
        split
        · rename_i hc
          simp only [Bool.and_eq_true, beq_iff_eq] at hc
          exact .ext ht hb h1 h2 hc.1.1 hc.1.2 rfl
        · exact .same
      · exact .same
    · exact .same
  | «fun» c n ps native static code =>
    unfold step
    simp only
    split
    · exact .same
    · rename_i ty h
      split
      · exact .same
      · rename_i ty' h'
        have := addFn_shape h'
        subst this
        exact .fn h h'

theorem get_append_cases {g : Reg} {t ty : Ty} {a : Nat} (h : (g ++ [t])[a]? = some ty) :
    g[a]? = some ty ∨ (a = g.length ∧ ty = t) := by
  by_cases ha : a < g.length
  · rw [List.getElem?_append_left ha] at h
    exact .inl h
  · rw [List.getElem?_append_right (by omega)] at h
    have : a - g.length = 0 := by
      have := (List.getElem?_eq_some_iff.1 h).1
      simp at this
      omega
    rw [this] at h
    simp at h
    exact .inr ⟨by omega, h.symm⟩

theorem get_append_old {g : Reg} (t : Ty) {ty : Ty} {a : Nat} (h : g[a]? = some ty) : (g ++ [t])[a]? = some ty := by
  rw [List.getElem?_append_left (List.getElem?_eq_some_iff.1 h).1]
  exact h

theorem get_set_cases {g : Reg} {t ty : Ty} {i a : Nat} (h : (g.set i t)[a]? = some ty) :
    (a = i ∧ ty = t) ∨ (a ≠ i ∧ g[a]? = some ty) := by
  by_cases ha : i = a
  · subst ha
    have hl : i < g.length := by
      have := (List.getElem?_eq_some_iff.1 h).1
      simpa using this
    rw [List.getElem?_set_self hl] at h
    exact .inl ⟨rfl, (Option.some.inj h).symm⟩
  · rw [List.getElem?_set_ne ha] at h
    exact .inr ⟨fun e => ha e.symm, h⟩

theorem ranked_step {cpp : Cpp} {rank : String → Nat} (hr : ∀ b t, b ≠ t → cpp b t = true → rank b < rank t)
    {g : Reg} (R : Ranked rank g) (op : Op) (hs : ∀ n, op ≠ .cls n (some n)) : Ranked rank (step cpp g op).1 := by
  have sh := step_shape cpp g op
  generalize (step cpp g op).1 = g' at sh ⊢
  generalize (step cpp g op).2 = ok at sh
  cases sh with
  | same => exact R
  | push =>
    constructor
    · intro a ty x h1 h2 h3
      rcases get_append_cases h1 with h1 | ⟨_, rfl⟩
      · exact R.script a ty x h1 h2 h3
      · simp at h3
    · intro a ty x n h1 h2 h3
      rcases get_append_cases h1 with h1 | ⟨_, rfl⟩
      · obtain ⟨tx, m, e1, e2⟩ := R.native a ty x n h1 h2 h3
        exact ⟨tx, m, get_append_old _ e1, e2⟩
      · simp at h3
  | derive hne hf ht =>
    constructor
    · intro a ty x h1 h2 h3
      rcases get_append_cases h1 with h1 | ⟨rfl, rfl⟩
      · exact R.script a ty x h1 h2 h3
      · simp only [List.mem_singleton] at h3
        subst h3
        exact findName_lt hf
    · intro a ty x n h1 h2 h3
      rcases get_append_cases h1 with h1 | ⟨_, rfl⟩
      · obtain ⟨tx, m, e1, e2⟩ := R.native a ty x n h1 h2 h3
        exact ⟨tx, m, get_append_old _ e1, e2⟩
      · simp at h2
  | self => exact absurd rfl (hs _)
  | @ext t b ti bi ty bt _ hft hfb ht hb hi hc hok =>
    obtain ⟨c1, c2, _, _⟩ := copyFns_shape g ti bt.funs { ty with bases := ty.bases ++ [bi] }
    obtain ⟨ty0, q1, q2⟩ := findNative_name hft
    obtain ⟨bt0, q3, q4⟩ := findNative_name hfb
    rw [ht] at q1; cases q1
    rw [hb] at q3; cases q3
    have hne : bi ≠ ti := by
      rintro rfl
      simp [inherits] at hi
    have hbt : b ≠ t := by
      rintro rfl
      rw [hfb] at hft
      exact hne (Option.some.inj hft)
    have keep : ∀ (x : Nat) (tx : Ty) (m : String), g[x]? = some tx → tx.native = some m →
        ∃ tx' : Ty, (g.set ti (copyFns g ti bt.funs { ty with bases := ty.bases ++ [bi] }).1)[x]? = some tx' ∧
          tx'.native = some m := by
      intro x tx m hx hm
      by_cases e : ti = x
      · subst e
        rw [List.getElem?_set_self (List.getElem?_eq_some_iff.1 hx).1]
        rw [ht] at hx; cases hx
        exact ⟨_, rfl, by rw [c2]; exact hm⟩
      · rw [List.getElem?_set_ne e]
        exact ⟨tx, hx, hm⟩
    constructor
    · intro a ty' x h1 h2 h3
      rcases get_set_cases h1 with ⟨rfl, rfl⟩ | ⟨_, h1⟩
      · rw [c2] at h2
        simp [q2] at h2
      · exact R.script a ty' x h1 h2 h3
    · intro a ty' x n h1 h2 h3
      rcases get_set_cases h1 with ⟨rfl, rfl⟩ | ⟨_, h1⟩
      · rw [c1] at h3
        rw [c2] at h2
        simp only [q2, Option.some.injEq] at h2
        subst h2
        simp only [List.mem_append, List.mem_singleton] at h3
        rcases h3 with h3 | rfl
        · obtain ⟨tx, m, e1, e2, e3⟩ := R.native a ty x t ht q2 h3
          obtain ⟨tx', f1, f2⟩ := keep x tx m e1 e2
          exact ⟨tx', m, f1, f2, e3⟩
        · obtain ⟨tx', f1, f2⟩ := keep x bt b hb q4
          exact ⟨tx', b, f1, f2, hr b t hbt hc⟩
      · obtain ⟨tx, m, e1, e2, e3⟩ := R.native a ty' x n h1 h2 h3
        obtain ⟨tx', f1, f2⟩ := keep x tx m e1 e2
        exact ⟨tx', m, f1, f2, e3⟩
  | @fn c n ps native static code ty hc _ =>
    have keep : ∀ (x : Nat) (tx : Ty) (m : String), g[x]? = some tx → tx.native = some m →
        ∃ tx' : Ty, (g.set c { ty with funs := ty.funs ++ [⟨n, ⟨code, native, static, c, c, ps⟩⟩] })[x]? = some tx' ∧
          tx'.native = some m := by
      intro x tx m hx hm
      by_cases e : c = x
      · subst e
        rw [List.getElem?_set_self (List.getElem?_eq_some_iff.1 hx).1]
        rw [hc] at hx; cases hx
        exact ⟨_, rfl, hm⟩
      · rw [List.getElem?_set_ne e]
        exact ⟨tx, hx, hm⟩
    constructor
    · intro a ty' x h1 h2 h3
      rcases get_set_cases h1 with ⟨rfl, rfl⟩ | ⟨_, h1⟩
      · exact R.script a ty x hc h2 h3
      · exact R.script a ty' x h1 h2 h3
    · intro a ty' x m h1 h2 h3
      have : ∃ (tx : Ty) (m' : String), g[x]? = some tx ∧ tx.native = some m' ∧ rank m' < rank m := by
        rcases get_set_cases h1 with ⟨rfl, rfl⟩ | ⟨_, h1⟩
        · exact R.native a ty x m hc h2 h3
        · exact R.native a ty' x m h1 h2 h3
      obtain ⟨tx, m', e1, e2, e3⟩ := this
      obtain ⟨tx', f1, f2⟩ := keep x tx m' e1 e2
      exact ⟨tx', m', f1, f2, e3⟩

theorem ranked_run {cpp : Cpp} {rank : String → Nat} (hr : ∀ b t, b ≠ t → cpp b t = true → rank b < rank t) (ops : List Op) :
    ∀ g, Ranked rank g → NoSelf ops → Ranked rank (run cpp g ops) := by
  induction ops with
  | nil => exact fun g h _ => h
  | cons op ops ih =>
    intro g h hs
    exact ih _ (ranked_step hr h op (fun n e => hs n (by simp [e]))) (fun n e => hs n (by simp [e]))

theorem height_run {cpp : Cpp} (hc : CppAcyclic cpp) {ops : List Op} (hs : NoSelf ops) :
    ∃ h, Height (run cpp [] ops) h ∧ ∀ a, h a ≤ (run cpp [] ops).length := by
  obtain ⟨rank, hr⟩ := hc
  obtain ⟨h, H⟩ := (ranked_run hr ops [] ⟨by simp, by simp⟩ hs).height
  exact H.bounded

theorem run_append (cpp : Cpp) (ops ops' : List Op) : ∀ g, run cpp g (ops ++ ops') = run cpp (run cpp g ops) ops' := by
  induction ops with
  | nil => intro g; rfl
  | cons op ops ih => intro g; exact ih _

theorem Extends.mono {g g' : Reg} (h : ∀ (a : Nat) (ty : Ty), g[a]? = some ty → ∃ ty', g'[a]? = some ty' ∧ ∀ x ∈ ty.bases, x ∈ ty'.bases)
    {a b : Nat} (e : Extends g a b) : Extends g' a b := by
  induction e with
  | refl => exact .refl _
  | step h1 h2 _ ih =>
    obtain ⟨ty', q1, q2⟩ := h _ _ h1
    exact .step q1 (q2 _ h2) ih

/-- Bases never go away. -/
theorem step_keeps_bases (cpp : Cpp) (g : Reg) (op : Op) (a : Nat) (ty : Ty) (h : g[a]? = some ty) :
    ∃ ty', (step cpp g op).1[a]? = some ty' ∧ ∀ x ∈ ty.bases, x ∈ ty'.bases := by
  have sh := step_shape cpp g op
  generalize (step cpp g op).1 = g' at sh ⊢
  generalize (step cpp g op).2 = ok at sh
  have hl := (List.getElem?_eq_some_iff.1 h).1
  cases sh with
  | same => exact ⟨ty, h, fun _ => id⟩
  | push => exact ⟨ty, get_append_old _ h, fun _ => id⟩
  | derive => exact ⟨ty, get_append_old _ h, fun _ => id⟩
  | self => exact ⟨ty, get_append_old _ h, fun _ => id⟩
  | @ext t b ti bi ty1 bt _ hft hfb ht hb hi hc hok =>
    by_cases e : ti = a
    · subst e
      rw [List.getElem?_set_self hl]
      refine ⟨_, rfl, fun x hx => ?_⟩
      rw [ht] at h; cases h
      rw [(copyFns_shape g ti bt.funs _).1]
      simp [hx]
    · rw [List.getElem?_set_ne e]
      exact ⟨ty, h, fun _ => id⟩
  | @fn c n ps native static code ty1 hc _ =>
    by_cases e : c = a
    · subst e
      rw [List.getElem?_set_self hl]
      rw [hc] at h; cases h
      exact ⟨_, rfl, fun _ => id⟩
    · rw [List.getElem?_set_ne e]
      exact ⟨ty, h, fun _ => id⟩

/-- Without `extends`, the bases of the types already registered stay as they are. -/
theorem step_same_bases (cpp : Cpp) (g : Reg) (op : Op) (hop : ∀ t b, op ≠ .ext t b) (a : Nat) (ha : a < g.length) :
    ((step cpp g op).1[a]?).map Ty.bases = (g[a]?).map Ty.bases := by
  have sh := step_shape cpp g op
  generalize (step cpp g op).1 = g' at sh ⊢
  generalize (step cpp g op).2 = ok at sh
  cases sh with
  | same => rfl
  | push => rw [List.getElem?_append_left ha]
  | derive => rw [List.getElem?_append_left ha]
  | self => rw [List.getElem?_append_left ha]
  | ext => exact absurd rfl (hop _ _)
  | @fn c n ps native static code ty1 hc _ =>
    by_cases e : c = a
    · subst e
      rw [List.getElem?_set_self ha, hc]
      rfl
    · rw [List.getElem?_set_ne e]

theorem step_length (cpp : Cpp) (g : Reg) (op : Op) : g.length ≤ (step cpp g op).1.length := by
  have sh := step_shape cpp g op
  generalize (step cpp g op).1 = g' at sh ⊢
  generalize (step cpp g op).2 = ok at sh
  cases sh <;> simp

theorem run_length (cpp : Cpp) (ops : List Op) : ∀ g, g.length ≤ (run cpp g ops).length := by
  induction ops with
  | nil => exact fun g => Nat.le_refl _
  | cons op ops ih => exact fun g => Nat.le_trans (step_length cpp g op) (ih _)

/-! ## Member functions -/

/-- Name, body and the class it was written in. -/
def key (s : Sym) : String × Nat × Nat := (s.name, s.fn.code, s.fn.site)

theorem lastSym_append (l1 l2 : List Sym) (n : String) : lastSym (l1 ++ l2) n = (lastSym l2 n).or (lastSym l1 n) := by
  unfold lastSym
  rw [List.reverse_append, List.find?_append]

/-- Last body with a name in a list of (name, body, class). -/
def lastKey (l : List (String × Nat × Nat)) (n : String) : Option Nat := (l.reverse.find? (fun p => p.1 == n)).map (·.2.1)

theorem lastSym_key (l : List Sym) (n : String) : (lastSym l n).map (·.fn.code) = lastKey (l.map key) n := by
  unfold lastSym lastKey
  rw [← List.map_reverse]
  induction l.reverse with
  | nil => rfl
  | cons s l ih =>
    simp only [List.map_cons, List.find?_cons, key]
    split
    · rfl
    · exact ih

theorem lastKey_append (l1 l2 : List (String × Nat × Nat)) (n : String) : lastKey (l1 ++ l2) n = (lastKey l2 n).or (lastKey l1 n) := by
  unfold lastKey
  rw [List.reverse_append, List.find?_append]
  cases List.find? (fun p => p.1 == n) l2.reverse <;> rfl

/-- The definitions of a class, as (name, body, class). -/
def ownKeys (ds : List Def) (c : Nat) : List (String × Nat × Nat) := (ds.filter (fun d => d.cls == c)).map (fun d => (d.name, d.code, c))

theorem ownKeys_last (ds : List Def) (c : Nat) (n : String) : lastKey (ownKeys ds c) n = ownDef ds c n := by
  unfold lastKey ownKeys ownDef
  rw [← List.head?_reverse, ← List.filter_reverse, ← List.map_reverse, ← List.filter_reverse]
  induction ds.reverse with
  | nil => rfl
  | cons d ds ih =>
    by_cases h1 : d.cls = c
    · by_cases h2 : d.name = n
      · simp [h1, h2]
      · simp [h1, h2] at ih ⊢
        simpa using ih
    · simp [h1] at ih ⊢
      simpa using ih

/-- The invariant of orderly histories. -/
structure Chain (g : Reg) (ds : List Def) : Prop where
  /-- Definitions belong to registered classes. -/
  old : ∀ d ∈ ds, d.cls < g.length
  /-- Every class is its base's functions followed by its own. -/
  shape : ∀ (c : Nat) (ty : Ty), g[c]? = some ty →
    (ty.bases = [] ∧ ty.funs.map key = ownKeys ds c) ∨
    (∃ (b : Nat) (tb : Ty), ty.bases = [b] ∧ g[b]? = some tb ∧ b ≠ c ∧ ty.funs.map key = tb.funs.map key ++ ownKeys ds c)

theorem ownKeys_append (ds ds' : List Def) (c : Nat) : ownKeys (ds ++ ds') c = ownKeys ds c ++ ownKeys ds' c := by
  simp [ownKeys]

theorem ownKeys_fresh {ds : List Def} {c : Nat} (h : ∀ d ∈ ds, d.cls < c) : ownKeys ds c = [] := by
  unfold ownKeys
  rw [List.map_eq_nil_iff, List.filter_eq_nil_iff]
  intro d hd
  have := h d hd
  simp; omega

theorem orderly_noSelf {cpp : Cpp} {g : Reg} {op : Op} (h : Orderly cpp g op) : ∀ n, op ≠ .cls n (some n) := by
  rintro n rfl
  exact h rfl

theorem chain_step {cpp : Cpp} {g : Reg} {ds : List Def} (C : Chain g ds) (op : Op) (ho : Orderly cpp g op) :
    Chain (step cpp g op).1 (ds ++ defOf (step cpp g op).2 op) := by
  have sh := step_shape cpp g op
  have hns := orderly_noSelf ho
  by_cases hsame : (step cpp g op).1 = g ∧ (step cpp g op).2 = false
  · rw [hsame.1, hsame.2]
    have : defOf false op = [] := by cases op <;> rfl
    rw [this, List.append_nil]
    exact C
  have hext : ∀ t b, op = .ext t b → (step cpp g op).1 ≠ g → (step cpp g op).2 = true ∧
      ∀ (ti : Nat) (ty : Ty), findNative g t = some ti → g[ti]? = some ty → ty.bases = [] ∧ ty.funs = [] ∧ ¬ HasSub g ti := by
    rintro t b rfl
    exact ho
  have hfun : ∀ c n ps a b k, op = .fun c n ps a b k → ¬ HasSub g c := by
    rintro c n ps a b k rfl
    exact ho
  clear ho
  generalize e1 : (step cpp g op).1 = g' at sh hsame hext ⊢
  generalize e2 : (step cpp g op).2 = ok at sh hsame hext ⊢
  clear e1 e2
  have push : ∀ (t : Ty), ((t.bases = [] ∧ t.funs = []) ∨ ∃ (b : Nat) (tb : Ty), t.bases = [b] ∧ g[b]? = some tb ∧ t.funs = tb.funs) →
      Chain (g ++ [t]) ds := by
    intro t ht
    constructor
    · intro d hd
      have := C.old d hd
      simp only [List.length_append, List.length_cons, List.length_nil]
      omega
    · intro c ty hc
      rcases get_append_cases hc with hc | ⟨rfl, rfl⟩
      · rcases C.shape c ty hc with h | ⟨b, tb, h1, h2, h3, h4⟩
        · exact .inl h
        · exact .inr ⟨b, tb, h1, get_append_old _ h2, h3, h4⟩
      · have hf := ownKeys_fresh C.old
        rcases ht with ⟨h1, h2⟩ | ⟨b, tb, h1, h2, h3⟩
        · exact .inl ⟨h1, by simp [h2, hf]⟩
        · have := (List.getElem?_eq_some_iff.1 h2).1
          exact .inr ⟨b, tb, h1, get_append_old _ h2, by omega, by simp [h3, hf]⟩
  cases sh with
  | same => exact absurd ⟨rfl, rfl⟩ hsame
  | @push _ n nat _ hop1 hop2 =>
    have : defOf ok op = [] := by
      cases op with
      | «fun» c n ps a b k => exact absurd rfl (hop1 _ _ _ _ _ _)
      | _ => rfl
    rw [this, List.append_nil]
    exact push _ (.inl ⟨rfl, rfl⟩)
  | @derive n b i t hne hf ht =>
    simp only [defOf, List.append_nil]
    exact push _ (.inr ⟨i, t, rfl, ht, rfl⟩)
  | self => exact absurd rfl (hns _)
  | @ext t b ti bi ty bt _ hft hfb ht hb hi hc hok =>
    simp only [defOf, List.append_nil]
    have hne : bi ≠ ti := by
      rintro rfl
      simp [inherits] at hi
    obtain ⟨c1, _, _, c4⟩ := copyFns_shape g ti bt.funs { ty with bases := ty.bases ++ [bi] }
    have hchg : g.set ti (copyFns g ti bt.funs { ty with bases := ty.bases ++ [bi] }).1 ≠ g := by
      intro e
      have := congrArg (fun l : Reg => l[ti]?) e
      simp only [List.getElem?_set_self (List.getElem?_eq_some_iff.1 ht).1, ht, Option.some.injEq] at this
      have := congrArg Ty.bases this
      rw [c1] at this
      have := congrArg List.length this
      simp at this
    obtain ⟨hok', hcl⟩ := hext t b rfl hchg
    obtain ⟨hb0, hf0, hns'⟩ := hcl ti ty hft ht
    have hlen := (List.getElem?_eq_some_iff.1 ht).1
    subst hok
    have hown : ownKeys ds ti = [] := by
      rcases C.shape ti ty ht with ⟨_, h⟩ | ⟨b, tb, h, _⟩
      · rw [← h, hf0]; rfl
      · rw [hb0] at h; cases h
    constructor
    · intro d hd
      rw [List.length_set]
      exact C.old d hd
    · intro c ty' hc'
      rcases get_set_cases hc' with ⟨rfl, rfl⟩ | ⟨hci, hc'⟩
      · refine .inr ⟨bi, bt, by rw [c1, hb0]; rfl, ?_, hne, ?_⟩
        · rw [List.getElem?_set_ne (Ne.symm hne)]; exact hb
        · rw [c4 hok', hf0, hown]
          simp [key, Function.comp_def]
      · rcases C.shape c ty' hc' with h | ⟨b', tb, h1, h2, h3, h4⟩
        · exact .inl h
        · have : ti ≠ b' := by
            rintro rfl
            exact hns' ⟨ty', List.mem_of_getElem? hc', by simp [h1]⟩
          exact .inr ⟨b', tb, h1, by rw [List.getElem?_set_ne this]; exact h2, h3, h4⟩
  | @fn c n ps native static code ty hc _ =>
    have hns' := hfun c n ps native static code rfl
    have hlen := (List.getElem?_eq_some_iff.1 hc).1
    simp only [defOf, if_true]
    have hself : ownKeys (ds ++ [⟨c, n, code⟩]) c = ownKeys ds c ++ [(n, code, c)] := by
      rw [ownKeys_append]
      simp [ownKeys]
    have hother : ∀ c', c' ≠ c → ownKeys (ds ++ [⟨c, n, code⟩]) c' = ownKeys ds c' := by
      intro c' h
      rw [ownKeys_append]
      simp [ownKeys, Ne.symm h]
    constructor
    · intro d hd
      rw [List.length_set]
      simp only [List.mem_append, List.mem_singleton] at hd
      rcases hd with hd | rfl
      · exact C.old d hd
      · exact hlen
    · intro c' ty' hc'
      rcases get_set_cases hc' with ⟨rfl, rfl⟩ | ⟨hci, hc'⟩
      · rw [hself]
        rcases C.shape c' ty hc with ⟨h1, h2⟩ | ⟨b, tb, h1, h2, h3, h4⟩
        · exact .inl ⟨h1, by simp [h2, key]⟩
        · refine .inr ⟨b, tb, h1, ?_, h3, by simp [h4, key]⟩
          rw [List.getElem?_set_ne (Ne.symm h3)]; exact h2
      · rw [hother c' hci]
        rcases C.shape c' ty' hc' with h | ⟨b', tb, h1, h2, h3, h4⟩
        · exact .inl h
        · have : c ≠ b' := by
            rintro rfl
            exact hns' ⟨ty', List.mem_of_getElem? hc', by simp [h1]⟩
          exact .inr ⟨b', tb, h1, by rw [List.getElem?_set_ne this]; exact h2, h3, h4⟩

theorem chain_run {cpp : Cpp} (ops : List Op) :
    ∀ g ds, Chain g ds → OrderlyRun cpp g ops → Chain (run cpp g ops) (ds ++ defs cpp g ops) := by
  induction ops with
  | nil => intro g ds h _; simpa [defs, run] using h
  | cons op ops ih =>
    intro g ds h ho
    have := ih _ _ (chain_step h op ho.1) ho.2
    simpa [defs, run, List.append_assoc] using this

theorem orderlyRun_noSelf {cpp : Cpp} (ops : List Op) : ∀ g, OrderlyRun cpp g ops → NoSelf ops := by
  induction ops with
  | nil => intro g _ n h; simp at h
  | cons op ops ih =>
    intro g h n hn
    rcases List.mem_cons.1 hn with rfl | hn
    · exact h.1 rfl
    · exact ih _ h.2 n hn

theorem chain_nil : Chain [] [] := ⟨by simp, by simp⟩

theorem chain_nearest {g : Reg} {ds : List Def} {h : Nat → Nat} (H : Height g h) (C : Chain g ds) (n : String) :
    ∀ k c, h c < k → c < g.length → Nearest g ds c n ((lookup g c n).map (·.fn.code)) := by
  intro k
  induction k with
  | zero => intro c hc; omega
  | succ k ih =>
    intro c hk hc
    have hget : g[c]? = some g[c] := List.getElem?_eq_getElem hc
    have hl : (lookup g c n).map (·.fn.code) = lastKey ((g[c]).funs.map key) n := by
      unfold lookup
      rw [hget]
      exact lastSym_key _ _
    rw [hl]
    rcases C.shape c _ hget with ⟨h1, h2⟩ | ⟨b, tb, h1, h2, h3, h4⟩
    · rw [h2, ownKeys_last]
      cases e : ownDef ds c n with
      | some k => exact .own e
      | none => exact .none e hget h1
    · rw [h4, lastKey_append, ownKeys_last]
      cases e : ownDef ds c n with
      | some k => exact .own e
      | none =>
        have hb := H c _ b hget (by simp [h1])
        have := ih b (by omega) hb.1
        have hl' : (lookup g b n).map (·.fn.code) = lastKey (tb.funs.map key) n := by
          unfold lookup
          rw [h2]
          exact lastSym_key _ _
        rw [hl'] at this
        exact .up e hget h1 this

theorem nearest_unique {g : Reg} {ds : List Def} {c : Nat} {n : String} {r r' : Option Nat}
    (h : Nearest g ds c n r) (h' : Nearest g ds c n r') : r = r' := by
  induction h with
  | own e =>
    cases h' with
    | own e' => rw [← e, ← e']
    | up e' => rw [e] at e'; cases e'
    | none e' => rw [e] at e'; cases e'
  | up e e1 e2 _ ih =>
    cases h' with
    | own e' => rw [e] at e'; cases e'
    | up _ f1 f2 f3 =>
      rw [e1] at f1; cases f1
      rw [e2] at f2; cases f2
      exact ih f3
    | none _ f1 f2 =>
      rw [e1] at f1; cases f1
      rw [e2] at f2; cases f2
  | none e e1 e2 =>
    cases h' with
    | own e' => rw [e] at e'; cases e'
    | up _ f1 f2 f3 =>
      rw [e1] at f1; cases f1
      rw [e2] at f2; cases f2
    | none => rfl

/-- A class has at least the names of what it inherits from. -/
theorem chain_names {g : Reg} {ds : List Def} (C : Chain g ds) {c d : Nat} (e : Extends g c d) (n : String)
    (h : lookup g d n ≠ none) : lookup g c n ≠ none := by
  induction e with
  | refl => exact h
  | @step a x b ty h1 h2 _ ih =>
    have ih := ih h
    rcases C.shape _ _ h1 with ⟨h3, _⟩ | ⟨b', tb, h3, h4, _, h6⟩
    · rw [h3] at h2; cases h2
    · rw [h3, List.mem_singleton] at h2
      subst h2
      have q1 : (lookup g a n).map (·.fn.code) = lastKey (ty.funs.map key) n := by
        unfold lookup; rw [h1]; exact lastSym_key _ _
      have q2 : (lookup g x n).map (·.fn.code) = lastKey (tb.funs.map key) n := by
        unfold lookup; rw [h4]; exact lastSym_key _ _
      rw [h6, lastKey_append, ← q2] at q1
      intro hn
      rw [hn] at q1
      have : (lookup g x n).map (·.fn.code) = none := by
        have := q1.symm
        rw [Option.map_none, Option.or_eq_none_iff] at this
        exact this.2
      rw [Option.map_eq_none_iff] at this
      exact ih this

/-! ## Where functions come from -/

theorem chain_sites {g : Reg} {ds : List Def} {h : Nat → Nat} (H : Height g h) (C : Chain g ds) :
    ∀ (k c : Nat) (ty : Ty), h c < k → g[c]? = some ty → ∀ s ∈ ty.funs, Extends g c s.fn.site := by
  intro k
  induction k with
  | zero => intro c _ hc; omega
  | succ k ih =>
    intro c ty hk hc s hs
    have hown : ∀ p ∈ ownKeys ds c, p.2.2 = c := by
      intro p hp
      simp only [ownKeys, List.mem_map] at hp
      obtain ⟨d, _, rfl⟩ := hp
      rfl
    have hm : key s ∈ ty.funs.map key := List.mem_map.2 ⟨s, hs, rfl⟩
    have self : key s ∈ ownKeys ds c → Extends g c s.fn.site := by
      intro hp
      have := hown _ hp
      simp only [key] at this
      rw [this]
      exact .refl _
    rcases C.shape c _ hc with ⟨h1, h2⟩ | ⟨b, tb, h1, h2, h3, h4⟩
    · rw [h2] at hm
      exact self hm
    · rw [h4, List.mem_append] at hm
      rcases hm with hm | hm
      · obtain ⟨u, hu, e⟩ := List.mem_map.1 hm
        have hb := H c _ b hc (by simp [h1])
        have := ih b tb (by omega) h2 u hu
        have e' : u.fn.site = s.fn.site := by
          have := congrArg (fun p => p.2.2) e
          simpa [key] using this
        rw [e'] at this
        exact .step hc (by simp [h1]) this
      · exact self hm

/-- A script function has no earlier namesake written in the same class. -/
def Once (g : Reg) : Prop :=
  ∀ (c i : Nat) (ty : Ty) (s : Sym), g[c]? = some ty → ty.funs[i]? = some s → s.fn.native = false → s.fn.site = c →
    ∀ u ∈ ty.funs.take i, u.name = s.name → u.fn.site ≠ c

theorem Height.ids {g : Reg} {h : Nat → Nat} (H : Height g h) {a b : Nat} (e : Extends g a b) (ha : a < g.length) :
    b < g.length := by
  induction e with
  | refl => exact ha
  | step h1 h2 _ ih => exact ih (H _ _ _ h1 h2).1

/-- If any namesake was written in the class, the last one was. -/
theorem chain_last {g : Reg} {ds : List Def} {h : Nat → Nat} (H : Height g h) (C : Chain g ds) {c : Nat} {ty : Ty}
    (hc : g[c]? = some ty) {u : Sym} (hu : u ∈ ty.funs) (hs : u.fn.site = c) :
    ∃ s, lastSym ty.funs u.name = some s ∧ s.fn.site = c := by
  have hown : ∀ p ∈ ownKeys ds c, p.2.2 = c := by
    intro p hp
    simp only [ownKeys, List.mem_map] at hp
    obtain ⟨d, _, rfl⟩ := hp
    rfl
  have fin : ∀ (F1 F2 : List Sym), ty.funs = F1 ++ F2 → (∀ s ∈ F1, s.fn.site ≠ c) → (∀ s ∈ F2, s.fn.site = c) →
      ∃ s, lastSym ty.funs u.name = some s ∧ s.fn.site = c := by
    intro F1 F2 e h1 h2
    rw [e, lastSym_append]
    have hu2 : u ∈ F2 := by
      rw [e, List.mem_append] at hu
      rcases hu with hu | hu
      · exact absurd hs (h1 u hu)
      · exact hu
    cases hl : lastSym F2 u.name with
    | none =>
      exfalso
      unfold lastSym at hl
      rw [List.find?_eq_none] at hl
      exact hl u (by simpa using hu2) (by simp)
    | some s =>
      refine ⟨s, by simp, h2 s ?_⟩
      have := List.mem_of_find?_eq_some hl
      simpa using this
  have sec : ∀ (F2 : List Sym), F2.map key = ownKeys ds c → ∀ s ∈ F2, s.fn.site = c := by
    intro F2 e s hs
    have : key s ∈ ownKeys ds c := by rw [← e]; exact List.mem_map.2 ⟨s, hs, rfl⟩
    exact hown _ this
  rcases C.shape c _ hc with ⟨h1, h2⟩ | ⟨b, tb, h1, h2, h3, h4⟩
  · exact fin [] ty.funs rfl (by simp) (sec _ h2)
  · rw [List.map_eq_append_iff] at h4
    obtain ⟨F1, F2, e, e1, e2⟩ := h4
    refine fin F1 F2 e (fun s hs1 hsite => ?_) (sec _ e2)
    have hm : key s ∈ tb.funs.map key := by rw [← e1]; exact List.mem_map.2 ⟨s, hs1, rfl⟩
    obtain ⟨v, hv, ev⟩ := List.mem_map.1 hm
    have ex := chain_sites H C _ b tb (Nat.lt_succ_self _) h2 v hv
    have e' : v.fn.site = s.fn.site := by
      have := congrArg (fun p => p.2.2) ev
      simpa [key] using this
    rw [e', hsite] at ex
    exact h3 (H.antisymm ex (.step hc (by simp [h1]) (.refl _)))

theorem once_step {cpp : Cpp} {g : Reg} {ds : List Def} {h h' : Nat → Nat} (H : Height g h) (H' : Height (step cpp g op).1 h')
    (C : Chain g ds) (O : Once g) (ho : Orderly cpp g op) : Once (step cpp g op).1 := by
  have sh := step_shape cpp g op
  have hns := orderly_noSelf ho
  have hext : ∀ t b, op = .ext t b → (step cpp g op).1 ≠ g → (step cpp g op).2 = true ∧
      ∀ (ti : Nat) (ty : Ty), findNative g t = some ti → g[ti]? = some ty → ty.bases = [] ∧ ty.funs = [] ∧ ¬ HasSub g ti := by
    rintro t b rfl
    exact ho
  have hkeep := step_keeps_bases cpp g op
  clear ho
  generalize e1 : (step cpp g op).1 = g' at sh hext H' hkeep ⊢
  generalize e2 : (step cpp g op).2 = ok at sh hext
  clear e1 e2
  cases sh with
  | same => exact O
  | push =>
    intro c i ty s hc hs
    rcases get_append_cases hc with hc | ⟨rfl, rfl⟩
    · exact O c i ty s hc hs
    · simp at hs
  | @derive n b j t hne hf ht =>
    intro c i ty s hc hs hn hsite
    rcases get_append_cases hc with hc | ⟨rfl, rfl⟩
    · exact O c i ty s hc hs hn hsite
    · exfalso
      have := chain_sites H C _ j t (Nat.lt_succ_self _) ht s (List.mem_of_getElem? hs)
      rw [hsite] at this
      have := H.ids this (findName_lt hf)
      omega
  | self => exact absurd rfl (hns _)
  | @ext t b ti bi ty bt _ hft hfb ht hb hi hc hok =>
    obtain ⟨c1, _, _, c4⟩ := copyFns_shape g ti bt.funs { ty with bases := ty.bases ++ [bi] }
    have hchg : g.set ti (copyFns g ti bt.funs { ty with bases := ty.bases ++ [bi] }).1 ≠ g := by
      intro e
      have := congrArg (fun l : Reg => l[ti]?) e
      simp only [List.getElem?_set_self (List.getElem?_eq_some_iff.1 ht).1, ht, Option.some.injEq] at this
      have := congrArg Ty.bases this
      rw [c1] at this
      have := congrArg List.length this
      simp at this
    obtain ⟨hok', hcl⟩ := hext t b rfl hchg
    obtain ⟨hb0, hf0, _⟩ := hcl ti ty hft ht
    subst hok
    intro c i ty' s hc' hs hn hsite
    rcases get_set_cases hc' with ⟨rfl, rfl⟩ | ⟨hci, hc'⟩
    · exfalso
      have hm := List.mem_of_getElem? hs
      rw [c4 hok', hf0] at hm
      simp only [List.nil_append, List.mem_map] at hm
      obtain ⟨v, hv, rfl⟩ := hm
      have ex := chain_sites H C _ bi bt (Nat.lt_succ_self _) hb v hv
      simp only at hsite
      rw [hsite] at ex
      have ex' := ex.mono hkeep
      have back := Extends.step (g := g.set c (copyFns g c bt.funs { ty with bases := ty.bases ++ [bi] }).1) hc'
        (by rw [c1, hb0]; simp) (.refl bi)
      have := H'.antisymm ex' back
      subst this
      simp [inherits] at hi
    · exact O c i ty' s hc' hs hn hsite
  | @fn c n ps native static code ty hc hadd =>
    intro c' i ty' s hc' hs hn hsite
    rcases get_set_cases hc' with ⟨rfl, rfl⟩ | ⟨hci, hc'⟩
    · simp only at hs ⊢
      by_cases hi : i < ty.funs.length
      · rw [List.getElem?_append_left hi] at hs
        rw [List.take_append_of_le_length (by omega)]
        exact O c' i ty s hc hs hn hsite
      · rw [List.getElem?_append_right (by omega)] at hs
        have hi0 : i = ty.funs.length := by
          have := (List.getElem?_eq_some_iff.1 hs).1
          simp at this
          omega
        subst hi0
        simp at hs
        subst hs
        simp only at hn
        subst hn
        simp only [List.take_left']
        intro u hu hname hus
        obtain ⟨s', q1, q2⟩ := chain_last H C hc hu hus
        rw [hname] at q1
        exact addFn_fresh hadd s' q1 q2
    · exact O c' i ty' s hc' hs hn hsite

theorem once_run {cpp : Cpp} {rank : String → Nat} (hr : ∀ b t, b ≠ t → cpp b t = true → rank b < rank t) (ops : List Op) :
    ∀ g ds, Ranked rank g → Chain g ds → Once g → OrderlyRun cpp g ops → Once (run cpp g ops) := by
  induction ops with
  | nil => intro g ds _ _ h _; exact h
  | cons op ops ih =>
    intro g ds R C O ho
    have R' := ranked_step hr R op (orderly_noSelf ho.1)
    obtain ⟨h, H⟩ := R.height
    obtain ⟨h', H'⟩ := R'.height
    exact ih _ _ R' (chain_step C op ho.1) (once_step H H' C O ho.1) ho.2

/-- `super` in a script function of class `c` is what the base finds under the name. -/
theorem super_base {g : Reg} {ds : List Def} {h : Nat → Nat} (H : Height g h) (C : Chain g ds) (O : Once g)
    {c b i : Nat} {ty : Ty} {s : Sym} (hc : g[c]? = some ty) (hb : ty.bases = [b]) (hs : ty.funs[i]? = some s)
    (hn : s.fn.native = false) (hsite : s.fn.site = c) :
    (superOf g c i).map (·.fn.code) = (lookup g b s.name).map (·.fn.code) := by
  rcases C.shape c _ hc with ⟨h1, h2⟩ | ⟨b', tb, h1, h2, h3, h4⟩
  · rw [h1] at hb; cases hb
  · rw [hb] at h1
    obtain ⟨rfl, _⟩ := List.cons.inj h1
    have once := O c i ty s hc hs hn hsite
    have hown : ∀ p ∈ ownKeys ds c, p.2.2 = c := by
      intro p hp
      simp only [ownKeys, List.mem_map] at hp
      obtain ⟨d, _, rfl⟩ := hp
      rfl
    rw [List.map_eq_append_iff] at h4
    obtain ⟨F1, F2, e, e1, e2⟩ := h4
    have hF1 : ∀ v ∈ F1, v.fn.site ≠ c := by
      intro v hv hvs
      have hm : key v ∈ tb.funs.map key := by rw [← e1]; exact List.mem_map.2 ⟨v, hv, rfl⟩
      obtain ⟨w, hw, ew⟩ := List.mem_map.1 hm
      have ex := chain_sites H C _ b tb (Nat.lt_succ_self _) h2 w hw
      have e' : w.fn.site = v.fn.site := by
        have := congrArg (fun p => p.2.2) ew
        simpa [key] using this
      rw [e', hvs] at ex
      exact h3 (H.antisymm ex (.step hc (by simp [hb]) (.refl _)))
    have hF2 : ∀ v ∈ F2, v.fn.site = c := by
      intro v hv
      exact hown (key v) (by rw [← e2]; exact List.mem_map.2 ⟨v, hv, rfl⟩)
    have hi : F1.length ≤ i := by
      rcases Nat.lt_or_ge i F1.length with hlt | hge
      · exfalso
        rw [e, List.getElem?_append_left hlt] at hs
        exact hF1 s (List.mem_of_getElem? hs) hsite
      · exact hge
    have htake : ty.funs.take i = F1 ++ F2.take (i - F1.length) := by
      rw [e, List.take_append, List.take_of_length_le hi]
    have hnone : lastSym (F2.take (i - F1.length)) s.name = none := by
      unfold lastSym
      rw [List.find?_eq_none]
      intro u hu
      have hu : u ∈ F2.take (i - F1.length) := by simpa using hu
      intro hname
      have hname : u.name = s.name := by simpa using hname
      have : u ∈ ty.funs.take i := by
        rw [htake, List.mem_append]; exact .inr hu
      exact once u this hname (hF2 u (List.mem_of_mem_take hu))
    simp only [superOf, hc, hs]
    rw [htake, lastSym_append, hnone, Option.none_or, lastSym_key, e1]
    simp only [lookup, h2]
    rw [lastSym_key]

end Verif.Types
