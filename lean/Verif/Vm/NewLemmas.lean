import Verif.Vm.NewSpec
import Verif.Vm.MetaLemmas
/-
Lemmas for `NewProps.lean`.
-/
namespace Verif.New
open Verif Verif.Types Verif.Meta

variable {W : World}

/-! ### Declarations -/

theorem opsOf_append (a b : List Item) : opsOf (a ++ b) = opsOf a ++ opsOf b := by simp [opsOf]

theorem load_reg (cpp : Cpp) (is : List Item) : ∀ p, (load cpp p is).reg = run cpp p.reg (opsOf is) := by
  induction is with
  | nil => intro p; rfl
  | cons i is ih =>
    intro p
    rw [load, ih]
    cases i <;> rfl

theorem load_init (cpp : Cpp) (is : List Item) (c : Nat) : ∀ p, (load cpp p is).init c = p.init c ++ fieldsOf is c := by
  induction is with
  | nil => intro p; simp [load, fieldsOf]
  | cons i is ih =>
    intro p
    rw [load, ih]
    cases i with
    | op o => rfl
    | field c' k =>
      by_cases h : c = c'
      · subst h; simp [load1, fieldsOf]
      · have h' : ¬ c' = c := fun e => h e.symm
        simp [load1, fieldsOf, h, h']

theorem lastSym_snoc (fs : List Sym) (x : Sym) (n : String) :
    lastSym (fs ++ [x]) n = if x.name == n then some x else lastSym fs n := by
  simp only [lastSym, List.reverse_append, List.reverse_cons, List.reverse_nil, List.nil_append, List.singleton_append,
    List.find?_cons]
  cases x.name == n <;> rfl

theorem lastIdx_snoc (fs : List Sym) (x : Sym) (n : String) :
    lastIdx (fs ++ [x]) n = if x.name == n then some fs.length else lastIdx fs n := by
  unfold lastIdx
  rw [List.length_append, List.length_singleton, List.range_succ, List.reverse_append, List.reverse_singleton,
    List.singleton_append, List.find?_cons]
  have h1 : (fs ++ [x])[fs.length]? = some x := by simp
  simp only [h1]
  cases hx : x.name == n with
  | true => rfl
  | false =>
    simp only [Bool.false_eq_true, if_false]
    have : ∀ l : List Nat, (∀ i ∈ l, i < fs.length) →
        l.find? (fun i => match (fs ++ [x])[i]? with | some s => s.name == n | none => false)
          = l.find? (fun i => match fs[i]? with | some s => s.name == n | none => false) := by
      intro l hl
      induction l with
      | nil => rfl
      | cons a l ih =>
        have ha := hl a (by simp)
        rw [List.find?_cons, List.find?_cons, List.getElem?_append_left ha, ih (fun i hi => hl i (by simp [hi]))]
    exact this _ (by intro i hi; simpa using hi)

theorem snoc_induction {α : Type} {P : List α → Prop} (h0 : P []) (h1 : ∀ l x, P l → P (l ++ [x])) : ∀ l, P l := by
  intro l
  have : ∀ l : List α, P l.reverse := by
    intro l
    induction l with
    | nil => exact h0
    | cons a l ih => rw [List.reverse_cons]; exact h1 _ _ ih
  simpa using this l.reverse

/-- The position the compiler keeps is that of the function a lookup finds. -/
theorem lastIdx_lastSym (n : String) : ∀ fs : List Sym,
    (lastSym fs n = none ∧ lastIdx fs n = none) ∨ ∃ i s, lastSym fs n = some s ∧ lastIdx fs n = some i ∧ fs[i]? = some s := by
  apply snoc_induction
  · exact .inl ⟨rfl, rfl⟩
  · intro fs x ih
    rw [lastSym_snoc, lastIdx_snoc]
    cases hx : x.name == n with
    | true => exact .inr ⟨fs.length, x, rfl, rfl, by simp⟩
    | false =>
      rcases ih with ⟨h1, h2⟩ | ⟨i, s, h1, h2, h3⟩
      · exact .inl ⟨by simpa using h1, by simpa using h2⟩
      · refine .inr ⟨i, s, by simpa using h1, by simpa using h2, ?_⟩
        have hi := (List.getElem?_eq_some_iff.1 h3).1
        rw [List.getElem?_append_left hi, h3]

/-- A class whose functions have only grown, by none of that name. -/
def Grown (n : String) (g g' : Reg) : Prop :=
  ∀ (c : Nat) (ty : Ty), g[c]? = some ty → ∃ ty' more, g'[c]? = some ty' ∧ ty'.funs = ty.funs ++ more ∧ ∀ s ∈ more, s.name ≠ n

theorem grown_step (cpp : Cpp) (g : Reg) (n : String) (op : Op)
    (hs : match op with
      | .ext _ _ => False
      | .fun _ _ _ native _ _ => native = false
      | _ => True) (hn : ∀ c ps native static k, op ≠ .fun c n ps native static k) : Grown n g (step cpp g op).1 := by
  have sh := step_shape cpp g op
  generalize (step cpp g op).1 = g' at sh ⊢
  generalize (step cpp g op).2 = ok at sh
  intro c ty hc
  have old : ∀ t : Ty, ∃ ty' more, (g ++ [t])[c]? = some ty' ∧ ty'.funs = ty.funs ++ more ∧ ∀ s ∈ more, s.name ≠ n :=
    fun t => ⟨ty, [], get_append_old t hc, by simp, by simp⟩
  cases sh with
  | same => exact ⟨ty, [], hc, by simp, by simp⟩
  | push => exact old _
  | derive => exact old _
  | self => exact old _
  | ext => exact absurd hs (by simp)
  | @fn c' n' ps native static code ty' hc' hadd =>
    by_cases e : c' = c
    · subst e
      rw [hc] at hc'
      cases hc'
      have hl := (List.getElem?_eq_some_iff.1 hc).1
      refine ⟨_, [_], by rw [List.getElem?_set_self hl], rfl, ?_⟩
      intro s hs'
      rw [List.mem_singleton] at hs'
      subst hs'
      rintro rfl
      exact hn _ _ _ _ _ rfl
    · exact ⟨ty, [], by rw [List.getElem?_set_ne e, hc], by simp, by simp⟩

theorem Grown.trans {n : String} {a b c : Reg} (h : Grown n a b) (k : Grown n b c) : Grown n a c := by
  intro i ty hi
  obtain ⟨t1, m1, h1, h2, h3⟩ := h i ty hi
  obtain ⟨t2, m2, k1, k2, k3⟩ := k i t1 h1
  refine ⟨t2, m1 ++ m2, k1, by rw [k2, h2, List.append_assoc], ?_⟩
  intro s hs
  rcases List.mem_append.1 hs with hs | hs
  · exact h3 s hs
  · exact k3 s hs

theorem grown_run (cpp : Cpp) (n : String) (ops : List Op) : ∀ g, ScriptOnly ops →
    (∀ op ∈ ops, ∀ c ps native static k, op ≠ .fun c n ps native static k) → Grown n g (run cpp g ops) := by
  induction ops with
  | nil => intro g _ _ c ty hc; exact ⟨ty, [], hc, by simp, by simp⟩
  | cons op ops ih =>
    intro g hs hn
    exact (grown_step cpp g n op (hs op (by simp)) (hn op (by simp))).trans
      (ih _ (fun o ho => hs o (by simp [ho])) (fun o ho => hn o (by simp [ho])))

theorem lastSym_none {fs : List Sym} {n : String} (h : ∀ s ∈ fs, s.name ≠ n) : lastSym fs n = none := by
  rw [lastSym, List.find?_eq_none]
  intro s hs
  simpa using h s (by simpa using hs)

/-- The code of `new` for a class, when what is declared later has no constructor: the constructor it will load is the one a
lookup finds when it runs. -/
theorem compile_late {g : Reg} {c : Nat} {name : String} (hf : findName g name = some c) {g' : Reg}
    (hg : Grown "constructor" g g') :
    ∃ ctor, compileNew g [name] = .byType c ctor ∧
      ((ctor = none ∧ lookup g' c "constructor" = none) ∨
       (∃ i ty s, ctor = some i ∧ g'[c]? = some ty ∧ ty.funs[i]? = some s ∧ lookup g' c "constructor" = some s)) := by
  have hl := findName_lt hf
  have hty : g[c]? = some g[c] := List.getElem?_eq_getElem hl
  obtain ⟨ty', more, h1, h2, h3⟩ := hg c _ hty
  refine ⟨lastIdx (g[c]).funs "constructor", ?_, ?_⟩
  · simp only [compileNew, List.getLast?_singleton, Option.getD_some, hf, hty]
  · have hlook : lookup g' c "constructor" = lastSym (g[c]).funs "constructor" := by
      unfold lookup
      rw [h1]
      simp only [h2]
      rw [lastSym_append, lastSym_none h3]
      rfl
    rcases lastIdx_lastSym "constructor" (g[c]).funs with ⟨k1, k2⟩ | ⟨i, s, k1, k2, k3⟩
    · exact .inl ⟨k2, by rw [hlook, k1]⟩
    · have hi := (List.getElem?_eq_some_iff.1 k3).1
      exact .inr ⟨i, ty', s, k2, h1, by rw [h2, List.getElem?_append_left hi, k3], by rw [hlook, k1]⟩

/-! ### Running -/

theorem put_below (mem : Nat → W.V) (b : Nat) (v : W.V) (i : Nat) (h : i < b) :
    put (W := W.toWorld) mem b v i = mem i := by
  simp only [put]
  rw [if_neg (by omega)]

theorem pieces_ok {o : W.V} {ks : List Nat} {s s' : W.St} (h : Runs W o ks s s') : ∀ m : M W, m.st = s →
    ∃ m', pieces W o ks m = .ok m' ∧ m.cur ≤ m'.cur ∧ m'.st = s' ∧ ∀ i, i < m.cur → m'.mem i = m.mem i := by
  induction h with
  | nil => intro m hm; exact ⟨m, rfl, Nat.le_refl _, hm, fun _ _ => rfl⟩
  | cons hb _ ih =>
    rename_i vs _
    intro m hm
    obtain ⟨m', h1, h2, h3, h4⟩ := ih (push (W := W.toWorld) { m with st := _ } (vs.headD W.undef)) rfl
    refine ⟨m', ?_, ?_, h3, ?_⟩
    · rw [pieces, hm, hb]
      exact h1
    · simp only [push] at h2; omega
    · intro i hi
      rw [h4 i (by simp only [push]; omega)]
      exact put_below _ _ _ _ hi

theorem fieldInit_ok {o : W.V} {ks : List Nat} {s s' : W.St} (h : Runs W o ks s s') (m : M W) (hm : m.st = s) :
    ∃ m', fieldInit W ks o m = .ok m' ∧ m'.cur = m.cur ∧ m'.st = s' ∧ ∀ i, i < m.cur → m'.mem i = m.mem i := by
  obtain ⟨m', h1, h2, h3, h4⟩ := pieces_ok h m hm
  unfold fieldInit
  split
  · cases h
    exact ⟨m, rfl, rfl, hm, fun _ _ => rfl⟩
  · refine ⟨{ mem := put m'.mem m'.cur W.undef, cur := m.cur, st := m'.st }, by rw [h1]; rfl, rfl, h3, ?_⟩
    intro i hi
    show put (W := W.toWorld) m'.mem m'.cur W.undef i = _
    rw [put_below _ _ _ _ (by omega), h4 i hi]

theorem runs_append {o : W.V} {l1 l2 : List Nat} {s s' : W.St} (h : Runs W o (l1 ++ l2) s s') :
    ∃ s1, Runs W o l1 s s1 ∧ Runs W o l2 s1 s' := by
  induction l1 generalizing s with
  | nil => exact ⟨s, .nil, h⟩
  | cons k l1 ih =>
    cases h with
    | cons hb h =>
      obtain ⟨s1, h1, h2⟩ := ih h
      exact ⟨s1, .cons hb h1, h2⟩

theorem runInits_ok {p : Prog} {is : List Item} {h : Nat → Nat} (H : Height p.reg h) (hi : ∀ c, p.init c = fieldsOf is c)
    {o : W.V} {c : Nat} {l : List Nat} (hf : Fields p.reg is c l) : ∀ (n : Nat), h c < n → ∀ (s s' : W.St), Runs W o l s s' →
    ∀ m : M W, m.st = s → ∃ m', runInits W p o n c m = .ok m' ∧ m'.cur = m.cur ∧ m'.st = s' ∧ ∀ i, i < m.cur → m'.mem i = m.mem i := by
  induction hf with
  | root h1 h2 =>
    intro n hn s s' hr m hm
    cases n with
    | zero => omega
    | succ n =>
      simp only [runInits, h1, h2, Out.bind, hi]
      exact fieldInit_ok hr m hm
  | @up c b l ty h1 h2 _ ih =>
    intro n hn s s' hr m hm
    cases n with
    | zero => omega
    | succ n =>
      have hb := (H c ty b h1 (by simp [h2])).2
      obtain ⟨s1, hr1, hr2⟩ := runs_append hr
      obtain ⟨m1, k1, k2, k3, k4⟩ := ih n (by omega) s s1 hr1 m hm
      obtain ⟨m2, j1, j2, j3, j4⟩ := fieldInit_ok hr2 m1 k3
      refine ⟨m2, ?_, by rw [j2, k2], j3, ?_⟩
      · simp only [runInits, h1, h2, Out.bind, hi, k1]
        exact j1
      · intro i hi'
        rw [j4 i (by omega), k4 i hi']

theorem push_leaves (m0 m : M W) (v : W.V) (h1 : m.cur = m0.cur) (h2 : ∀ i, i < m0.cur → m.mem i = m0.mem i) :
    Leaves m0 v m.st (push m v) := by
  refine ⟨?_, ?_, rfl, ?_⟩
  · simp only [push, put, h1, if_true]
  · simp only [push, h1]
  · intro i hi
    simp only [push]
    rw [put_below _ _ _ _ (by omega), h2 i hi]

theorem newObject_ok {p : Prog} {is : List Item} {h : Nat → Nat} (H : Height p.reg h) (hb : ∀ a, h a ≤ p.reg.length)
    (hi : ∀ c, p.init c = fieldsOf is c) {c : Nat} {l : List Nat} (hf : Fields p.reg is c l) {m : M W} {o : W.V} {s0 s1 : W.St}
    (ha : W.alloc c m.st = (o, s0)) (hr : Runs W o l s0 s1) :
    ∃ m', newObject W p c m = .ok m' ∧ Leaves m o s1 m' := by
  obtain ⟨m1, k1, k2, k3, k4⟩ := runInits_ok H hi hf (p.reg.length + 1) (by have := hb c; omega) s0 s1 hr { m with st := s0 } rfl
  refine ⟨push m1 o, ?_, ?_⟩
  · rw [newObject, ha]
    simp only [k1, Out.map]
  · have := push_leaves m m1 o k2 k4
    rw [k3] at this
    exact this

/-- The cells from `m.cur` on hold `vs`, and nothing else changed. -/
structure Holds (m : M W) (vs : List W.V) (s : W.St) (m' : M W) : Prop where
  height : m'.cur = m.cur + vs.length
  state : m'.st = s
  cell : ∀ i, i < vs.length → some (m'.mem (m.cur + i)) = vs[i]?
  below : ∀ i, i < m.cur → m'.mem i = m.mem i

theorem Holds.cons {m m1 m2 : M W} {v : W.V} {vs : List W.V} {s s' : W.St} (h : Leaves m v s m1) (k : Holds m1 vs s' m2) :
    Holds m (v :: vs) s' m2 := by
  refine ⟨by rw [k.height, h.height, List.length_cons]; omega, k.state, ?_, ?_⟩
  · intro i hi
    cases i with
    | zero =>
      rw [Nat.add_zero, k.below _ (by rw [h.height]; omega), h.value]
      rfl
    | succ i =>
      have := k.cell i (by simpa using hi)
      rw [h.height] at this
      rw [show m.cur + (i + 1) = m.cur + 1 + i by omega, this]
      rfl
  · intro i hi
    rw [k.below i (by rw [h.height]; omega), h.below i hi]

theorem evalArgs_ok {as : List (Arg W)} {es : List (Expr W)} (hc : ComputesAll as es) : ∀ (m : M W) {vs : List W.V} {s' : W.St},
    Values W es m.st vs s' → ∃ m', evalArgs as m = .ok m' ∧ Holds m vs s' m' := by
  induction hc with
  | nil =>
    intro m vs s' h
    cases h
    exact ⟨m, rfl, by simp, rfl, (fun i hi => absurd hi (by simp)), fun _ _ => rfl⟩
  | cons h1 _ ih =>
    intro m vs s' h
    cases h with
    | cons hv h =>
      obtain ⟨m1, k1, k2⟩ := h1 m _ _ hv
      rw [← k2.state] at h
      obtain ⟨m2, j1, j2⟩ := ih m1 h
      exact ⟨m2, by rw [evalArgs, k1]; exact j1, Holds.cons k2 j2⟩

theorem fill_ok (k : Nat) : ∀ (count h : Nat) (m : M W) {vs : List W.V} {s' : W.St},
    Values W ((List.range' h count).map (W.dflt k)) m.st vs s' → ∃ m', fill W k count h m = .ok m' ∧ Holds m vs s' m' := by
  intro count
  induction count with
  | zero =>
    intro h m vs s' hv
    cases hv
    exact ⟨m, rfl, by simp, rfl, (fun i hi => absurd hi (by simp)), fun _ _ => rfl⟩
  | succ count ih =>
    intro h m vs s' hv
    rw [List.range'_succ, List.map_cons] at hv
    cases hv with
    | cons h1 h2 =>
      rename_i s1 v vs
      obtain ⟨m2, j1, j2⟩ := ih (h + 1) (push (W := W.toWorld) { m with st := s1 } v) h2
      refine ⟨m2, by rw [fill, h1]; exact j1, ?_⟩
      exact Holds.cons (push_leaves m { m with st := s1 } v rfl (fun _ _ => rfl)) j2

theorem values_length {es : List (Expr W)} {s s' : W.St} {vs : List W.V} (h : Values W es s vs s') : vs.length = es.length := by
  induction h with
  | nil => rfl
  | cons _ _ ih => simp [ih]

theorem computes_length {as : List (Arg W)} {es : List (Expr W)} (h : ComputesAll as es) : as.length = es.length := by
  induction h with
  | nil => rfl
  | cons _ _ ih => simp [ih]

/-- The call, the object on the stack at `m.cur`, the function above it and the arguments above that. -/
theorem ctorCall_ok (hL : Lawful W) {m m1 m2 m3 : M W} {o : W.V} {s1 s2 : W.St} {f : Fn} {vs : List W.V}
    (ho : Leaves m o s1 m1) (hf : Leaves m1 (W.fval f) s1 m2) (ha : Holds m2 vs s2 m3) {ps rs : List W.V} {s3 s' : W.St}
    (hp : Params W f.code f.params.length vs s2 ps s3) (hb : W.body f.code (some o) ps s3 = .ok (rs, s')) :
    ∃ m', ctorCall W vs.length m3 = .ok m' ∧ Leaves m o s' m' := by
  obtain ⟨ds, hd, rfl⟩ := hp
  rw [← ha.state] at hd
  obtain ⟨m4, k1, k2⟩ := fill_ok f.code _ _ m3 hd
  have hcur : m3.cur - vs.length - 1 = m.cur + 1 := by rw [ha.height, hf.height, ho.height]; omega
  have h2 : m2.cur = m.cur + 2 := by rw [hf.height, ho.height]
  have h3 : m3.cur = m.cur + 2 + vs.length := by rw [ha.height, h2]
  have hfn : m3.mem (m.cur + 1) = W.fval f := by
    rw [ha.below _ (by omega), ← ho.height, hf.value]
  have hob : m4.mem m.cur = o := by
    rw [k2.below _ (by omega), ha.below _ (by omega), hf.below _ (by rw [ho.height]; omega), ho.value]
  have hlen : ds.length = f.params.length - vs.length := by
    have := values_length hd
    simpa using this
  have hcells : ((List.range f.params.length).map fun i => m4.mem (m.cur + 1 + 1 + i)) = vs.take f.params.length ++ ds := by
    apply List.ext_getElem?
    intro i
    by_cases hi : i < f.params.length
    · rw [List.getElem?_map, List.getElem?_range hi, Option.map_some]
      by_cases hv : i < vs.length
      · have h5 : i < (vs.take f.params.length).length := by rw [List.length_take]; omega
        rw [List.getElem?_append_left h5, List.getElem?_take, if_pos hi, ← ha.cell i hv, h2, k2.below _ (by omega)]
      · have h5 : ¬ i < (vs.take f.params.length).length := by rw [List.length_take]; omega
        rw [List.getElem?_append_right (by omega), List.length_take, Nat.min_eq_right (by omega),
          ← k2.cell (i - vs.length) (by omega)]
        rw [show m3.cur + (i - vs.length) = m.cur + 1 + 1 + i by omega]
    · rw [List.getElem?_eq_none (by simp; omega), List.getElem?_eq_none (by simp; omega)]
  rw [← k2.state] at hb
  obtain ⟨m5, j1, j2, j3, j4, _⟩ := execute_ok (W := W.toWorld) (b := m.cur + 1 + 1) (m := m4) hcells hb
  refine ⟨{ m5 with cur := m.cur + 1 }, ?_, ?_, rfl, j3, ?_⟩
  · simp only [ctorCall, hcur, hfn, hL.fn, k1, Out.bind]
    rw [show m.cur + 1 - 1 = m.cur by omega, hob, j1]
    rfl
  · show m5.mem m.cur = o
    rw [j4 _ (by omega), hob]
  · intro i hi
    show m5.mem i = _
    rw [j4 _ (by omega), k2.below _ (by omega), ha.below _ (by omega), hf.below _ (by rw [ho.height]; omega), ho.below _ hi]

/-- No function above the object: nothing is called. -/
theorem ctorCall_none (hL : Lawful W) {m m1 m2 m3 : M W} {o : W.V} {s1 s2 : W.St} {vs : List W.V}
    (ho : Leaves m o s1 m1) (hf : Leaves m1 W.undef s1 m2) (ha : Holds m2 vs s2 m3) :
    ∃ m', ctorCall W vs.length m3 = .ok m' ∧ Leaves m o s2 m' := by
  have hcur : m3.cur - vs.length - 1 = m.cur + 1 := by rw [ha.height, hf.height, ho.height]; omega
  have h2 : m2.cur = m.cur + 2 := by rw [hf.height, ho.height]
  have hfn : m3.mem (m.cur + 1) = W.undef := by
    rw [ha.below _ (by omega), ← ho.height, hf.value]
  refine ⟨{ m3 with cur := m.cur + 1 }, ?_, ?_, rfl, ha.state, ?_⟩
  · simp only [ctorCall, hcur, hfn, hL.undef]
  · show m3.mem m.cur = o
    rw [ha.below _ (by omega), hf.below _ (by rw [ho.height]; omega), ho.value]
  · intro i hi
    show m3.mem i = _
    rw [ha.below _ (by omega), hf.below _ (by rw [ho.height]; omega), ho.below _ hi]

end Verif.New
