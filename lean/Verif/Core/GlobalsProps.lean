import Verif.Core.GlobalsProof
/-
C62 (globals keep their storage and their values), C63 (registered constants, constants of classes) and the part of
C45 that concerns variables. The specification (`mains`, `inners`, `Env`, `Calm`) is at the head of
`GlobalsProof.lean`.
-/
namespace Verif.Core.Globals

/-- What an engine has done since it was made. -/
def Reached {V : Type} (os : List (Op V)) (g : Eng V) : Prop := run {} os = .ok g

/-- Scripts only: nothing is registered from outside, nothing saved or cleared. -/
def ScriptsOnly {V : Type} (os : List (Op V)) : Prop :=
  ∀ o ∈ os, (∃ es, o = .eval es) ∨ (∃ k v, o = .write k v) ∨ ∃ i v, o = .scratch i v

theorem scripts_calm {V : Type} : ∀ (os : List (Op V)), ScriptsOnly os → ∀ p, Calm p os
  | [], _, _ => trivial
  | o :: os, h, p => by
    have ih := scripts_calm os (fun o ho => h o (by simp [ho]))
    rcases h o (by simp) with ⟨es, rfl⟩ | ⟨k, v, rfl⟩ | ⟨i, v, rfl⟩
    · exact ih _
    · exact ih _
    · exact ih _

/-- The engine agrees with the values a user expects: as many globals, and each is read as expected. -/
def Agrees {V : Type} (g : Eng V) (e : Env V) : Prop :=
  g.vars.length = e.vals.length ∧ ∀ k : Nat, read g k = e.vals[k]?

theorem Inv.agrees {V : Type} {g : Eng V} {e : Env V} {p : Bool} (h : Inv g e p) : Agrees g e := by
  refine ⟨h.len, fun k => ?_⟩
  unfold read
  cases hk : g.vars[k]? with
  | none =>
    rw [List.getElem?_eq_none_iff, h.len] at hk
    rw [List.getElem?_eq_none hk]; rfl
  | some s =>
    have hlt : k < e.vals.length := by rw [← h.len]; rw [List.getElem?_eq_some_iff] at hk; exact hk.1
    rw [Option.map_some, h.var_pos hk, List.getElem?_eq_getElem hlt]
    exact congrArg some (h.val k _ (List.getElem?_eq_getElem hlt))

/-! ### C62 -/

/-- C62. Scripts are compiled one after the other, with any nesting of blocks, and run: nothing undefined happens,
and every global reads as the value last assigned to it, or undefined, whatever the scripts compiled after it
declare. -/
theorem globals_keep_values {V : Type} (os : List (Op V)) (h : ScriptsOnly os) :
    ∃ g : Eng V, Reached os g ∧ Agrees g (Env.run {} os) := by
  obtain ⟨g, p, h1, h2⟩ := run_inv os init_inv (scripts_calm os h false)
  exact ⟨g, h1, h2.agrees⟩

/-- C62. The `k`-th global is in slot `k`, from the script that declares it on; no two variables of the main function
(block variables included) share a slot. -/
theorem globals_keep_slots {V : Type} (os : List (Op V)) (h : ScriptsOnly os) (es : List Ev) {g g' : Eng V}
    (hg : Reached os g) (hg' : Reached (os ++ [.eval es]) g') :
    (∀ k s : Nat, g.vars[k]? = some s → g.pos s = k ∧ g'.vars[k]? = some s ∧ g'.pos s = k) ∧
      (order g').Nodup ∧ ∀ s ∈ order g', ∀ s' ∈ order g', g'.pos s = g'.pos s' → s = s' := by
  obtain ⟨g0, p, h1, h2⟩ := run_inv os (init_inv (V := V)) (scripts_calm os h false)
  have hg0 : run ({} : Eng V) os = .ok g := hg
  rw [h1] at hg0; cases Out.ok.inj hg0
  obtain ⟨g1, t, e1, e2, e3, _, _⟩ := eval_ok h2 es
  have hrun : ∀ (a : List (Op V)) (x y : Eng V) (o : Op V), run x a = .ok y → run x (a ++ [o]) = run y [o] := by
    intro a
    induction a with
    | nil => intro x y o hh; cases Out.ok.inj hh; rfl
    | cons b a ih =>
      intro x y o hh
      rw [List.cons_append, run]
      rw [run] at hh
      cases hs : step x b with
      | ok z => rw [hs] at hh; exact ih z y o hh
      | err => rw [hs] at hh; cases hh
      | ub => rw [hs] at hh; cases hh
  have : run ({} : Eng V) (os ++ [.eval es]) = .ok g1 := by
    rw [hrun os _ _ _ h1]; simp [run, step, e1]
  rw [Reached, this] at hg'; cases Out.ok.inj hg'
  have hpre : ∀ k s : Nat, g.vars[k]? = some s → g'.vars[k]? = some s := by
    intro k s hk
    obtain ⟨tl, htl⟩ := e3
    have hlt : k < g.vars.length := by rw [List.getElem?_eq_some_iff] at hk; exact hk.1
    rw [← htl, List.getElem?_append_left hlt]; exact hk
  refine ⟨fun k s hk => ⟨h2.var_pos hk, hpre k s hk, e2.var_pos (hpre k s hk)⟩, ?_, ?_⟩
  all_goals
    obtain ⟨g2, hd⟩ : ∃ g2 : Eng V, g2 = evRun (openEval g) [] es := ⟨_, rfl⟩
    obtain ⟨⟨cur, hdu⟩, _, _⟩ := during_run es (open_during h2)
    obtain ⟨q, t', hs, hp, _⟩ := sort_ok hdu
    have he := e1
    unfold eval at he
    rw [hs] at he
    simp only [Out.ok.injEq, Prod.mk.injEq] at he
    obtain ⟨he, _⟩ := he
    subst he
    obtain ⟨ids, _, i2, i3, _⟩ := hdu.ids
  · exact i3.nodup_iff.mp i2
  · intro s hm s' hm' hee
    obtain ⟨i, hi⟩ := List.getElem?_of_mem (show s ∈ order (evRun (openEval g) [] es) from hm)
    obtain ⟨i', hi'⟩ := List.getElem?_of_mem (show s' ∈ order (evRun (openEval g) [] es) from hm')
    have a : q s = i := hp i s hi
    have b : q s' = i' := hp i' s' hi'
    have : i = i' := by rw [← a, ← b]; exact hee
    subst this
    rw [hi] at hi'
    exact Option.some.inj hi'

/-- C62. The code of a script refers to its variables by slots given out while compiling and translated at the end:
the translation takes the slot every variable had, global or block variable, to the one it gets. -/
theorem operands_translated {V : Type} (os : List (Op V)) (h : ScriptsOnly os) (es : List Ev) {g g' : Eng V}
    {t : Nat → Nat} (hg : Reached os g) (he : eval g es = .ok (g', t)) :
    ∀ s ∈ order g', t ((evRun (openEval g) [] es).pos s) = g'.pos s := by
  obtain ⟨g0, p, h1, h2⟩ := run_inv os (init_inv (V := V)) (scripts_calm os h false)
  have hg0 : run ({} : Eng V) os = .ok g := hg
  rw [h1] at hg0; cases Out.ok.inj hg0
  obtain ⟨g1, t1, e1, _, _, e4, _⟩ := eval_ok h2 es
  rw [he] at e1
  simp only [Out.ok.injEq, Prod.mk.injEq] at e1
  obtain ⟨rfl, rfl⟩ := e1
  exact e4

/-! ### C63 and C45: constants, saved states -/

/-- C63/C45 for all histories: constants may be registered, the state saved and cleared at any time. -/
def GlobalsKeepValues : Prop :=
  ∀ (V : Type) (os : List (Op V)), ∃ g : Eng V, Reached os g ∧ Agrees g (Env.run {} os)

/-- It holds when no constant is registered and no state saved right after a script with variables in blocks. In
particular `clear` leaves exactly the globals there were when the state was saved, with their values. -/
theorem globals_keep_values_partial {V : Type} (os : List (Op V)) (h : Calm false os) :
    ∃ g : Eng V, Reached os g ∧ Agrees g (Env.run {} os) := by
  obtain ⟨g, p, h1, h2⟩ := run_inv os init_inv h
  exact ⟨g, h1, h2.agrees⟩

/-- `saveState()`, then anything (with the exception above), then `clear()`: the globals are those there were. -/
theorem clear_restores_globals_partial {V : Type} (before between : List (Op V)) (keep : Nat)
    (h : Calm false (before ++ .save :: (between ++ [.clear keep])))
    (hs : .save ∉ between) {g g' : Eng V} (hg : Reached before g)
    (hg' : Reached (before ++ .save :: (between ++ [.clear keep])) g') : g'.vars = g.vars := by
  have hrun : ∀ (a b : List (Op V)) (x y : Eng V), run x a = .ok y → run x (a ++ b) = run y b := by
    intro a
    induction a with
    | nil => intro b x y hh; cases Out.ok.inj hh; rfl
    | cons c a ih =>
      intro b x y hh
      rw [List.cons_append, run]
      rw [run] at hh
      cases hst : step x c with
      | ok z => rw [hst] at hh; exact ih b z y hh
      | err => rw [hst] at hh; cases hh
      | ub => rw [hst] at hh; cases hh
  have hcalm : ∀ (a b : List (Op V)) {x y : Eng V} {e : Env V} {p : Bool}, Inv x e p → Calm p (a ++ b) →
      run x a = .ok y → ∃ p', Inv y (e.run a) p' ∧ Calm p' b := by
    intro a
    induction a with
    | nil => intro b x y e p hi hc hh; cases Out.ok.inj hh; exact ⟨p, hi, hc⟩
    | cons c a ih =>
      intro b x y e p hi hc hh
      obtain ⟨z, p1, h1, h2, h3⟩ := step_inv hi c (a ++ b) hc
      rw [run, h1] at hh
      exact ih b h2 h3 hh
  obtain ⟨p, i1, c1⟩ := hcalm before _ (init_inv (V := V)) h hg
  rw [Reached, hrun before _ _ _ hg, run] at hg'
  obtain ⟨hp, c2⟩ := c1
  subst hp
  have i2 := save_ok i1
  simp only [step] at hg'
  -- the saved variables stay at the head of the list until the state is cleared
  have key : ∀ (ops : List (Op V)) {x y : Eng V} {e : Env V} {q : Bool}, .save ∉ ops → Inv x e q → Calm q (ops ++ [.clear keep]) →
      e.saved = g.vars.length → x.vars.take e.saved = g.vars → run x ops = .ok y →
      ∃ (e' : Env V) (q' : Bool), Inv y e' q' ∧ e'.saved = g.vars.length ∧ y.vars.take e'.saved = g.vars := by
    intro ops
    induction ops with
    | nil => intro x y e q _ hi _ h1 h2 hh; cases Out.ok.inj hh; exact ⟨e, q, hi, h1, h2⟩
    | cons c ops ih =>
      intro x y e q hns hi hc h1 h2 hh
      obtain ⟨z, p1, z1, z2, z3⟩ := step_inv hi c _ hc
      rw [run, z1] at hh
      have hns' : .save ∉ ops := fun hm => hns (by simp [hm])
      refine ih hns' z2 z3 ?_ ?_ hh
      · cases c with
        | save => exact absurd (by simp) hns
        | _ => exact h1
      · have hle := hi.le
        have hlen := hi.len
        cases c with
        | eval es =>
          obtain ⟨g1, t, e1, _, e3, _⟩ := eval_ok hi es
          simp only [step, e1, Out.ok.injEq] at z1
          subst z1
          obtain ⟨tl, htl⟩ := e3
          simp only [Env.step]
          rw [← htl, List.take_append_of_le_length (by omega)]; exact h2
        | constant v =>
          simp only [step, Out.ok.injEq] at z1
          subst z1
          simp only [Env.step, constant]
          rw [List.take_append_of_le_length (by omega)]; exact h2
        | write k v =>
          obtain ⟨g1, w1, _, w3⟩ := write_ok hi k v
          rw [w1] at z1; cases Out.ok.inj z1
          simp only [Env.step]; rw [w3]; exact h2
        | scratch i v =>
          obtain ⟨g1, w1, _, w3⟩ := scratch_ok hi i v
          rw [w1] at z1; cases Out.ok.inj z1
          simp only [Env.step]; rw [w3]; exact h2
        | save => exact absurd (by simp) hns
        | clear k =>
          obtain ⟨g1, w1, _, w3⟩ := clear_ok hi k
          simp only [step] at z1
          rw [w1] at z1; cases Out.ok.inj z1
          simp only [Env.step]; rw [w3, List.take_take, Nat.min_self]; exact h2
  cases hb : run (save g) between with
  | ok y =>
    rw [hrun between _ _ _ hb, run] at hg'
    have hsv : ((Env.run ({} : Env V) before).step .save).saved = g.vars.length := by simp [Env.step, i1.len]
    obtain ⟨e', q', k1, k2, k3⟩ := key between hs i2 c2 hsv
      (by rw [hsv]; exact List.take_of_length_le (Nat.le_refl _)) hb
    obtain ⟨g1, w1, _, w3⟩ := clear_ok k1 keep
    simp only [step, w1, run, Out.ok.injEq] at hg'
    subst hg'
    rw [w3]; exact k3
  | err =>
    obtain ⟨y, p', hy, _⟩ := run_inv between i2 (by
      have : ∀ (a b : List (Op V)) (q : Bool), Calm q (a ++ b) → Calm q a := by
        intro a b
        induction a with
        | nil => intros; trivial
        | cons c a ih =>
          intro q hc
          cases c with
          | constant v => exact ⟨hc.1, ih _ hc.2⟩
          | save => exact ⟨hc.1, ih _ hc.2⟩
          | _ => exact ih _ hc
      exact this between [.clear keep] false c2)
    rw [hy] at hb; cases hb
  | ub =>
    obtain ⟨y, p', hy, _⟩ := run_inv between i2 (by
      have : ∀ (a b : List (Op V)) (q : Bool), Calm q (a ++ b) → Calm q a := by
        intro a b
        induction a with
        | nil => intros; trivial
        | cons c a ih =>
          intro q hc
          cases c with
          | constant v => exact ⟨hc.1, ih _ hc.2⟩
          | save => exact ⟨hc.1, ih _ hc.2⟩
          | _ => exact ih _ hc
      exact this between [.clear keep] false c2)
    rw [hy] at hb; cases hb

/-- Script `{var a;}`, then the constant 5, then script `var y;` and `y=7`: the constant reads as 7. -/
def aliasing : List (Op Nat) :=
  [.eval [.open, .var, .close], .constant (some 5), .eval [.var], .write 1 (some 7)]

theorem constant_aliased_violated :
    ∃ g, Reached aliasing g ∧ read g 0 = some (some 7) ∧ (Env.run {} aliasing).vals[0]? = some (some 5) :=
  ⟨_, rfl, rfl, rfl⟩

/-- With three variables in the block: the compilation of the next script writes behind its table. -/
theorem constant_overflow_violated :
    run ({} : Eng Nat) [.eval [.open, .var, .var, .var, .close], .constant (some 5), .eval [.var]] = .ub := by
  rfl

theorem globals_keep_values_violated : ¬ GlobalsKeepValues := by
  intro h
  obtain ⟨g, h1, _⟩ := h Nat [.eval [.open, .var, .var, .var, .close], .constant (some 5), .eval [.var]]
  rw [Reached, constant_overflow_violated] at h1
  cases h1

/-- C45 for globals and all histories: after `saveState()` and `clear()` the globals are those there were. -/
def ClearRestoresGlobals : Prop :=
  ∀ (V : Type) (before between : List (Op V)) (keep : Nat) (g g' : Eng V), .save ∉ between →
    Reached before g → Reached (before ++ .save :: (between ++ [.clear keep])) g' → g'.vars = g.vars

/-- `{var a;}`, `saveState()`, `var x;`, `clear()`: the global `x` is still there. -/
theorem clear_restores_globals_violated : ¬ ClearRestoresGlobals := by
  intro h
  have := h Nat [.eval [.open, .var, .close]] [.eval [.var]] 0 _ _ (by simp) rfl rfl
  revert this
  decide +kernel

/-- A constant of a class is read through the slot noted when it was declared. -/
def ClassConstantsFound : Prop :=
  ∀ (V : Type) (es : List Ev) (g : Eng V), Reached [.eval es] g → ∀ r ∈ g.refs, g.pos r.1 = r.2

/-- `{var a;} class A{ const K=1; }`: `A::K` reads the slot of `a`. -/
theorem class_constants_violated : ¬ ClassConstantsFound := by
  intro h
  have := h Nat [.open, .var, .close, .konst] _ rfl (1, 1) (by decide +kernel)
  revert this
  decide +kernel

/-- The constants of classes are found when the script declares no variable in a block. -/
theorem class_constants_partial {V : Type} (es : List Ev) {g : Eng V} (hg : Reached [.eval es] g)
    (h0 : inners 0 es = 0) : ∀ r ∈ g.refs, g.pos r.1 = r.2 := by
  have hd0 := open_during (init_inv (V := V))
  obtain ⟨⟨cur, hd⟩, hv, hb⟩ := during_run es hd0
  have hr : ∀ (es : List Ev) (a : Eng V) (cur : List Nat), During [] (fun _ => none) a cur →
      (∀ r ∈ a.refs, r.1 < a.fresh ∧ a.pos r.1 = r.2) →
      ∀ r ∈ (evRun a cur es).refs, (evRun a cur es).pos r.1 = r.2 := by
    intro es
    induction es with
    | nil => intro a cur _ h r hr; exact (h r hr).2
    | cons e es ih =>
      intro a cur hdu h
      rw [evRun]
      refine ih _ _ (during_step hdu e) ?_
      have hreg : ∀ r ∈ a.refs, r.1 < a.fresh + 1 ∧ upd a.pos a.fresh a.locals.length r.1 = r.2 := by
        intro r hr
        have := h r hr
        exact ⟨by omega, by rw [upd_other _ _ (by omega)]; exact this.2⟩
      cases e with
      | «open» => exact h
      | close => exact h
      | var => cases cur <;> exact hreg
      | konst =>
        intro r hr
        simp only [evStep, List.mem_append, List.mem_singleton, register] at hr ⊢
        rcases hr with hr | rfl
        · exact hreg r hr
        · exact ⟨by omega, upd_same _ _ _⟩
  obtain ⟨q, t, hs, hp, _⟩ := sort_ok hd
  have he : step ({} : Eng V) (.eval es) = .ok g := by
    have := hg
    rw [Reached, run] at this
    cases hst : step ({} : Eng V) (.eval es) with
    | ok z => rw [hst] at this; exact this
    | err => rw [hst] at this; cases this
    | ub => rw [hst] at this; cases this
  have hbl : (evRun (openEval ({} : Eng V)) [] es).blocks.flatten = [] := by
    apply List.length_eq_zero_iff.mp
    rw [hb]; simp [openEval, h0]
  -- nothing is declared in blocks, so the variables are in order already
  have hsorted : ∀ (es : List Ev) (a : Eng V) (cur : List Nat), inners cur.length es = 0 →
      a.locals = a.vars.map some → (evRun a cur es).locals = (evRun a cur es).vars.map some := by
    intro es
    induction es with
    | nil => intro a cur _ h; exact h
    | cons e es ih =>
      intro a cur hi h
      rw [evRun]
      cases e with
      | «open» => exact ih _ _ hi h
      | close => exact ih _ _ (by simpa [evStep, inners] using hi) h
      | var =>
        cases cur with
        | nil => exact ih _ _ (by simpa [evStep, inners] using hi) (by simp [evStep, register, h])
        | cons b c => simp [inners] at hi
      | konst => exact ih _ _ hi (by simp [evStep, register, h])
  have hl := hsorted es (openEval ({} : Eng V)) [] (by simpa using h0) (by rfl)
  obtain ⟨ids, i1, i2, i3, i4, i5⟩ := hd.ids
  have hids : ids = (evRun (openEval ({} : Eng V)) [] es).vars := by
    rw [i1] at hl
    have key : ∀ (a b : List Nat), a.map some = b.map some → a = b := by
      intro a
      induction a with
      | nil => intro b h; cases b with
        | nil => rfl
        | cons _ _ => cases h
      | cons x a ih =>
        intro b h
        cases b with
        | nil => cases h
        | cons y b =>
          simp only [List.map_cons, List.cons.injEq, Option.some.injEq] at h
          rw [h.1, ih b h.2]
    exact key _ _ hl
  have hord : order (evRun (openEval ({} : Eng V)) [] es) = ids := by
    rw [order, hbl, List.append_nil, hids]
  have hsort : sortVars (evRun (openEval ({} : Eng V)) [] es) = .ok (evRun (openEval ({} : Eng V)) [] es, id) := by
    unfold sortVars
    rw [if_pos]
    rw [hord]
    apply List.ext_getElem?
    intro i
    rw [List.getElem?_map]
    cases hi : ids[i]? with
    | none =>
      rw [List.getElem?_eq_none_iff] at hi
      rw [List.getElem?_eq_none (by simpa using hi)]; rfl
    | some s =>
      have hlt : i < ids.length := by rw [List.getElem?_eq_some_iff] at hi; exact hi.1
      rw [Option.map_some, i5 i s hi, List.getElem?_range hlt]
  simp only [step, eval, hsort, Out.ok.injEq] at he
  subst he
  exact hr es _ _ hd0 (by intro r hr; simp [openEval] at hr)

/-! ### The hypotheses are met -/

/-- Blocks, globals between them, a second script that adds a global and block variables, writes. -/
def sample : List (Op Nat) :=
  [.eval [.open, .var, .open, .var, .close, .var, .close, .var, .open, .var, .close, .var],
   .write 0 (some 1), .write 1 (some 2), .scratch 3 (some 9), .eval [.open, .var, .close, .var], .write 2 (some 4),
   .eval []]

example : ScriptsOnly sample := by
  intro o ho
  simp only [sample, List.mem_cons, List.not_mem_nil, or_false] at ho
  rcases ho with rfl | rfl | rfl | rfl | rfl | rfl | rfl
  · exact Or.inl ⟨_, rfl⟩
  · exact Or.inr (Or.inl ⟨_, _, rfl⟩)
  · exact Or.inr (Or.inl ⟨_, _, rfl⟩)
  · exact Or.inr (Or.inr ⟨_, _, rfl⟩)
  · exact Or.inl ⟨_, rfl⟩
  · exact Or.inr (Or.inl ⟨_, _, rfl⟩)
  · exact Or.inl ⟨_, rfl⟩

example : (match run ({} : Eng Nat) sample with
    | .ok g => decide (read g 0 = some (some 1) ∧ read g 1 = some (some 2) ∧ read g 2 = some (some 4) ∧ read g 3 = none)
    | _ => false) = true := by decide +kernel

/-- The positions really move: the first global of `sample` is compiled as slot 3 and ends in slot 0. -/
example : (match eval ({} : Eng Nat)
      [.open, .var, .open, .var, .close, .var, .close, .var, .open, .var, .close, .var] with
    | .ok (g, t) => decide (g.vars = [3, 5] ∧ t 3 = 0 ∧ t 0 = 2 ∧ g.locals.length = 6)
    | _ => false) = true := by decide +kernel

/-- A calm history with a constant, a saved state and `clear`. -/
example : Calm false (V := Nat) [.constant (some 1), .eval [.var, .var], .save, .eval [.open, .var, .close, .var], .clear 0,
    .constant (some 2), .eval [.konst], .clear 3] := by simp [Calm, inners]

end Verif.Core.Globals
