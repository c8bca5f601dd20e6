import Verif.Core.ScopeSteps
/-
The step that declares a function and opens its scope.
-/
namespace Verif.Core.Scope
open Spec

theorem symsOf_find (sc : Scope) (x : String) :
    (symsOf sc).find? (fun d => d.name == x) =
      ((sc.types.find? (fun y => y.name == x)).map (fun y => ⟨y.name, .type, y.decl⟩)).or
        (((sc.vars.find? (fun y => y.name == x)).map (fun y => ⟨y.name, .var, y.decl⟩)).or
          ((sc.funs.find? (fun y => y.name == x)).map (fun y => ⟨y.name, .fn y.np, y.decl⟩))) := by
  unfold symsOf
  rw [List.find?_append, List.find?_append, List.find?_map, List.find?_map, List.find?_map, Option.or_assoc]
  rfl

theorem inj_of_nodup {α β : Type} (g : α → β) : ∀ {l : List α}, (l.map g).Nodup → ∀ {x y : α}, x ∈ l → y ∈ l → g x = g y → x = y
  | c :: l, hn, x, y, hx, hy, h => by
    simp only [List.map_cons, List.nodup_cons, List.mem_map, not_exists, not_and] at hn
    rcases List.mem_cons.mp hx with rfl | hx' <;> rcases List.mem_cons.mp hy with rfl | hy'
    · rfl
    · exact absurd h.symm (hn.1 _ hy')
    · exact absurd h (hn.1 _ hx')
    · exact inj_of_nodup g hn.2 hx' hy' h

theorem funs_nodup {sc : Scope} (h : (names sc).Nodup) : (sc.funs.map Sym.name).Nodup := by
  unfold names symsOf at h
  rw [List.map_append] at h
  have := (List.nodup_append.mp h).2.1
  simpa [List.map_map, Function.comp_def] using this

/-! ### parameters -/

theorem addArgs_ok {t : List Nat} {s : Nat} {r : List Frame} {g : Frame} {nf : Nat} :
    ∀ (args : List String) (d : Nat) (a : Arena) (f : Frame), R ⟨a, s :: t, nf, d⟩ (f :: g :: r) d →
      addArgs s args d a ≠ .ub ∧
      ((∃ a', addArgs s args d a = .ok a') ↔
        args.Nodup ∧ ∀ x ∈ args, ¬ typeName (g :: r) x ∧ f.find x = none) ∧
      ∀ a', addArgs s args d a = .ok a' →
        R ⟨a', s :: t, nf, d + args.length⟩ ({ f with decls := f.decls ++ params args d } :: g :: r) (d + args.length)
  | [], d, a, f, h => by
    refine ⟨by simp [addArgs], ⟨fun _ => by simp, fun _ => ⟨a, rfl⟩⟩, ?_⟩
    intro a' e
    cases Out.ok.inj e
    simp only [params, List.append_nil, List.length_nil, Nat.add_zero]
    exact h
  | x :: xs, d, a, f, h => by
    obtain ⟨s0, t0, f0, r0, sc, e1, e2, hs, _, hfr, _⟩ := h.stack
    cases e1; cases e2
    have hty := isType_iff h.wf h.al x
    have hty' : typeName (f :: g :: r) x ↔ typeName (g :: r) x := Iff.rfl
    have hown := own_none_find hfr x
    simp only at hs
    rw [addArgs]
    simp only [hs, addVar]
    by_cases h1 : isType a x = true
    · simp only [h1, if_true]
      refine ⟨by simp, ⟨fun h => (by obtain ⟨_, h⟩ := h; cases h), fun ⟨_, h⟩ => ?_⟩, fun _ h => by cases h⟩
      exact absurd (hty'.mp (hty.mp h1)) (h x (by simp)).1
    · simp only [h1]
      by_cases h2 : (own sc x none).isSome = true
      · simp only [h2, if_true]
        refine ⟨by simp, ⟨fun h => (by obtain ⟨_, h⟩ := h; simp at h), fun ⟨_, h⟩ => ?_⟩, fun _ h => by simp at h⟩
        have := hown.mpr (h x (by simp)).2
        rw [this] at h2; cases h2
      · simp only [h2]
        have hfx : f.find x = none := hown.mp (by simpa using h2)
        have key := addVar_ok h rfl rfl hfx d
        have ih := addArgs_ok xs (d + 1) _ { f with decls := f.decls ++ [⟨x, .var, d⟩] }
          (R.mk (st := ⟨_, s :: t, nf, d + 1⟩) rfl key.1 key.2.1 key.2.2)
        refine ⟨ih.1, ?_, ?_⟩
        · have hnt : ¬ typeName (g :: r) x := fun hh => h1 (hty.mpr (hty'.mpr hh))
          have hfind : ∀ y, ({ f with decls := f.decls ++ [⟨x, .var, d⟩] } : Frame).find y = none ↔
              f.find y = none ∧ x ≠ y := by
            intro y
            simp [Frame.find, List.find?_append, beq_iff_eq]
          refine Iff.trans ih.2.1 ?_
          constructor
          · rintro ⟨k1, k2⟩
            refine ⟨List.nodup_cons.mpr ⟨fun hx => ((hfind x).mp (k2 x hx).2).2 rfl, k1⟩, ?_⟩
            intro y hy
            rcases List.mem_cons.mp hy with rfl | hy
            · exact ⟨hnt, hfx⟩
            · exact ⟨(k2 y hy).1, ((hfind y).mp (k2 y hy).2).1⟩
          · rintro ⟨k1, k2⟩
            rw [List.nodup_cons] at k1
            refine ⟨k1.2, fun y hy => ⟨(k2 y (by simp [hy])).1, (hfind y).mpr ⟨(k2 y (by simp [hy])).2, ?_⟩⟩⟩
            rintro rfl; exact k1.1 hy
        · intro a' e
          have := ih.2.2 a' e
          simp only [List.append_assoc, List.singleton_append, List.length_cons, params] at this ⊢
          rw [show d + (xs.length + 1) = d + 1 + xs.length by omega]
          exact this

/-! ### registering the name -/

/-- What `registerFn` has to satisfy; `f` is the frame of the current scope. -/
theorem registerFn_ok {st : St} {fs : List Frame} {n : Nat} (h : R st fs n) {s : Nat} {t : List Nat} {f : Frame}
    {r : List Frame} (e1 : st.stack = s :: t) (e2 : fs = f :: r) {sc : Scope} (hs : st.arena[s]? = some sc)
    (x : String) (np : Nat) :
    let own := ∃ (d : Decl) (m : Nat), f.find x = some d ∧ d.kind = .fn m
    (registerFn st s x np = .ub ↔ lookup fs x ≠ none ∧ ¬ own) ∧
    ((∃ v, registerFn st s x np = .ok v) ↔ free fs x (some np) ∨ own) ∧
    ∀ a fid nf, registerFn st s x np = .ok (a, fid, nf) →
      WF a nf ∧ Al a (s :: t) (declareFn f x np n :: r) ∧ ClOk a none (s :: t) (declareFn f x np n :: r) ∧
      (∀ y, isType a y = isType st.arena y) ∧
      (∃ sc', a[s]? = some sc' ∧ sc'.fid < fid) ∧ fid < nf := by
  intro own
  have ha := h.al
  have hcl := h.cl
  rw [e1, e2] at ha hcl
  obtain ⟨s0, t0, f0, r0, sc0, q1, q2, q3, _, hfr, _⟩ := h.stack
  rw [e1] at q1; cases q1
  rw [e2] at q2; cases q2
  rw [hs] at q3; cases Option.some.inj q3
  have hlt := ha.lt (s := s) (by simp)
  have hn := h.wf.nodup _ _ hs
  have hdl := down_lookup h.wf x (s := s) (t := t) st.arena.length h.al e1 hlt
  have hfind := find_eq hn hfr x
  rw [symsOf_find] at hfind
  unfold registerFn
  cases hd : down st.arena x none st.arena.length s with
  | some y0 =>
    have hlk : lookup fs x ≠ none := by
      intro hh; rw [hd, hh] at hdl; simp at hdl
    have hnf : ¬ free fs x (some np) := fun hh => hlk hh.2.1
    simp only [hs]
    cases ht : sc.types.find? (fun y => y.name == x) with
    | some yt =>
      rw [ht] at hfind
      simp only [Option.map_some, Option.some_or] at hfind
      have hno : ¬ own := by
        rintro ⟨d, m, hfd, hk⟩
        rw [hfd] at hfind; cases Option.some.inj hfind; cases hk
      simp only [Option.isSome_some, if_true]
      refine ⟨⟨fun _ => ⟨hlk, hno⟩, fun _ => trivial⟩, ⟨fun h => (by obtain ⟨_, h⟩ := h; cases h), ?_⟩, fun _ _ _ h => by cases h⟩
      rintro (h | h)
      · exact absurd h hnf
      · exact absurd h hno
    | none =>
      rw [ht] at hfind
      simp only [Option.map_none, Option.none_or] at hfind
      simp only [Option.isSome_none, Bool.false_eq_true, if_false]
      cases hv : sc.vars.find? (fun y => y.name == x) with
      | some yt =>
        rw [hv] at hfind
        simp only [Option.map_some, Option.some_or] at hfind
        have hno : ¬ own := by
          rintro ⟨d, m, hfd, hk⟩
          rw [hfd] at hfind; cases Option.some.inj hfind; cases hk
        simp only [Option.isSome_some, if_true]
        refine ⟨⟨fun _ => ⟨hlk, hno⟩, fun _ => trivial⟩, ⟨fun h => (by obtain ⟨_, h⟩ := h; cases h), ?_⟩, fun _ _ _ h => by cases h⟩
        rintro (h | h)
        · exact absurd h hnf
        · exact absurd h hno
      | none =>
        rw [hv] at hfind
        simp only [Option.map_none, Option.none_or] at hfind
        simp only [Option.isSome_none, Bool.false_eq_true, if_false]
        cases hfu : sc.funs.find? (fun y => y.name == x) with
        | none =>
          rw [hfu] at hfind
          have hno : ¬ own := by
            rintro ⟨d, m, hfd, hk⟩
            rw [hfd] at hfind; cases hfind
          simp only
          refine ⟨⟨fun _ => ⟨hlk, hno⟩, fun _ => trivial⟩, ⟨fun h => (by obtain ⟨_, h⟩ := h; cases h), ?_⟩, fun _ _ _ h => by cases h⟩
          rintro (h | h)
          · exact absurd h hnf
          · exact absurd h hno
        | some y =>
          rw [hfu] at hfind
          simp only [Option.map_some] at hfind
          have ho : own := ⟨_, y.np, hfind.symm, rfl⟩
          have hym := List.mem_of_find?_eq_some hfu
          have hyn := List.find?_some hfu
          simp only [beq_iff_eq] at hyn
          simp only
          refine ⟨⟨fun h => (by cases h), fun h => absurd ho h.2⟩, ⟨fun _ => Or.inr ho, fun _ => ⟨_, rfl⟩⟩, ?_⟩
          intro a fid nf e
          simp only [Out.ok.injEq, Prod.mk.injEq] at e
          obtain ⟨rfl, rfl, rfl⟩ := e
          have hzy : ∀ z ∈ sc.funs, (z = y ↔ z.name = x) := by
            intro z hz
            constructor
            · rintro rfl; exact hyn
            · intro hzx; exact inj_of_nodup Sym.name (funs_nodup hn) hz hym (hzx.trans hyn.symm)
          have hnt : ∀ z ∈ sc.types, z.name ≠ x := by
            simp only [List.find?_eq_none, beq_iff_eq] at ht; exact ht
          have hnv : ∀ z ∈ sc.vars, z.name ≠ x := by
            simp only [List.find?_eq_none, beq_iff_eq] at hv; exact hv
          have hdf : declareFn f x np n =
              { f with decls := f.decls.map (fun d => if d.name = x then ⟨x, .fn np, n⟩ else d) } := by
            unfold declareFn; rw [← hfind]
          have key := sym_upd (f' := declareFn f x np n)
            (g := fun sc => { sc with funs := sc.funs.map (fun z =>
                    if z = y then { z with decl := st.ndecl, np := np } else z) })
            (Nat.le_refl _) h.wf h.al h.cl (pre := []) (fpre := []) (f := f) e1 e2 rfl
            (by rw [hdf]; exact ⟨rfl, rfl⟩) hs (fun _ => ⟨rfl, rfl⟩) ⟨rfl, rfl, rfl, rfl, rfl, ?_, ?_⟩ ?_
          · rw [e1] at key
            refine ⟨key.1, key.2.1, key.2.2, ?_, ⟨_, by simp [get_mod, hs]; rfl, ?_⟩, (h.wf.funs _ _ hs y hym).2⟩
            · intro z
              unfold isType
              rw [get_mod]
              cases st.arena[0]? with
              | none => rfl
              | some m => by_cases hz : s = 0 <;> simp [hz]
            · exact (h.wf.funs _ _ hs y hym).1
          · have : names { sc with funs := sc.funs.map (fun z =>
                    if z = y then { z with decl := st.ndecl, np := np } else z) } = names sc := by
              unfold names symsOf
              simp only [List.map_append, List.map_map]
              congr 1
              apply List.map_congr_left
              intro z _
              simp only [Function.comp]
              split <;> rfl
            rw [this]; exact hn
          · intro z hz
            simp only [List.mem_map] at hz
            obtain ⟨z0, hz0, rfl⟩ := hz
            have := h.wf.funs _ _ hs z0 hz0
            split <;> exact this
          · intro hf d'
            rw [hdf]
            simp only [List.mem_map, mem_symsOf]
            have hnd := h.nd
            constructor
            · rintro (⟨z, hz, rfl⟩ | ⟨z, hz, rfl⟩ | ⟨z, ⟨z0, hz0, rfl⟩, rfl⟩)
              · refine ⟨⟨z.name, .type, z.decl⟩, (hf _).mp (mem_symsOf.mpr (Or.inl ⟨z, hz, rfl⟩)), ?_⟩
                rw [if_neg (hnt z hz)]
              · refine ⟨⟨z.name, .var, z.decl⟩, (hf _).mp (mem_symsOf.mpr (Or.inr (Or.inl ⟨z, hz, rfl⟩))), ?_⟩
                rw [if_neg (hnv z hz)]
              · refine ⟨⟨z0.name, .fn z0.np, z0.decl⟩, (hf _).mp (mem_symsOf.mpr (Or.inr (Or.inr ⟨z0, hz0, rfl⟩))), ?_⟩
                by_cases hzz : z0 = y
                · rw [if_pos ((hzy z0 hz0).mp hzz), if_pos hzz]
                  simp only [Decl.mk.injEq, true_and]
                  exact ⟨((hzy z0 hz0).mp hzz).symm, hnd.symm⟩
                · rw [if_neg (fun hh => hzz ((hzy z0 hz0).mpr hh)), if_neg hzz]
            · rintro ⟨d0, hd0, rfl⟩
              rcases mem_symsOf.mp ((hf d0).mpr hd0) with ⟨z, hz, rfl⟩ | ⟨z, hz, rfl⟩ | ⟨z, hz, rfl⟩
              · rw [if_neg (hnt z hz)]; exact Or.inl ⟨z, hz, rfl⟩
              · rw [if_neg (hnv z hz)]; exact Or.inr (Or.inl ⟨z, hz, rfl⟩)
              · refine Or.inr (Or.inr ⟨_, ⟨z, hz, rfl⟩, ?_⟩)
                by_cases hzz : z = y
                · rw [if_pos ((hzy z hz).mp hzz), if_pos hzz]
                  simp only [Decl.mk.injEq, true_and]
                  exact ⟨((hzy z hz).mp hzz).symm, hnd.symm⟩
                · rw [if_neg (fun hh => hzz ((hzy z hz).mpr hh)), if_neg hzz]
  | none =>
    have hlk : lookup fs x = none := by
      cases hl : lookup fs x with
      | none => rfl
      | some d => rw [hd, hl] at hdl; simp at hdl
    have hfx : f.find x = none := lookup_find (e2 ▸ hlk)
    have hno : ¬ own := by
      rintro ⟨d, m, hfd, _⟩
      rw [hfx] at hfd; cases hfd
    have hfree := free_iff h e1 e2 x (some np) (Or.inl hlk)
    simp only
    by_cases h1 : isType st.arena x = true
    · rw [if_pos h1]
      refine ⟨⟨fun h => (by cases h), fun h => absurd hlk h.1⟩, ⟨fun h => (by obtain ⟨_, h⟩ := h; cases h), ?_⟩, fun _ _ _ h => by cases h⟩
      rintro (hh | hh)
      · have := (hfree.mpr hh).1; rw [h1] at this; cases this
      · exact absurd hh hno
    · rw [if_neg h1]
      by_cases h2 : (upDown st.arena s x (some np)).isSome = true
      · rw [if_pos h2]
        refine ⟨⟨fun h => (by cases h), fun h => absurd hlk h.1⟩, ⟨fun h => (by obtain ⟨_, h⟩ := h; cases h), ?_⟩, fun _ _ _ h => by cases h⟩
        rintro (hh | hh)
        · have := (hfree.mpr hh).2; rw [this] at h2; cases h2
        · exact absurd hh hno
      · rw [if_neg h2]
        have hfr' := hfree.mp ⟨by simpa using h1, by simpa using h2⟩
        refine ⟨⟨fun h => (by cases h), fun h => absurd hlk h.1⟩, ⟨fun _ => Or.inl hfr', fun _ => ⟨_, rfl⟩⟩, ?_⟩
        intro a fid nf e
        simp only [Out.ok.injEq, Prod.mk.injEq] at e
        obtain ⟨rfl, rfl, rfl⟩ := e
        have hno' : ∀ d ∈ symsOf sc, d.name ≠ x := by
          intro d hd hn
          unfold Frame.find at hfx
          simp only [List.find?_eq_none, beq_iff_eq] at hfx
          exact hfx d ((hfr d).mp hd) hn
        have hdf : declareFn f x np n = { f with decls := f.decls ++ [⟨x, .fn np, n⟩] } := by
          unfold declareFn; rw [hfx]
        have key := sym_upd (nf' := st.nfun + 1) (f' := declareFn f x np n)
          (g := fun sc => { sc with funs := sc.funs ++ [{ name := x, decl := st.ndecl, np := np, fid := st.nfun }] })
          (Nat.le_succ _) h.wf h.al h.cl (pre := []) (fpre := []) (f := f) e1 e2 rfl
          (by rw [hdf]; exact ⟨rfl, rfl⟩) hs (fun _ => ⟨rfl, rfl⟩) ⟨rfl, rfl, rfl, rfl, rfl, ?_, ?_⟩ ?_
        · rw [e1] at key
          refine ⟨key.1, key.2.1, key.2.2, ?_, ⟨_, by simp [get_mod, hs]; rfl, ?_⟩, Nat.lt_succ_self _⟩
          · intro z
            unfold isType
            rw [get_mod]
            cases st.arena[0]? with
            | none => rfl
            | some m => by_cases hz : s = 0 <;> simp [hz]
          · exact h.wf.fid s sc hs
        · rw [(names_append_fn sc _).nodup_iff, List.nodup_cons]
          exact ⟨not_mem_names hno', hn⟩
        · intro y hy
          rcases List.mem_append.mp hy with hy | hy
          · have := h.wf.funs _ _ hs y hy; omega
          · rw [List.mem_singleton] at hy; subst hy
            have := h.wf.fid _ _ hs
            simp only; omega
        · intro hf d'
          rw [hdf]
          have := hf d'
          have hnd := h.nd
          simp only [mem_symsOf, List.mem_append, List.mem_singleton] at this ⊢
          rw [← this, ← hnd]
          constructor
          · rintro (k | k | ⟨y, hy | hy, e⟩)
            · exact Or.inl (Or.inl k)
            · exact Or.inl (Or.inr (Or.inl k))
            · exact Or.inl (Or.inr (Or.inr ⟨y, hy, e⟩))
            · subst hy; exact Or.inr e
          · rintro ((k | k | ⟨y, hy, e⟩) | k)
            · exact Or.inl k
            · exact Or.inr (Or.inl k)
            · exact Or.inr (Or.inr ⟨y, Or.inl hy, e⟩)
            · exact Or.inr (Or.inr ⟨_, Or.inr rfl, k⟩)

theorem step_fn {st : St} {fs : List Frame} {n : Nat} (h : R st fs n) (x : String) (args : List String) :
    StepOk st fs n (.fn x args) := by
  obtain ⟨s, t, f, r, sc, e1, e2, hs, _⟩ := h.stack
  have hreg := registerFn_ok h e1 e2 hs x args.length
  simp only at hreg
  have hown : (∃ (f' : Frame) (r' : List Frame) (d : Decl) (np : Nat), fs = f' :: r' ∧ f'.find x = some d ∧ d.kind = .fn np) ↔
      ∃ (d : Decl) (m : Nat), f.find x = some d ∧ d.kind = .fn m := by
    constructor
    · rintro ⟨f', r', d, np, k1, k2, k3⟩
      rw [e2] at k1; cases k1
      exact ⟨d, np, k2, k3⟩
    · rintro ⟨d, np, k2, k3⟩
      exact ⟨f, r, d, np, e2, k2, k3⟩
  unfold StepOk Undefined Accepts
  simp only
  rw [hown]
  have hst : step st (.fn x args) =
      match registerFn st s x args.length with
      | .err => .err
      | .ub => .ub
      | .ok (a, f, nf) =>
        match addArgs a.length args (st.ndecl + 1)
            (newScope a { fid := f, parent := some s, isBlock := false } s) with
        | .err => .err
        | .ub => .ub
        | .ok a' =>
          .ok { arena := a', stack := a.length :: s :: t, nfun := nf,
                ndecl := st.ndecl + 1 + args.length } := by
    unfold step; rw [e1]; simp only; cases registerFn st s x args.length <;> rfl
  rw [hst]
  cases hr : registerFn st s x args.length with
  | err =>
    refine ⟨⟨fun h => (by cases h), fun hh => ?_⟩, ⟨fun h => (by obtain ⟨_, h⟩ := h; cases h), fun hh => ?_⟩, fun _ h => by cases h⟩
    · have := hreg.1.mpr hh; rw [hr] at this; cases this
    · obtain ⟨v, hv⟩ := hreg.2.1.mpr hh.1; rw [hr] at hv; cases hv
  | ub =>
    refine ⟨⟨fun _ => hreg.1.mp hr, fun _ => rfl⟩, ⟨fun h => (by obtain ⟨_, h⟩ := h; cases h), fun hh => ?_⟩, fun _ h => by cases h⟩
    obtain ⟨v, hv⟩ := hreg.2.1.mpr hh.1; rw [hr] at hv; cases hv
  | ok v =>
    obtain ⟨a, fid, nf⟩ := v
    obtain ⟨w1, al1, cl1, ty1, ⟨sc1, hs1, hfid⟩, hnf⟩ := hreg.2.2 a fid nf hr
    have key := newScope_ok w1 al1 cl1 hs1 fid false hnf (by simpa using hfid)
    simp only [Bool.not_false] at key
    have hargs := addArgs_ok args (st.ndecl + 1) _ _
      (R.mk (st := ⟨newScope a { fid := fid, parent := some s, isBlock := false } s, a.length :: s :: t, nf, st.ndecl + 1⟩)
        (n := st.ndecl + 1) rfl key.1 key.2.1 key.2.2)
    have htn : ∀ y, typeName (declareFn f x args.length n :: r) y ↔ typeName fs y := by
      intro y
      rw [← isType_iff w1 al1 y, ← isType_iff h.wf h.al y, ty1]
    have hok : (∃ a', addArgs a.length args (st.ndecl + 1)
        (newScope a { fid := fid, parent := some s, isBlock := false } s) = .ok a') ↔ okParams fs args := by
      rw [hargs.2.1]
      unfold okParams
      constructor
      · rintro ⟨k1, k2⟩; exact ⟨k1, fun y hy => fun hh => (k2 y hy).1 ((htn y).mpr hh)⟩
      · rintro ⟨k1, k2⟩; exact ⟨k1, fun y hy => ⟨fun hh => k2 y hy ((htn y).mp hh), rfl⟩⟩
    have hA : free fs x (some args.length) ∨ ∃ (d : Decl) (m : Nat), f.find x = some d ∧ d.kind = .fn m :=
      hreg.2.1.mp ⟨_, hr⟩
    have hU : ¬ (lookup fs x ≠ none ∧ ¬ ∃ (d : Decl) (m : Nat), f.find x = some d ∧ d.kind = .fn m) := by
      intro hh; have := hreg.1.mpr hh; rw [hr] at this; cases this
    simp only
    cases hg : addArgs a.length args (st.ndecl + 1)
        (newScope a { fid := fid, parent := some s, isBlock := false } s) with
    | ub => exact absurd hg hargs.1
    | err =>
      refine ⟨⟨fun h => (by cases h), fun hh => absurd hh hU⟩, ⟨fun h => (by obtain ⟨_, h⟩ := h; cases h), fun hh => ?_⟩, fun _ h => by cases h⟩
      obtain ⟨a', ha'⟩ := hok.mpr hh.2
      rw [hg] at ha'; cases ha'
    | ok a' =>
      refine ⟨⟨fun h => (by cases h), fun hh => absurd hh hU⟩, ⟨fun _ => ⟨hA, hok.mp ⟨a', hg⟩⟩, fun _ => ⟨_, rfl⟩⟩, ?_⟩
      intro st' e
      cases Out.ok.inj e
      have hR := hargs.2.2 a' hg
      rw [e2]
      simp only [next]
      have hnd := h.nd
      rw [hnd] at hR ⊢
      simpa using hR

theorem step_ok {st : St} {fs : List Frame} {n : Nat} (h : R st fs n) (e : Ev) : StepOk st fs n e := by
  cases e with
  | block => exact step_block h
  | fn x args => exact step_fn h x args
  | close l => exact step_close h l
  | var x => exact step_var h x
  | type x => exact step_type h x

/-! ### whole scripts -/

theorem init_ok {ts : List String} (hts : ts.Nodup) : R (init ts) (start ts).1 (start ts).2 := by
  have h0 : ∀ (i : Nat) (sc : Scope), (init ts).arena[i]? = some sc →
      i = 0 ∧ sc = { fid := 0, parent := none, isBlock := false,
                     types := ts.mapIdx (fun i t => { name := t, decl := i }) } := by
    intro i sc h
    cases i with
    | zero => exact ⟨rfl, by simpa [init] using h.symm⟩
    | succ i => simp [init] at h
  have hmap : ∀ (l : List String), (l.mapIdx (fun i t => ({ name := t, decl := i } : Sym))).map Sym.name = l := by
    intro l
    apply List.ext_getElem?
    intro i
    simp [List.getElem?_mapIdx]
    cases l[i]? <;> rfl
  refine ⟨rfl, ?_, ?_, ?_⟩
  · constructor
    · intro i sc h c hc
      obtain ⟨_, rfl⟩ := h0 i sc h
      cases hc
    · intro i sc h
      obtain ⟨_, rfl⟩ := h0 i sc h
      unfold names symsOf
      simp only [List.map_nil, List.append_nil, List.map_map]
      have := hmap ts
      simp only [Function.comp_def] at this ⊢
      rw [this]; exact hts
    · intro i sc h
      obtain ⟨_, rfl⟩ := h0 i sc h
      exact Nat.one_pos
    · intro i sc h y hy
      obtain ⟨_, rfl⟩ := h0 i sc h
      cases hy
    · intro i sc h _
      obtain ⟨_, rfl⟩ := h0 i sc h
      rfl
  · refine ⟨rfl, rfl, _, rfl, rfl, rfl, rfl, ?_⟩
    intro d
    simp only [symsOf, List.mem_mapIdx, List.map_nil, List.append_nil, List.mem_map]
    constructor
    · rintro ⟨_, ⟨i, hi, rfl⟩, rfl⟩; exact ⟨i, hi, rfl⟩
    · rintro ⟨i, hi, rfl⟩; exact ⟨_, ⟨i, hi, rfl⟩, rfl⟩
  · refine ⟨?_, trivial⟩
    intro x k
    constructor
    · rintro ⟨c, e, ⟨mc, cc, g1, _, g3, _⟩, _⟩
      obtain ⟨_, rfl⟩ := h0 0 mc g1
      cases g3
    · intro h; cases h

theorem run_ok {st st' : St} {fs : List Frame} {n : Nat} (h : R st fs n) : ∀ {es : List Ev}, run st es = .ok st' →
    R st' (after (fs, n) es).1 (after (fs, n) es).2 := by
  intro es
  induction es generalizing st fs n with
  | nil => intro e; cases Out.ok.inj e; exact h
  | cons e es ih =>
    intro hr
    rw [run] at hr
    cases hs : step st e with
    | err => rw [hs] at hr; cases hr
    | ub => rw [hs] at hr; cases hr
    | ok st1 =>
      rw [hs] at hr
      exact ih ((step_ok h e).2.2 st1 hs) hr

theorem run_append {st : St} (es es' : List Ev) :
    run st (es ++ es') = match run st es with | .ok st' => run st' es' | .err => .err | .ub => .ub := by
  induction es generalizing st with
  | nil => rfl
  | cons e es ih =>
    rw [List.cons_append, run, run]
    cases step st e with
    | err => rfl
    | ub => rfl
    | ok st1 => exact ih

theorem after_append (fs : List Frame × Nat) (es es' : List Ev) : after fs (es ++ es') = after (after fs es) es' := by
  induction es generalizing fs with
  | nil => rfl
  | cons e es ih => exact ih _

end Verif.Core.Scope
