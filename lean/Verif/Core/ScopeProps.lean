import Verif.Core.ScopeFn
/-
C44: lexical lookup. The scope tree of the model against the stack of open scopes of `ScopeSpec.lean`, for
every script that the compiler gets through.
-/
namespace Verif.Core.Scope
open Spec

/-- The script prefix `es` compiles without error on an engine with the types `ts`, and ends in `st`. -/
def Compiled (ts : List String) (es : List Ev) (st : St) : Prop :=
  ts.Nodup ∧ run (init ts) es = .ok st

/-- The scopes that are open after `es`, by the specification. -/
def opened (ts : List String) (es : List Ev) : List Frame := (after (start ts) es).1

theorem Compiled.R {ts : List String} {es : List Ev} {st : St} (h : Compiled ts es st) :
    R st (opened ts es) (after (start ts) es).2 :=
  run_ok (init_ok h.1) h.2

/-! ### What a name stands for -/

/-- C44. While compiling, a name stands for the declaration of the innermost enclosing scope of the same
function that declares it; a name not found there is looked up in the outermost scope, once everything is
compiled. -/
theorem lookup_innermost {ts : List String} {es : List Ev} {st : St} (h : Compiled ts es st) (x : String) :
    resolve st x = (lookup (opened ts es) x).map Decl.id ∧ link st x = (global (opened ts es) x).map Decl.id := by
  have hr := h.R
  constructor
  · obtain ⟨s, t, f, r, sc, e1, e2, hs, _⟩ := hr.stack
    unfold resolve
    rw [e1]
    have hlt := hr.al.lt (s := s) (by rw [e1]; simp)
    exact down_lookup hr.wf x _ hr.al e1 hlt
  · obtain ⟨pre, fpre, m, f, _, _, _, _, h0, hfr, hg⟩ := hr.al.bottom
    unfold link
    rw [h0, hg]
    exact own_find (hr.wf.nodup _ _ h0) hfr x

/-- The meaning of a name used in the innermost open scope: found while compiling, or linked afterwards. -/
def meaning (st : St) (x : String) : Option Nat := (resolve st x).or (link st x)

/-- C44 as stated: a name means the declaration of the innermost enclosing scope that declares it. -/
def LexicalLookup : Prop :=
  ∀ (ts : List String) (es : List Ev) (st : St), Compiled ts es st → ∀ x : String,
    meaning st x = (expected (opened ts es) x).map Decl.id

/-- It holds where no scope between the function the name is used in and the outermost scope declares the
name: in particular in the script itself and in functions written at its top level. -/
theorem lookup_expected_partial {ts : List String} {es : List Ev} {st : St} (h : Compiled ts es st) (x : String)
    {inner mid : List Frame} {body out : Frame}
    (hfs : opened ts es = inner ++ [out] ∨ opened ts es = inner ++ body :: (mid ++ [out]))
    (hin : ∀ f ∈ inner, f.isFun = false) (hmid : ∀ f ∈ mid, f.find x = none) :
    meaning st x = (expected (opened ts es) x).map Decl.id := by
  obtain ⟨h1, h2⟩ := lookup_innermost h x
  have hg : ∀ (l : List Frame) (f : Frame), global (l ++ [f]) x = f.find x := by
    intro l f
    induction l with
    | nil => rfl
    | cons g l ih =>
      cases l with
      | nil => rfl
      | cons g' l => exact ih
  have hm : ∀ (l : List Frame) (f : Frame), (∀ g ∈ l, g.find x = none) → expected (l ++ [f]) x = f.find x := by
    intro l f hl
    induction l with
    | nil => simp only [List.nil_append, expected]; cases f.find x <;> rfl
    | cons g l ih =>
      simp only [List.cons_append, expected, hl g (by simp)]
      exact ih (fun g' hg' => hl g' (by simp [hg']))
  unfold meaning
  rw [h1, h2, ← Option.map_or]
  congr 1
  rcases hfs with hfs | hfs <;> rw [hfs]
  · rw [hg]
    clear hfs
    induction inner with
    | nil => simp only [List.nil_append, lookup, expected]; cases out.find x <;> simp
    | cons f l ih =>
      simp only [List.cons_append, lookup, expected]
      cases f.find x with
      | some d => rfl
      | none => simpa [hin f (by simp)] using ih (fun g hg => hin g (by simp [hg]))
  · have e : inner ++ body :: (mid ++ [out]) = (inner ++ body :: mid) ++ [out] := by simp
    rw [e, hg, ← e]
    clear hfs e
    induction inner with
    | nil =>
      simp only [List.nil_append, lookup, expected]
      have hb := hm mid out hmid
      have hrest : lookup (mid ++ [out]) x = none ∨ lookup (mid ++ [out]) x = out.find x := by
        clear hb
        induction mid with
        | nil => simp only [List.nil_append, lookup]; cases out.find x <;> simp
        | cons g l ih =>
          simp only [List.cons_append, lookup, hmid g (by simp)]
          split
          · exact Or.inl rfl
          · exact ih (fun g' hg' => hmid g' (by simp [hg']))
      rw [hb]
      cases body.find x with
      | some d => rfl
      | none =>
        simp only
        split
        · simp
        · rcases hrest with h | h <;> rw [h] <;> simp
    | cons f l ih =>
      simp only [List.cons_append, lookup, expected]
      cases f.find x with
      | some d => rfl
      | none => simpa [hin f (by simp)] using ih (fun g hg => hin g (by simp [hg]))

/-- `var x; function f(x){ function g(){ …` : in `g` the name means the global, not the parameter of `f`. -/
theorem lexical_lookup_violated : ¬ LexicalLookup := by
  intro h
  have := h [] [.var "x", .fn "f" ["x"], .fn "g" []] _ ⟨by simp, rfl⟩ "x"
  revert this
  decide +kernel

/-! ### One scope, one name -/

/-- C44. No scope ever holds two symbols with one name, be they types, variables or functions. -/
theorem scope_names_distinct {ts : List String} {es : List Ev} {st : St} (h : Compiled ts es st) :
    ∀ sc ∈ st.arena, ((sc.types ++ sc.vars ++ sc.funs).map Sym.name).Nodup := by
  intro sc hm
  obtain ⟨i, hi⟩ := List.getElem?_of_mem hm
  have := h.R.wf.nodup _ _ hi
  unfold names symsOf at this
  simpa [List.map_map, Function.comp_def] using this

/-! ### What happens inside a scope stays there -/

/-- Every scope opened in `es` is closed in it, and nothing else is. `d` scopes are open already. -/
def Nested : Nat → List Ev → Prop
  | d, [] => d = 0
  | d, .block :: es => Nested (d + 1) es
  | d, .fn _ _ :: es => Nested (d + 1) es
  | d, .close _ :: es => ∃ d', d = d' + 1 ∧ (d' = 0 → es = []) ∧ Nested d' es
  | d, _ :: es => Nested d es

/-- Same functions and same declarations, apart from the names in `T`. -/
def Same (T : String → Prop) : List Frame → List Frame → Prop
  | [], [] => True
  | f :: fs, g :: gs => f.isFun = g.isFun ∧ (∀ x, ¬ T x → f.find x = g.find x) ∧ Same T fs gs
  | _, _ => False

theorem Same.refl (T : String → Prop) : ∀ fs, Same T fs fs
  | [] => trivial
  | _ :: fs => ⟨rfl, fun _ _ => rfl, Same.refl T fs⟩

theorem Same.trans {T : String → Prop} : ∀ {a b c : List Frame}, Same T a b → Same T b c → Same T a c
  | [], [], [], _, _ => trivial
  | _ :: _, _ :: _, _ :: _, ⟨h1, h2, h3⟩, ⟨g1, g2, g3⟩ =>
    ⟨h1.trans g1, fun x hx => (h2 x hx).trans (g2 x hx), Same.trans h3 g3⟩

theorem Same.lookup {T : String → Prop} {x : String} (hx : ¬ T x) : ∀ {a b : List Frame}, Same T a b →
    lookup a x = lookup b x ∧ global a x = global b x
  | [], [], _ => ⟨rfl, rfl⟩
  | [f], [g], ⟨h1, h2, _⟩ => by simp [Spec.lookup, Spec.global, h1, h2 x hx]
  | f :: f' :: a, g :: g' :: b, ⟨h1, h2, h3⟩ => by
    obtain ⟨ih1, ih2⟩ := Same.lookup hx h3
    constructor
    · show (match f.find x with
        | some d => some d
        | none => if f.isFun then none else Spec.lookup (f' :: a) x) = _
      rw [h1, h2 x hx, ih1]
      rfl
    · exact ih2
  | [_], _ :: _ :: _, ⟨_, _, h⟩ => h.elim
  | _ :: _ :: _, [_], ⟨_, _, h⟩ => h.elim

theorem declareLast_same {T : String → Prop} {d : Decl} (hd : T d.name) : ∀ (fs : List Frame), Same T fs (declareLast d fs)
  | [] => trivial
  | [f] => ⟨rfl, fun x hx => by
      have : (d.name == x) = false := by
        rw [beq_eq_false_iff_ne]; rintro rfl; exact hx hd
      simp [Frame.find, List.find?_append, this], trivial⟩
  | f :: g :: r => ⟨rfl, fun _ _ => rfl, declareLast_same hd (g :: r)⟩

theorem declareLast_app (d : Decl) : ∀ (pre base : List Frame), base ≠ [] →
    declareLast d (pre ++ base) = pre ++ declareLast d base
  | [], _, _ => rfl
  | [f], b :: bs, _ => rfl
  | f :: g :: r, b :: bs, h => by
    have := declareLast_app d (g :: r) (b :: bs) h
    simp only [List.cons_append, declareLast] at this ⊢
    rw [this]

theorem declareLast_ne {d : Decl} : ∀ {fs : List Frame}, fs ≠ [] → declareLast d fs ≠ []
  | [_], _ => by simp [declareLast]
  | _ :: _ :: _, _ => by simp [declareLast]

theorem nested_same (T : String → Prop) : ∀ (es : List Ev) (pre base : List Frame) (n : Nat), base ≠ [] → pre ≠ [] →
    Nested pre.length es → (∀ x, .type x ∈ es → T x) → Same T base (after (pre ++ base, n) es).1
  | [], pre, base, n, _, hp, h, _ => by
    simp only [Nested, List.length_eq_zero_iff] at h; exact absurd h hp
  | e :: es, pre, base, n, hb, hp, h, hT => by
    have hT' : ∀ x, .type x ∈ es → T x := fun x hx => hT x (by simp [hx])
    obtain ⟨f, pre', rfl⟩ : ∃ f p, pre = f :: p := by cases pre with
      | nil => exact absurd rfl hp
      | cons f p => exact ⟨f, p, rfl⟩
    cases e with
    | block => exact nested_same T es (_ :: f :: pre') base n hb (by simp) h hT'
    | fn x args => exact nested_same T es (_ :: declareFn f x args.length n :: pre') base _ hb (by simp) h hT'
    | var x => exact nested_same T es ({ f with decls := f.decls ++ [⟨x, .var, n⟩] } :: pre') base _ hb (by simp) h hT'
    | type x =>
      have e : (next (f :: pre' ++ base) n (.type x)).1 = (f :: pre') ++ declareLast ⟨x, .type, n⟩ base :=
        declareLast_app _ (f :: pre') base hb
      have hs := declareLast_same (T := T) (d := ⟨x, .type, n⟩) (hT x (by simp)) base
      have h2 := nested_same T es (f :: pre') (declareLast ⟨x, .type, n⟩ base) (n + 1) (declareLast_ne hb) (by simp) h hT'
      refine hs.trans ?_
      rw [after, ← Prod.eta (next _ _ _), e]
      exact h2
    | close l =>
      obtain ⟨d', hd, h0, hn⟩ := h
      simp only [List.length_cons, Nat.add_right_cancel_iff] at hd
      subst hd
      cases pre' with
      | nil =>
        cases h0 rfl
        obtain ⟨g, r, rfl⟩ : ∃ g r, base = g :: r := by cases base with
          | nil => exact absurd rfl hb
          | cons g r => exact ⟨g, r, rfl⟩
        simp only [after, next, List.cons_append, List.nil_append]
        split
        · exact Same.refl T _
        · exact ⟨rfl, fun _ _ => rfl, Same.refl T r⟩
      | cons g p =>
        simp only [after, next, List.cons_append]
        split
        · exact nested_same T es (g :: p) base n hb (by simp) hn hT'
        · exact nested_same T es ({ g with gone := g.gone ++ f.keys ++ f.gone } :: p) base n hb (by simp) hn hT'

theorem opened_ne {ts : List String} {es : List Ev} {st : St} (h : Compiled ts es st) : opened ts es ≠ [] := by
  obtain ⟨s, t, f, r, sc, _, e2, _⟩ := h.R.stack
  rw [e2]; simp

/-- C44. A block, with everything in it, changes nothing for the code after it: every name stands for what it
stood for before the block. A class is visible everywhere, so the names of classes written in the block are
excepted. -/
theorem block_invisible {ts : List String} {es body : List Ev} {st st' : St} (h : Compiled ts es st)
    (hn : Nested 1 body) (h' : Compiled ts (es ++ .block :: body) st') (x : String) (hx : .type x ∉ body) :
    resolve st' x = resolve st x ∧ link st' x = link st x := by
  obtain ⟨a1, a2⟩ := lookup_innermost h x
  obtain ⟨b1, b2⟩ := lookup_innermost h' x
  have hs := nested_same (fun y => .type y ∈ body) body [{ isFun := false, decls := [] }] (opened ts es)
    (after (start ts) es).2 (opened_ne h) (by simp) hn (fun _ h => h)
  have e : opened ts (es ++ .block :: body) =
      (after ([{ isFun := false, decls := [] }] ++ opened ts es, (after (start ts) es).2) body).1 := by
    unfold opened; rw [after_append]; rfl
  rw [← e] at hs
  obtain ⟨l1, l2⟩ := hs.lookup (x := x) hx
  rw [a1, a2, b1, b2, l1, l2]
  exact ⟨rfl, rfl⟩

/-- C44. Nor does the body of a function: only the name of the function itself is new. -/
theorem function_invisible {ts : List String} {es body : List Ev} {f : String} {args : List String} {st st' : St}
    (h : Compiled ts es st)
    (hn : Nested 1 body) (h' : Compiled ts (es ++ .fn f args :: body) st') (x : String) (hx : .type x ∉ body)
    (hf : x ≠ f) : resolve st' x = resolve st x ∧ link st' x = link st x := by
  obtain ⟨a1, a2⟩ := lookup_innermost h x
  obtain ⟨b1, b2⟩ := lookup_innermost h' x
  obtain ⟨g, r, hgr⟩ : ∃ g r, opened ts es = g :: r := by
    cases hh : opened ts es with
    | nil => exact absurd hh (opened_ne h)
    | cons g r => exact ⟨g, r, rfl⟩
  have hs := nested_same (fun y => .type y ∈ body) body
    [{ isFun := true, decls := params args ((after (start ts) es).2 + 1) }]
    (declareFn g f args.length (after (start ts) es).2 :: r)
    ((after (start ts) es).2 + 1 + args.length) (by simp) (by simp) hn (fun _ h => h)
  have e : opened ts (es ++ .fn f args :: body) =
      (after ([{ isFun := true, decls := params args ((after (start ts) es).2 + 1) }] ++
        declareFn g f args.length (after (start ts) es).2 :: r, (after (start ts) es).2 + 1 + args.length) body).1 := by
    unfold opened at hgr ⊢; rw [after_append]
    simp only [after, next, hgr]
    rfl
  rw [← e] at hs
  obtain ⟨l1, l2⟩ := hs.lookup (x := x) hx
  have hfind : (declareFn g f args.length (after (start ts) es).2).find x = g.find x := by
    have hfx : (f == x) = false := by
      rw [beq_eq_false_iff_ne]; exact fun h => hf h.symm
    unfold declareFn Frame.find
    split
    · simp only [List.find?_map]
      induction g.decls with
      | nil => rfl
      | cons d ds ih =>
        by_cases hd : d.name = f
        · have : (d.name == x) = false := by
            rw [hd]; exact hfx
          simp only [List.find?_cons, Function.comp, hd, if_true, hfx] at ih ⊢
          exact ih
        · simp only [List.find?_cons, Function.comp, if_neg hd] at ih ⊢
          cases d.name == x with
          | true => simp [if_neg hd]
          | false => exact ih
    · simp [List.find?_append, hfx]
  have hlk : Same (fun y => y ≠ x) (declareFn g f args.length (after (start ts) es).2 :: r) (g :: r) := by
    refine ⟨?_, ?_, Same.refl _ _⟩
    · unfold declareFn; split <;> rfl
    · intro y hy
      have : y = x := Classical.byContradiction hy
      subst this; exact hfind
  obtain ⟨k1, k2⟩ := hlk.lookup (x := x) (fun h => h rfl)
  rw [a1, a2, b1, b2, ← l1, ← l2, k1, k2, ← hgr]
  exact ⟨rfl, rfl⟩

/-! ### Which declarations are accepted -/

/-- C44. Exactly when a declaration, or the end of a scope, is accepted, and exactly when the outcome is
undefined. In the remaining cases it is refused. -/
theorem accepts_iff {ts : List String} {es : List Ev} {st : St} (h : Compiled ts es st) (e : Ev) :
    ((∃ st', step st e = .ok st') ↔ Accepts (opened ts es) e) ∧
      (step st e = .ub ↔ Undefined (opened ts es) e) := by
  have := step_ok h.R e
  exact ⟨this.2.1, this.1⟩

/-- No variable and no function can be declared with a name that is visible, in the same function, as something
else; and no name of a type can be declared. -/
theorem no_hiding {ts : List String} {es : List Ev} {st st' : St} (h : Compiled ts es st) (x : String)
    (hs : step st (.var x) = .ok st') : lookup (opened ts es) x = none ∧ ¬ typeName (opened ts es) x := by
  have := ((accepts_iff h (.var x)).1.mp ⟨_, hs⟩ : free _ _ _)
  exact ⟨this.2.1, this.1⟩

/-- The rule a reader expects for `var x`: it is refused exactly when `x` is visible already. -/
def DeclareIffFree : Prop :=
  ∀ (ts : List String) (es : List Ev) (st : St), Compiled ts es st → ∀ x : String,
    ((∃ st', step st (.var x) = .ok st') ↔ lookup (opened ts es) x = none ∧ ¬ typeName (opened ts es) x)

/-- It does not hold: `{var x;} var x;` is refused at the top level of a function, because the closed block is
searched too … -/
theorem declare_iff_free_violated : ¬ DeclareIffFree := by
  intro h
  have := (h [] [.block, .var "x", .close false] _ ⟨by simp, rfl⟩ "x").mpr
    ⟨by decide +kernel, fun ⟨d, hd, _⟩ => by
      rw [show global (opened [] [.block, .var "x", .close false]) "x" = none by decide +kernel] at hd
      cases hd⟩
  obtain ⟨st', e⟩ := this
  revert e
  rw [show step _ (.var "x") = Out.err from rfl]
  intro h; cases h

/-- … but it holds inside a block, and where no block of the function that is closed has declared the name. -/
theorem declare_iff_free_partial {ts : List String} {es : List Ev} {st : St} (h : Compiled ts es st) (x : String)
    {f : Frame} {r : List Frame} (ho : opened ts es = f :: r)
    (hf : f.isFun = false ∨ ∀ k, (x, k) ∉ f.gone) :
    ((∃ st', step st (.var x) = .ok st') ↔ lookup (opened ts es) x = none ∧ ¬ typeName (opened ts es) x) := by
  rw [(accepts_iff h (.var x)).1]
  show free _ _ _ ↔ _
  unfold free
  constructor
  · rintro ⟨h1, h2, _⟩; exact ⟨h2, h1⟩
  · rintro ⟨h2, h1⟩
    refine ⟨h1, h2, fun f' r' e hfun k hk => ?_⟩
    rw [ho] at e; cases e
    rcases hf with hf | hf
    · rw [hf] at hfun; cases hfun
    · exact absurd hk (hf k)

/-- Every script that is compiled is accepted or refused, with a defined outcome. -/
def CompilesDefined : Prop :=
  ∀ (ts : List String) (es : List Ev), ts.Nodup → run (init ts) es ≠ .ub

/-- `var x; function x(){}` : undefined behaviour. -/
theorem compiles_defined_violated : ¬ CompilesDefined := by
  intro h
  exact h [] [.var "x", .fn "x" []] (by simp) rfl

/-- The outcome is defined when no function is given a name that is visible already in the function it is
written in. -/
theorem compiles_defined_partial {ts : List String} (hts : ts.Nodup) {es : List Ev}
    (hf : ∀ (pre post : List Ev) (x : String) (args : List String), es = pre ++ .fn x args :: post →
      lookup (opened ts pre) x = none) : run (init ts) es ≠ .ub := by
  have key : ∀ (pre : List Ev) (post : List Ev) (st : St), es = pre ++ post → run (init ts) pre = .ok st →
      run st post ≠ .ub := by
    intro pre post
    induction post generalizing pre with
    | nil => intro st _ _ h; cases h
    | cons e post ih =>
      intro st he hr
      rw [run]
      cases hs : step st e with
      | err => simp
      | ub =>
        have := (accepts_iff (es := pre) ⟨hts, hr⟩ e).2.mp hs
        cases e with
        | fn x args => exact absurd (hf pre post x args he) this.1
        | _ => exact this.elim
      | ok st1 =>
        simp only
        refine ih (pre ++ [e]) st1 (by simp [he]) ?_
        rw [run_append, hr]
        simp only [run, hs]
  exact key [] es _ rfl rfl

/-! ### What is deleted at the end of the compilation -/

/-- Of the symbols deleted at the end of a compilation none is a variable. -/
theorem freed_no_variable {ts : List String} {es : List Ev} {st : St} (h : Compiled ts es st) :
    ∀ sc ∈ st.arena, sc.unused = true → sc.vars = [] := by
  intro sc hm hu
  obtain ⟨i, hi⟩ := List.getElem?_of_mem hm
  exact h.R.wf.unused _ _ hi hu

/-- A declaration some name was resolved to is still there when the compilation has ended and the script
runs. -/
def ResolvedKept : Prop :=
  ∀ (ts : List String) (es es' : List Ev) (st st' : St), Compiled ts es st → Compiled ts (es ++ es') st' →
    ∀ (x : String) (d : Nat), resolve st x = some d → d ∉ freed st'

/-- `{ function f(){} f(); }` : the symbol the call refers to is deleted before the script runs. -/
theorem resolved_kept_violated : ¬ ResolvedKept := by
  intro h
  have := h [] [.block, .fn "f" [], .close false] [.close false] _ _ ⟨by simp, rfl⟩ ⟨by simp, rfl⟩ "f" 0
    (by decide +kernel)
  exact this (by decide +kernel)

/-! ### The hypotheses are met -/

/-- `var a; function f(p){ { var q; … ` on an engine with the types `int` and `string`. -/
def sample : List Ev := [.var "a", .fn "f" ["p"], .block, .var "q"]

example : ∃ st, Compiled ["int", "string"] sample st ∧ resolve st "q" = some 5 ∧ resolve st "p" = some 4 ∧
    resolve st "a" = none ∧ link st "a" = some 2 ∧ meaning st "f" = some 3 :=
  ⟨_, ⟨by decide, rfl⟩, by decide +kernel⟩

/-- The shape asked for by `lookup_expected_partial`: a block, the body of `f`, the script. -/
example : ∃ b f o, opened ["int", "string"] sample = [b] ++ f :: ([] ++ [o]) ∧ b.isFun = false ∧ f.isFun = true :=
  ⟨_, _, _, rfl, rfl, rfl⟩

/-- A nested piece with a variable that hides nothing outside, an inner function and a class. -/
example : Nested 1 [.var "z", .block, .fn "g" ["z"], .close false, .type "K", .close true, .close false] := by
  simp [Nested]

example : ∃ st st', Compiled ["int"] [.var "a"] st ∧
    Compiled ["int"] ([.var "a"] ++ .block :: [.var "z", .block, .fn "g" ["z"], .close false, .type "K", .close true,
      .close false]) st' ∧ resolve st' "a" = some 1 ∧ resolve st' "z" = none ∧ resolve st' "K" = some 5 :=
  ⟨_, _, ⟨by decide, rfl⟩, ⟨by decide, rfl⟩, by decide +kernel⟩

/-- A function declared twice in one scope: accepted, and the second replaces the first. -/
example : ∃ st, Compiled [] [.fn "f" [], .close false, .fn "f" ["a"], .close false] st ∧ resolve st "f" = some 1 :=
  ⟨_, ⟨by simp, rfl⟩, by decide +kernel⟩

/-- A block that declares the same name twice in different blocks is fine. -/
example : ∃ st, Compiled [] [.block, .var "x", .close false, .block, .var "x"] st := ⟨_, by simp, rfl⟩

end Verif.Core.Scope
