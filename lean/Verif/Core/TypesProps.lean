import Verif.Core.TypesLemmas
/-
C42 (inheritance is a partial order), C43 (most derived member function), C59 (a failed registration changes nothing).
-/
namespace Verif.Types
open Verif

/-! ## C42 -/

/-- After any history of registrations in which no class names itself as base, whether one registered type inherits from
another is decided by a recursion no deeper than the number of types plus one, and the answer is right: it is yes exactly
if there is a chain of declared bases. What is missing for the full claim (`DecidedAlways`) is `class A extends A`. -/
theorem inheritance_decided_partial (cpp : Cpp) (hc : CppAcyclic cpp) (ops : List Op) (hs : NoSelf ops) (a b : Nat)
    (ha : a < (run cpp [] ops).length) (n : Nat) (hn : (run cpp [] ops).length < n) :
    ∃ r, inherits (run cpp [] ops) n a b = some r ∧ (r = true ↔ Extends (run cpp [] ops) a b) := by
  obtain ⟨h, H, hb⟩ := height_run hc hs
  exact H.decides b n a ha (by have := hb a; omega)

/-- `class A extends A` is accepted, and then asking whether `A` inherits from any other type recurses without end. -/
theorem inheritance_decided_violated (cpp : Cpp) : ¬ DecidedAlways cpp := by
  intro h
  have hg : run cpp [] [.cls "A" (some "A"), .cls "B" none] = [⟨"A", none, [0], []⟩, ⟨"B", none, [], []⟩] := rfl
  obtain ⟨n, r, e, _⟩ := h [.cls "A" (some "A"), .cls "B" none] 0 1 (by rw [hg]; decide) (by rw [hg]; decide)
  have : ∀ n, inherits (run cpp [] [.cls "A" (some "A"), .cls "B" none]) n 0 1 = none := by
    rw [hg]
    intro n
    induction n with
    | zero => rfl
    | succ n ih => simp [inherits, anyBase, ih]
  rw [this n] at e
  cases e

/-- The answers are a partial order on the registered types: reflexive, transitive, antisymmetric. -/
theorem inheritance_partial_order_partial (cpp : Cpp) (hc : CppAcyclic cpp) (ops : List Op) (hs : NoSelf ops) (n : Nat)
    (hn : (run cpp [] ops).length < n) :
    (∀ a, inherits (run cpp [] ops) n a a = some true) ∧
    (∀ a b c, a < (run cpp [] ops).length → b < (run cpp [] ops).length → inherits (run cpp [] ops) n a b = some true →
      inherits (run cpp [] ops) n b c = some true → inherits (run cpp [] ops) n a c = some true) ∧
    (∀ a b, a < (run cpp [] ops).length → b < (run cpp [] ops).length → inherits (run cpp [] ops) n a b = some true →
      inherits (run cpp [] ops) n b a = some true → a = b) := by
  have dec := inheritance_decided_partial cpp hc ops hs
  have yes : ∀ a b, a < (run cpp [] ops).length → inherits (run cpp [] ops) n a b = some true → Extends (run cpp [] ops) a b := by
    intro a b ha e
    obtain ⟨r, e', f⟩ := dec a b ha n hn
    rw [e] at e'
    cases e'
    exact f.1 rfl
  refine ⟨?_, ?_, ?_⟩
  · intro a
    cases n with
    | zero => omega
    | succ n => simp [inherits]
  · intro a b c ha hb h1 h2
    obtain ⟨r, e, f⟩ := dec a c ha n hn
    rw [e, f.2 ((yes a b ha h1).trans (yes b c hb h2))]
  · intro a b ha hb h1 h2
    obtain ⟨h, H, _⟩ := height_run hc hs
    exact H.antisymm (yes a b ha h1) (yes b a hb h2)

/-- The relation between registered types does not change when further types or functions are registered, by any number of
operations other than `extends` of native types. -/
theorem inheritance_stable_partial (cpp : Cpp) (hc : CppAcyclic cpp) (ops more : List Op) (hs : NoSelf (ops ++ more))
    (hext : ∀ t b, Op.ext t b ∉ more) (a b n m : Nat) (ha : a < (run cpp [] ops).length)
    (hn : (run cpp [] ops).length < n) (hm : (run cpp [] (ops ++ more)).length < m) :
    inherits (run cpp [] (ops ++ more)) m a b = inherits (run cpp [] ops) n a b := by
  have hs1 : NoSelf ops := fun k e => hs k (by simp [e])
  have hlen : (run cpp [] ops).length ≤ (run cpp [] (ops ++ more)).length := by
    rw [run_append]; exact run_length cpp more _
  obtain ⟨r1, e1, f1⟩ := inheritance_decided_partial cpp hc ops hs1 a b ha n hn
  obtain ⟨r2, e2, f2⟩ := inheritance_decided_partial cpp hc _ hs a b (by omega) m hm
  obtain ⟨h, H, _⟩ := height_run hc hs1
  have same : ∀ (more : List Op) (g : Reg), (∀ t b, Op.ext t b ∉ more) →
      ∀ x, x < g.length → ((run cpp g more)[x]?).map Ty.bases = (g[x]?).map Ty.bases := by
    intro more
    induction more with
    | nil => intro g _ x _; rfl
    | cons op more ih =>
      intro g he x hx
      have := ih (step cpp g op).1 (fun t b e => he t b (by simp [e])) x (by have := step_length cpp g op; omega)
      rw [run, this]
      exact step_same_bases cpp g op (fun t b e => he t b (by simp [e])) x hx
  have iff : ∀ c, Extends (run cpp [] ops) a c ↔ Extends (run cpp [] (ops ++ more)) a c := by
    intro c
    rw [run_append]
    generalize run cpp [] ops = g at H ha
    constructor
    · refine Extends.mono (fun x ty hx => ?_)
      have hs := same more g hext x (List.getElem?_eq_some_iff.1 hx).1
      rw [hx] at hs
      simp only [Option.map_some, Option.map_eq_some_iff] at hs
      obtain ⟨ty', q1, q2⟩ := hs
      exact ⟨ty', q1, fun y hy => by rw [q2]; exact hy⟩
    · intro e
      have key : ∀ x z, Extends (run cpp g more) x z → x < g.length → Extends g x z := by
        intro x z e
        induction e with
        | refl => intro _; exact .refl _
        | step h1 h2 _ ih =>
          intro hx
          have hs := same more g hext _ hx
          rw [h1] at hs
          have hs := hs.symm
          simp only [Option.map_some, Option.map_eq_some_iff] at hs
          obtain ⟨ty', q1, q2⟩ := hs
          rw [← q2] at h2
          exact .step q1 h2 (ih (H _ _ _ q1 h2).1)
      exact key a c e ha
  rw [e1, e2]
  congr 1
  cases r1 <;> cases r2 <;> simp_all

/-- `extends<T,B>` between native types, when it is not refused, adds exactly what it says: `a` inherits from `c`
afterwards iff it did before, or `a` is (or inherits from) `T` and `B` is (or inherits from) `c`. -/
theorem extends_adds_exactly (cpp : Cpp) (g : Reg) (t b : String) (hch : (step cpp g (.ext t b)).1 ≠ g) :
    ∃ ti bi, findNative g t = some ti ∧ findNative g b = some bi ∧
      ∀ a c, Extends (step cpp g (.ext t b)).1 a c ↔ Extends g a c ∨ (Extends g a ti ∧ Extends g bi c) := by
  have sh := step_shape cpp g (.ext t b)
  have keep := step_keeps_bases cpp g (.ext t b)
  generalize (step cpp g (.ext t b)).1 = g' at sh hch keep ⊢
  generalize (step cpp g (.ext t b)).2 = ok at sh
  cases sh with
  | same => exact absurd rfl hch
  | push _ h => exact absurd rfl (h _ _)
  | @ext _ _ ti bi ty bt _ hft hfb ht hb hi hc hok =>
    refine ⟨ti, bi, hft, hfb, fun a c => ⟨fun e => ?_, ?_⟩⟩
    · induction e with
      | refl => exact .inl (.refl _)
      | @step a x c ty' h1 h2 _ ih =>
        rcases get_set_cases h1 with ⟨rfl, rfl⟩ | ⟨hne, h1⟩
        · rw [(copyFns_shape g a bt.funs _).1] at h2
          simp only [List.mem_append, List.mem_singleton] at h2
          rcases h2 with h2 | rfl
          · rcases ih with ih | ⟨i1, i2⟩
            · exact .inl (.step ht h2 ih)
            · exact .inr ⟨.refl _, i2⟩
          · rcases ih with ih | ⟨_, i2⟩
            · exact .inr ⟨.refl _, ih⟩
            · exact .inr ⟨.refl _, i2⟩
        · rcases ih with ih | ⟨i1, i2⟩
          · exact .inl (.step h1 h2 ih)
          · exact .inr ⟨.step h1 h2 i1, i2⟩
    · rintro (e | ⟨e1, e2⟩)
      · exact e.mono keep
      · refine (e1.mono keep).trans (.step (List.getElem?_set_self (List.getElem?_eq_some_iff.1 ht).1) ?_ (e2.mono keep))
        rw [(copyFns_shape g ti bt.funs _).1]
        simp

/-! ## C43 -/

/-- After any orderly history (functions are added to a class before it is extended, and a native class gets its base first),
looking a member function up on a class finds exactly the nearest definition up the chain of bases, and nothing if no
class of the chain defines the name. -/
theorem lookup_nearest_partial (cpp : Cpp) (hc : CppAcyclic cpp) (ops : List Op) (ho : OrderlyRun cpp [] ops) (c : Nat)
    (n : String) (hcl : c < (run cpp [] ops).length) (r : Option Nat) :
    Nearest (run cpp [] ops) (defs cpp [] ops) c n r ↔ (lookup (run cpp [] ops) c n).map (·.fn.code) = r := by
  obtain ⟨h, H, _⟩ := height_run hc (orderlyRun_noSelf ops [] ho)
  have C := chain_run ops [] [] chain_nil ho
  rw [List.nil_append] at C
  have := chain_nearest H C n _ c (Nat.lt_succ_self _) hcl
  constructor
  · intro e
    exact nearest_unique this e
  · rintro rfl
    exact this

/-- A history that adds a function to a class after another class has extended it. -/
def lateOps : List Op := [.cls "A" none, .cls "B" (some "A"), .fun 0 "f" [] false false 7]

theorem lateOps_run (cpp : Cpp) : run cpp [] lateOps
    = [⟨"A", none, [], [⟨"f", 7, false, false, 0, 0, []⟩]⟩, ⟨"B", none, [0], []⟩] := rfl

theorem lateOps_noSelf : NoSelf lateOps := by
  intro n h
  simp only [lateOps, List.mem_cons, Op.cls.injEq, List.not_mem_nil, or_false, reduceCtorEq, and_false, false_or, Option.some.injEq] at h
  obtain ⟨rfl, h⟩ := h
  exact absurd h (by decide)

/-- A function added to a class that already has an heir is not found on the heir. -/
theorem lookup_nearest_violated (cpp : Cpp) : ¬ LookupNearest cpp := by
  intro h
  have := h lateOps lateOps_noSelf 1 "f" (some 7) (by rw [lateOps_run]; decide)
    (.up (b := 0) (ty := ⟨"B", none, [0], []⟩) rfl rfl rfl (.own rfl))
  rw [lateOps_run] at this
  simp [lookup, lastSym] at this

/-- The same for native classes: functions registered on a class before `extends` are hidden by the ones it then gets from
its base, although the class itself is nearer. -/
theorem lookup_native_order_violated : ∃ (cpp : Cpp) (ops : List Op), CppAcyclic cpp ∧ NoSelf ops ∧
    ∃ c n k, c < (run cpp [] ops).length ∧ ownDef (defs cpp [] ops) c n = some k ∧
      (lookup (run cpp [] ops) c n).map (·.fn.code) ≠ some k := by
  refine ⟨fun b t => b == "Base *" && t == "T *",
    [.nat "Base" "Base *", .nat "T" "T *", .fun 0 "f" ["Base *"] true false 1, .fun 1 "f" ["T *"] true false 2,
      .ext "T *" "Base *"], ⟨fun s => if s = "T *" then 1 else 0, ?_⟩, ?_, 1, "f", 2, ?_, ?_, ?_⟩
  · intro b t hne h
    simp only [Bool.and_eq_true, beq_iff_eq] at h
    simp [h.1, h.2]
  · intro n; simp
  · decide +kernel
  · decide +kernel
  · decide +kernel

/-- `super(..)` written in a script function of a class reaches the nearest definition starting from its base. -/
theorem super_nearest_partial (cpp : Cpp) (hc : CppAcyclic cpp) (ops : List Op) (ho : OrderlyRun cpp [] ops) (c b i : Nat)
    (ty : Ty) (s : Sym) (hcl : (run cpp [] ops)[c]? = some ty) (hb : ty.bases = [b]) (hs : ty.funs[i]? = some s)
    (hn : s.fn.native = false) (hsite : s.fn.site = c) :
    Nearest (run cpp [] ops) (defs cpp [] ops) b s.name ((superOf (run cpp [] ops) c i).map (·.fn.code)) := by
  obtain ⟨h, H, _⟩ := height_run hc (orderlyRun_noSelf ops [] ho)
  have C := chain_run ops [] [] chain_nil ho
  rw [List.nil_append] at C
  obtain ⟨rank, hr⟩ := hc
  have O := once_run hr ops [] [] ⟨by simp, by simp⟩ chain_nil (by intro c i ty s h; simp at h) ho
  rw [super_base H C O hcl hb hs hn hsite]
  exact chain_nearest H C s.name _ b (Nat.lt_succ_self _) (H c ty b hcl (by simp [hb])).1

/-- `this.f(..)` written in class `d` where `f` is known, run on an object of a class `c` that is or inherits from `d`:
the definition nearest to `c` is called, and there always is one. -/
theorem this_call_partial (cpp : Cpp) (hc : CppAcyclic cpp) (ops : List Op) (ho : OrderlyRun cpp [] ops) (c d : Nat)
    (n : String) (hcl : c < (run cpp [] ops).length) (he : Extends (run cpp [] ops) c d)
    (hd : lookup (run cpp [] ops) d n ≠ none) :
    ∃ f, thisCall (run cpp [] ops) c n = .ok f ∧ Nearest (run cpp [] ops) (defs cpp [] ops) c n (some f.code) := by
  have C := chain_run ops [] [] chain_nil ho
  rw [List.nil_append] at C
  have hne := chain_names C he n hd
  cases hl : lookup (run cpp [] ops) c n with
  | none => exact absurd hl hne
  | some s =>
    refine ⟨s.fn, by simp [thisCall, hl], ?_⟩
    have := (lookup_nearest_partial cpp hc ops ho c n hcl _).2 rfl
    rw [hl] at this
    exact this

/-- Without the order, `this.f(..)` can find nothing on the heir and goes through a null pointer. -/
theorem this_call_violated (cpp : Cpp) : ∃ ops : List Op, NoSelf ops ∧ ∃ c d n, c < (run cpp [] ops).length ∧
    Extends (run cpp [] ops) c d ∧ lookup (run cpp [] ops) d n ≠ none ∧ thisCall (run cpp [] ops) c n = .ub := by
  refine ⟨lateOps, lateOps_noSelf, 1, 0, "f", by rw [lateOps_run]; decide, ?_, ?_, ?_⟩ <;> rw [lateOps_run]
  · exact .step (x := 0) rfl (by simp) (.refl _)
  · decide
  · rfl

/-- One call in the source executed any number of times on objects of one class: every execution finds what a lookup in
that class finds. -/
theorem call_site_partial (g : Reg) (n : String) (c k : Nat) :
    memberLoads g n none (List.replicate k c) = List.replicate k (lookup g c n) := by
  have hname : ∀ s, lookup g c n = some s → s.name = n := by
    intro s h
    unfold lookup at h
    split at h
    · cases h
    · have := List.find?_some h
      simpa using this
  have key : ∀ k site, (site = none ∨ site = lookup g c n) →
      memberLoads g n site (List.replicate k c) = List.replicate k (lookup g c n) := by
    intro k
    induction k with
    | zero => intro site _; rfl
    | succ k ih =>
      intro site hsite
      have : memberLoad g site c n = (lookup g c n, lookup g c n) := by
        rcases hsite with rfl | rfl
        · rfl
        · cases hl : lookup g c n with
          | none => simp [memberLoad, hl]
          | some s => simp [memberLoad, hname s hl]
      simp only [List.replicate_succ, memberLoads, this]
      rw [ih _ (.inr rfl)]
  exact key k none (.inl rfl)

/-- The same call executed on objects of two classes runs the first class's function on both. -/
theorem call_site_violated (cpp : Cpp) : ∃ ops : List Op, OrderlyRun cpp [] ops ∧ ¬ CallSiteFollowsObject (run cpp [] ops) := by
  refine ⟨[.cls "A" none, .cls "B" none, .fun 0 "f" [] false false 1, .fun 1 "f" [] false false 2], ?_, ?_⟩
  · refine ⟨by simp [Orderly], by simp [Orderly], ?_, ?_, trivial⟩
    · rintro ⟨ty, h1, h2⟩
      simp [step, regCls, nameOk, findName] at h1
      rcases h1 with rfl | rfl <;> simp at h2
    · rintro ⟨ty, h1, h2⟩
      change ty ∈ [(⟨"A", none, [], [⟨"f", 1, false, false, 0, 0, []⟩]⟩ : Ty), ⟨"B", none, [], []⟩] at h1
      simp at h1
      rcases h1 with rfl | rfl <;> simp at h2
  · intro h
    have := congrArg (List.map (Option.map (·.fn.code))) (h "f" [0, 1])
    have e : run cpp [] [.cls "A" none, .cls "B" none, .fun 0 "f" [] false false 1, .fun 1 "f" [] false false 2]
      = [⟨"A", none, [], [⟨"f", 1, false, false, 0, 0, []⟩]⟩, ⟨"B", none, [], [⟨"f", 2, false, false, 1, 1, []⟩]⟩] := rfl
    rw [e] at this
    exact absurd this (by decide)

/-! ## C59 -/

/-- A registration that throws changes nothing, unless it is a class with a base or an `extends`. -/
theorem failed_registration_partial (cpp : Cpp) (g : Reg) (op : Op) (hf : (step cpp g op).2 = false)
    (h1 : ∀ n b, op ≠ .cls n (some b)) (h2 : ∀ t b, op ≠ .ext t b) : (step cpp g op).1 = g := by
  cases op with
  | cls n base =>
    cases base with
    | some b => exact absurd rfl (h1 n b)
    | none =>
      simp only [step, regCls] at hf ⊢
      split at hf
      · cases hf
      · rename_i h; simp [h]
  | prim n nat =>
    simp only [step, regCls] at hf ⊢
    by_cases h : nameOk g n = true
    · simp [h] at hf
    · simp [h]
  | nat n nat =>
    simp only [step] at hf ⊢
    split at hf
    · cases hf
    · rename_i h; simp [h]
  | ext t b => exact absurd rfl (h2 t b)
  | «fun» c n ps native static code =>
    simp only [step] at hf ⊢
    cases h : g[c]? with
    | none => simp
    | some ty =>
      simp only [h] at hf ⊢
      cases h' : addFn g c ty n ps native static code c with
      | none => simp
      | some ty' => simp [h'] at hf

/-- A class whose base does not exist is refused but stays registered, without the base, and its name is taken. -/
theorem failed_registration_violated (cpp : Cpp) : ¬ FailedKeeps cpp := by
  intro h
  have := h [] (.cls "A" (some "B")) (by simp [run, step, regCls, nameOk, findName])
  simp [run, step, regCls, nameOk, findName] at this

/-- After a class declaration with a base was tried, accepted or refused (for want of the base), no declaration of that
class is accepted any more: the refused one cannot be corrected. -/
theorem failed_class_blocks_name (cpp : Cpp) (g : Reg) (n b : String) (base : Option String) (more : List Op) :
    (step cpp (run cpp (step cpp g (.cls n (some b))).1 more) (.cls n base)).2 = false := by
  have hname : ∀ (n : String) (g : Reg), (∃ t ∈ g, t.name = n) → nameOk g n = false := by
    rintro n g ⟨t, ht, rfl⟩
    have : findName g t.name ≠ none := by
      unfold findName
      rw [ne_eq, List.findIdx?_eq_none_iff]
      intro hh
      simpa using hh t ht
    cases e : findName g t.name with
    | none => exact absurd e this
    | some i => simp [nameOk, e]
  have keep : ∀ (op : Op) (g : Reg), (∃ t ∈ g, t.name = n) → ∃ t ∈ (step cpp g op).1, t.name = n := by
    rintro op g ⟨t, ht, hn⟩
    have sh := step_shape cpp g op
    generalize (step cpp g op).1 = g' at sh ⊢
    generalize (step cpp g op).2 = ok at sh
    obtain ⟨i, hi⟩ := List.mem_iff_getElem?.1 ht
    have hl := (List.getElem?_eq_some_iff.1 hi).1
    cases sh with
    | same => exact ⟨t, ht, hn⟩
    | push => exact ⟨t, by simp [ht], hn⟩
    | derive => exact ⟨t, by simp [ht], hn⟩
    | self => exact ⟨t, by simp [ht], hn⟩
    | @ext _ _ ti bi ty bt _ _ _ h1 _ _ _ _ =>
      by_cases e : ti = i
      · subst e
        rw [hi] at h1; cases h1
        refine ⟨_, List.mem_of_getElem? (List.getElem?_set_self hl), ?_⟩
        rw [(copyFns_shape g ti bt.funs _).2.2.1]
        exact hn
      · exact ⟨t, List.mem_of_getElem? (i := i) (by rw [List.getElem?_set_ne e]; exact hi), hn⟩
    | @fn c _ _ _ _ _ ty h1 _ =>
      by_cases e : c = i
      · subst e
        rw [hi] at h1; cases h1
        exact ⟨_, List.mem_of_getElem? (List.getElem?_set_self hl), hn⟩
      · exact ⟨t, List.mem_of_getElem? (i := i) (by rw [List.getElem?_set_ne e]; exact hi), hn⟩
  have bad : ∀ g : Reg, nameOk g n = false ↔ (100 ≤ g.length ∨ n = "" ∨ ∃ t ∈ g, t.name = n) := by
    intro g
    constructor
    · intro h
      by_cases h1 : 100 ≤ g.length
      · exact .inl h1
      · by_cases h2 : n = ""
        · exact .inr (.inl h2)
        · right; right
          cases e : findName g n with
          | none => simp [nameOk, e, h2] at h; omega
          | some i =>
            obtain ⟨ty, q1, q2⟩ := findName_name e
            exact ⟨ty, List.mem_of_getElem? q1, q2⟩
    · rintro (h | h | h)
      · have : ¬ g.length < 100 := by omega
        simp [nameOk, this]
      · simp [nameOk, h]
      · exact hname n g h
  have keepBad : ∀ (more : List Op) (g : Reg), nameOk g n = false → nameOk (run cpp g more) n = false := by
    intro more
    induction more with
    | nil => exact fun g h => h
    | cons op more ih =>
      intro g h
      refine ih _ ((bad _).2 ?_)
      rcases (bad g).1 h with h | h | h
      · exact .inl (Nat.le_trans h (step_length cpp g op))
      · exact .inr (.inl h)
      · exact .inr (.inr (keep op g h))
  have first : nameOk (step cpp g (.cls n (some b))).1 n = false := by
    by_cases hok : nameOk g n = true
    · refine hname n _ ?_
      simp only [step, regCls, hok, if_true]
      split <;> simp
    · simp only [step, regCls, hok]
      simpa using hok
  have := keepBad more _ first
  generalize run cpp (step cpp g (.cls n (some b))).1 more = g' at this ⊢
  simp [step, regCls, this]

/-! ## The hypotheses are met by real histories -/

/-- Three classes in a chain, `f` defined at both ends, `g` in the middle, and a native pair. -/
def demoCpp : Cpp := fun b t => b == "Base *" && t == "T *"

def demoOps : List Op :=
  [.cls "A" none, .fun 0 "f" [] false false 1, .cls "B" (some "A"), .fun 1 "g" ["x"] false false 2,
   .cls "C" (some "B"), .fun 2 "f" [] false false 3,
   .nat "Base" "Base *", .fun 3 "h" ["Base *"] true false 4, .nat "T" "T *", .ext "T *" "Base *",
   .fun 4 "h" ["T *"] true false 5]

theorem demoCpp_acyclic : CppAcyclic demoCpp := by
  refine ⟨fun s => if s = "T *" then 1 else 0, ?_⟩
  intro b t hne h
  simp only [demoCpp, Bool.and_eq_true, beq_iff_eq] at h
  simp [h.1, h.2]

instance (g : Reg) (c : Nat) : Decidable (HasSub g c) := by unfold HasSub; infer_instance

theorem demo_orderly : OrderlyRun demoCpp [] demoOps := by
  refine ⟨by simp [Orderly], ?_, by simp [Orderly], ?_, by simp [Orderly], ?_, trivial, ?_, trivial, ?_, ?_, trivial⟩
  · show ¬ HasSub _ _; decide +kernel
  · show ¬ HasSub _ _; decide +kernel
  · show ¬ HasSub _ _; decide +kernel
  · show ¬ HasSub _ _; decide +kernel
  · intro _
    refine ⟨by decide +kernel, ?_⟩
    intro ti ty h1 h2
    have : ti = 4 := by
      have e : findNative (run demoCpp [] (demoOps.take 9)) "T *" = some 4 := by decide +kernel
      exact Option.some.inj (h1.symm.trans e)
    subst this
    have e : (run demoCpp [] (demoOps.take 9))[4]? = some ⟨"T", some "T *", [], []⟩ := by decide +kernel
    have : ty = _ := Option.some.inj (h2.symm.trans e)
    subst this
    exact ⟨rfl, rfl, by decide +kernel⟩
  · show ¬ HasSub _ _; decide +kernel

example : NoSelf demoOps := orderlyRun_noSelf _ _ demo_orderly

/-- In the demo, `f` on `C` is `C`'s, `g` on `C` is `B`'s, `f` on `B` is `A`'s, `super` in `C::f` is `A`'s. -/
example : (lookup (run demoCpp [] demoOps) 2 "f").map (·.fn.code) = some 3
    ∧ (lookup (run demoCpp [] demoOps) 2 "g").map (·.fn.code) = some 2
    ∧ (lookup (run demoCpp [] demoOps) 1 "f").map (·.fn.code) = some 1
    ∧ (lookup (run demoCpp [] demoOps) 4 "h").map (·.fn.code) = some 5
    ∧ (superOf (run demoCpp [] demoOps) 2 2).map (·.fn.code) = some 1
    ∧ inherits (run demoCpp [] demoOps) 6 2 0 = some true ∧ inherits (run demoCpp [] demoOps) 6 0 2 = some false
    ∧ inherits (run demoCpp [] demoOps) 6 4 3 = some true := by decide +kernel

end Verif.Types
