import Verif.Core.TypesProps
/-
C131: which member functions and which bases a class accepts.

The specification is in terms of lists only: `LastNamed`, `FirstNamed` say which function of a name is the last or first
of the class; `Extends` (`TypesSpec.lean`) is the chain of declared bases.
-/
namespace Verif.Types
open Verif

/-! ### Specification -/

/-- `s` is the function of that name that was added last. -/
def LastNamed (fs : List Sym) (n : String) (s : Sym) : Prop :=
  ∃ pre post, fs = pre ++ s :: post ∧ s.name = n ∧ ∀ q ∈ post, q.name ≠ n

/-- `s` is the function of that name that was added first. -/
def FirstNamed (fs : List Sym) (n : String) (s : Sym) : Prop :=
  ∃ pre post, fs = pre ++ s :: post ∧ s.name = n ∧ ∀ q ∈ pre, q.name ≠ n

/-- A member function overrides when the first function of that name is a member function that another class owns. -/
def Overrides (c : Nat) (fs : List Sym) (n : String) : Prop :=
  ∃ s, FirstNamed fs n s ∧ s.fn.static = false ∧ s.fn.owner ≠ c

/-! ### Lemmas -/

theorem firstSym_iff (fs : List Sym) (n : String) (s : Sym) : firstSym fs n = some s ↔ FirstNamed fs n s := by
  unfold firstSym FirstNamed
  rw [List.find?_eq_some_iff_append]
  constructor
  · rintro ⟨h, pre, post, e, hp⟩
    exact ⟨pre, post, e, by simpa using h, fun q hq => by simpa using hp q hq⟩
  · rintro ⟨pre, post, e, h, hp⟩
    exact ⟨by simpa using h, pre, post, e, fun q hq => by simpa using hp q hq⟩

theorem lastSym_iff (fs : List Sym) (n : String) (s : Sym) : lastSym fs n = some s ↔ LastNamed fs n s := by
  unfold lastSym LastNamed
  rw [List.find?_eq_some_iff_append]
  constructor
  · rintro ⟨h, pre, post, e, hp⟩
    refine ⟨post.reverse, pre.reverse, ?_, by simpa using h, fun q hq => by simpa using hp q (by simpa using hq)⟩
    have := congrArg List.reverse e
    simpa using this
  · rintro ⟨pre, post, e, h, hp⟩
    refine ⟨by simpa using h, post.reverse, pre.reverse, by simp [e], fun q hq => by simpa using hp q (by simpa using hq)⟩

theorem findName_none (g : Reg) (n : String) : findName g n = none ↔ ∀ t ∈ g, t.name ≠ n := by
  simp [findName, List.findIdx?_eq_none_iff]

/-! ### Member functions -/

/-- A native member function or static function is accepted by a class exactly when no function the class has, its own or
inherited, has the same name and the same parameter types; if it is accepted it is the class's last function, and if it is refused
nothing changes. -/
theorem native_function_accepted (cpp : Cpp) (g : Reg) (c : Nat) (ty : Ty) (hty : g[c]? = some ty) (n : String)
    (ps : List String) (static : Bool) (code : Nat) :
    ((∀ s ∈ ty.funs, s.name = n → s.fn.params ≠ ps) ∧
      step cpp g (.fun c n ps true static code) =
        (g.set c { ty with funs := ty.funs ++ [⟨n, ⟨code, true, static, c, c, ps⟩⟩] }, true)) ∨
    ((∃ s ∈ ty.funs, s.name = n ∧ s.fn.params = ps) ∧ step cpp g (.fun c n ps true static code) = (g, false)) := by
  by_cases h : ∃ s ∈ ty.funs, s.name = n ∧ s.fn.params = ps
  · right
    refine ⟨h, ?_⟩
    have : sigFree ty.funs n ps = false := by
      simpa [sigFree] using h
    simp [step, hty, addFn, this]
  · left
    have h' : ∀ s ∈ ty.funs, s.name = n → s.fn.params ≠ ps := fun s hs hn hp => h ⟨s, hs, hn, hp⟩
    refine ⟨h', ?_⟩
    have : sigFree ty.funs n ps = true := by
      simpa [sigFree] using h'
    simp [step, hty, addFn, this]

theorem scriptNameFree_iff (g : Reg) (c : Nat) (ty : Ty) (n : String) (ps : List String) (static : Bool) :
    scriptNameFree g c ty n ps static = true ↔
      (static = false ∧ Overrides c ty.funs n) ∨
      (((static = false ∧ n = ty.name) ∨ ∀ t ∈ g, t.name ≠ n) ∧
        ∀ s ∈ ty.funs, s.name = n → s.fn.params.length ≠ ps.length) := by
  have ho : (match firstSym ty.funs n with | some s => !s.fn.static && s.fn.owner != c | none => false) = true ↔
      Overrides c ty.funs n := by
    unfold Overrides
    cases hf : firstSym ty.funs n with
    | none =>
      simp only [Bool.false_eq_true, false_iff]
      rintro ⟨s, hs, -⟩
      rw [(firstSym_iff _ _ _).2 hs] at hf
      cases hf
    | some s =>
      simp only [Bool.and_eq_true, Bool.not_eq_true', bne_iff_ne, ne_eq]
      constructor
      · intro h; exact ⟨s, (firstSym_iff _ _ _).1 hf, h⟩
      · rintro ⟨s', hs', h⟩
        rw [(firstSym_iff _ _ _).2 hs'] at hf
        cases hf; exact h
  have hn : (findName g n).isNone = true ↔ ∀ t ∈ g, t.name ≠ n := by
    rw [Option.isNone_iff_eq_none, findName_none]
  have hany : (!ty.funs.any (fun s => s.name == n && s.fn.params.length == ps.length)) = true ↔
      ∀ s ∈ ty.funs, s.name = n → s.fn.params.length ≠ ps.length := by
    simp
  unfold scriptNameFree
  simp only [Bool.or_eq_true, Bool.and_eq_true, hn, hany, Bool.not_eq_true', beq_iff_eq]
  exact or_congr (and_congr Iff.rfl ho) Iff.rfl

/-- A script function is accepted by a class exactly when the last function of that name, if any, was not defined in this very
class, and either it is a member function that overrides one of another class, or its name is not the name of a type (a constructor
has the name of its class) and no function of the class has the same name and number of parameters. If it is accepted it is
the class's last function, and if it is refused nothing changes. -/
theorem script_function_accepted (cpp : Cpp) (g : Reg) (c : Nat) (ty : Ty) (hty : g[c]? = some ty) (n : String)
    (ps : List String) (static : Bool) (code : Nat) :
    let Accept := (∀ s, LastNamed ty.funs n s → s.fn.site ≠ c) ∧
      ((static = false ∧ Overrides c ty.funs n) ∨
      (((static = false ∧ n = ty.name) ∨ ∀ t ∈ g, t.name ≠ n) ∧
        ∀ s ∈ ty.funs, s.name = n → s.fn.params.length ≠ ps.length))
    (Accept ∧ step cpp g (.fun c n ps false static code) =
        (g.set c { ty with funs := ty.funs ++ [⟨n, ⟨code, false, static, c, c, ps⟩⟩] }, true)) ∨
    (¬ Accept ∧ step cpp g (.fun c n ps false static code) = (g, false)) := by
  intro Accept
  have hfree := scriptNameFree_iff g c ty n ps static
  cases hl : lastSym ty.funs n with
  | none =>
    have hlast : ∀ s, LastNamed ty.funs n s → s.fn.site ≠ c := by
      intro s hs
      rw [(lastSym_iff _ _ _).2 hs] at hl
      cases hl
    cases hf : scriptNameFree g c ty n ps static with
    | true =>
      left
      exact ⟨⟨hlast, hfree.1 hf⟩, by simp [step, hty, addFn, hl, hf]⟩
    | false =>
      right
      refine ⟨fun h => ?_, by simp [step, hty, addFn, hl, hf]⟩
      rw [hfree.2 h.2] at hf
      cases hf
  | some s =>
    have hs := (lastSym_iff _ _ _).1 hl
    by_cases hc : s.fn.site = c
    · right
      exact ⟨fun h => h.1 s hs hc, by simp [step, hty, addFn, hl, hc]⟩
    · have hlast : ∀ s', LastNamed ty.funs n s' → s'.fn.site ≠ c := by
        intro s' hs'
        rw [(lastSym_iff _ _ _).2 hs'] at hl
        cases hl
        exact hc
      cases hf : scriptNameFree g c ty n ps static with
      | true =>
        left
        exact ⟨⟨hlast, hfree.1 hf⟩, by simp [step, hty, addFn, hl, hf, hc]⟩
      | false =>
        right
        refine ⟨fun h => ?_, by simp [step, hty, addFn, hl, hf, hc]⟩
        rw [hfree.2 h.2] at hf
        cases hf

/-! ### Bases -/

/-- After any history in which no class names itself as base, `extends<T,B>` on two registered native types changes the class
exactly when C++ knows `B` as a base of `T`, `T` does not inherit from `B` yet, and `B` is unrelated to every base `T` has: neither inherits
from the other. Otherwise nothing changes and an error is thrown. -/
theorem base_accepted (cpp : Cpp) (hc : CppAcyclic cpp) (ops : List Op) (hs : NoSelf ops) (t b : String) (ti bi : Nat)
    (ty : Ty) (ht : findNative (run cpp [] ops) t = some ti) (hb : findNative (run cpp [] ops) b = some bi)
    (hty : (run cpp [] ops)[ti]? = some ty) :
    let Accept := cpp b t = true ∧ ¬ Extends (run cpp [] ops) ti bi ∧
      ∀ x ∈ ty.bases, ¬ Extends (run cpp [] ops) x bi ∧ ¬ Extends (run cpp [] ops) bi x
    (Accept ∧ ∃ ty', (step cpp (run cpp [] ops) (.ext t b)).1[ti]? = some ty' ∧ ty'.bases = ty.bases ++ [bi]) ∨
    (¬ Accept ∧ step cpp (run cpp [] ops) (.ext t b) = (run cpp [] ops, false)) := by
  obtain ⟨h, H, hh⟩ := height_run hc hs
  have dec := inheritance_decided_partial cpp hc ops hs
  generalize run cpp [] ops = g at *
  intro Accept
  obtain ⟨bt, hbt, -⟩ := findNative_name hb
  have hlt : ∀ {i : Nat} {y : Ty}, g[i]? = some y → i < g.length := fun h => (List.getElem?_eq_some_iff.1 h).1
  have no : ∀ (i j : Nat), i < g.length → ((inherits g (g.length + 1) i j == some false) = true ↔ ¬ Extends g i j) := by
    intro i j hi
    obtain ⟨r, e, f⟩ := dec i j hi (g.length + 1) (Nat.lt_succ_self _)
    rw [e, ← f]
    cases r <;> simp
  have hbases : basesOk g (g.length + 1) bi ty.bases = true ↔ ∀ x ∈ ty.bases, ¬ Extends g x bi ∧ ¬ Extends g bi x := by
    unfold basesOk
    rw [List.all_eq_true]
    refine forall_congr' fun x => forall_congr' fun hx => ?_
    rw [Bool.and_eq_true, no x bi (H _ _ _ hty hx).1, no bi x (hlt hbt)]
  have hcond : (inherits g (g.length + 1) ti bi == some false && cpp b t && basesOk g (g.length + 1) bi ty.bases) = true ↔
      Accept := by
    rw [Bool.and_eq_true, Bool.and_eq_true, no ti bi (hlt hty), hbases]
    constructor
    · rintro ⟨⟨h1, h2⟩, h3⟩; exact ⟨h2, h1, h3⟩
    · rintro ⟨h2, h1, h3⟩; exact ⟨⟨h1, h2⟩, h3⟩
  cases hA : (inherits g (g.length + 1) ti bi == some false && cpp b t && basesOk g (g.length + 1) bi ty.bases) with
  | true =>
    left
    refine ⟨hcond.1 hA, (copyFns g ti bt.funs { ty with bases := ty.bases ++ [bi] }).1, ?_, ?_⟩
    · simp only [step, hb, ht, hty, hbt, hA, if_true]
      exact List.getElem?_set_self (hlt hty)
    · exact (copyFns_shape g ti bt.funs _).1
  | false =>
    right
    refine ⟨fun h => ?_, ?_⟩
    · rw [hcond.2 h] at hA; cases hA
    · simp only [step, hb, ht, hty, hbt, hA]; rfl

/-! ### The hypotheses are met -/

-- after `class A{ function f(x){} }; class B extends A`: `B` may override `f`, even with another number of parameters, but only once
example : (step demoCpp (run demoCpp [] [.cls "A" none, .fun 0 "f" ["x"] false false 1, .cls "B" (some "A")])
    (.fun 1 "f" [] false false 2)).2 = true := by decide +kernel
example : (step demoCpp (run demoCpp [] [.cls "A" none, .fun 0 "f" ["x"] false false 1, .cls "B" (some "A"),
    .fun 1 "f" [] false false 2]) (.fun 1 "f" ["y", "z"] false false 3)).2 = false := by decide +kernel
-- a function named after another type is refused, one named after its class is its constructor
example : (step demoCpp (run demoCpp [] [.cls "A" none, .cls "B" none]) (.fun 1 "A" [] false false 2)).2 = false ∧
    (step demoCpp (run demoCpp [] [.cls "A" none, .cls "B" none]) (.fun 1 "B" [] false false 2)).2 = true := by decide +kernel
-- two native functions of one name need different parameter types
example : (step demoCpp (run demoCpp [] [.nat "T" "T *", .fun 0 "h" ["T *"] true false 1]) (.fun 0 "h" ["T *"] true false 2)).2 = false ∧
    (step demoCpp (run demoCpp [] [.nat "T" "T *", .fun 0 "h" ["T *"] true false 1]) (.fun 0 "h" ["T *", "int"] true false 2)).2 = true := by
  decide +kernel
-- `extends` once, and not twice
example : (step demoCpp (run demoCpp [] (demoOps.take 9)) (.ext "T *" "Base *")).2 = true ∧
    (step demoCpp (run demoCpp [] (demoOps.take 10)) (.ext "T *" "Base *")).2 = false := by decide +kernel

end Verif.Types
