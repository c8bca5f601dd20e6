import Verif.Vm.HostLemmas
/-
Objects that scripts return to the host (property C98).
-/
namespace Verif.HostProps
open Verif Verif.Host Verif.HostSpec

/-- What a host expects: whatever it does with scripts and the objects it was given, it gets the values that the program returns;
at the end exactly those objects exist that it holds or variables refer to, and the engine's list is that of what it holds. -/
def Lifetime (ops : List Op) : Prop :=
  ∃ s, steps S.init ops = .ok (s, (World.init.steps ops).2) ∧ s.glob = (World.init.steps ops).1.glob ∧
    s.life = (World.init.steps ops).1.held ∧
    ∀ o, s.mem o ≠ .dead ↔ o ∈ (World.init.steps ops).1.held ∨ some o ∈ (World.init.steps ops).1.glob

/-- The full statement. -/
def LifetimeAll : Prop := ∀ ops, World.init.UsesAll ops → Lifetime ops

/-- C98, proved part: arguments are objects that variables of the main function refer to, too; a script or function returns at most
one value, which is not written as a variable of the main function that refers to an object; `delete` is not applied to the last
variable that refers to an object. Script errors may happen anywhere. -/
theorem lifetime_partial (ops : List Op) (hu : World.init.UsesAll ops) (hf : World.init.FineAll ops) : Lifetime ops := by
  have h0 : R S.init World.init [] :=
    ⟨rfl, rfl, rfl, fun _ => ⟨rfl, rfl⟩, fun _ => rfl, fun _ _ => rfl⟩
  obtain ⟨s, hs, hR⟩ := steps_ok h0 hu hf
  exact ⟨s, hs, hR.glob, hR.life, hR.alive⟩

/-! ### What goes wrong -/

/-- An object that a function returned to the host and that the host passes to a function is freed when that ends: giving it back
uses freed memory. -/
theorem pass_back_violated : World.init.UsesAll [.call [] 0 [] [.new], .call [some 0] 0 [] [], .unref 0] ∧
    steps S.init [.call [] 0 [] [.new], .call [some 0] 0 [] [], .unref 0] = .ub := by
  refine ⟨⟨?_, ?_, ?_, trivial⟩, rfl⟩
  · intro o ho; exact absurd ho List.not_mem_nil
  · intro o ho
    have : o = 0 := by simpa using ho
    subst this; exact .inl (by decide)
  · show 0 ∈ _
    decide

/-- If that function stores it in a variable, giving it back frees it while the variable refers to it. -/
theorem pass_store_violated :
    World.init.UsesAll [.run 1 [] [], .call [] 0 [] [.new], .call [some 0] 0 [.setG 0 (.loc 0)] [], .unref 0] ∧
    ∃ s os, steps S.init [.run 1 [] [], .call [] 0 [] [.new], .call [some 0] 0 [.setG 0 (.loc 0)] [], .unref 0] = .ok (s, os) ∧
      s.glob = [some 0] ∧ s.mem 0 = .dead := by
  refine ⟨⟨trivial, ?_, ?_, ?_, trivial⟩, _, _, rfl, rfl, rfl⟩
  · intro o ho; exact absurd ho List.not_mem_nil
  · intro o ho
    have : o = 0 := by simpa using ho
    subst this; exact .inl (by decide)
  · show 0 ∈ _
    decide

/-- If that function returns it, the host has it twice but the second time it is given back memory is freed twice. -/
theorem pass_return_violated :
    World.init.UsesAll [.call [] 0 [] [.new], .call [some 0] 0 [] [.loc 0], .unref 0, .unref 0] ∧
    steps S.init [.call [] 0 [] [.new], .call [some 0] 0 [] [.loc 0], .unref 0, .unref 0] = .ub := by
  refine ⟨⟨?_, ?_, ?_, ?_, trivial⟩, rfl⟩
  · intro o ho; exact absurd ho List.not_mem_nil
  · intro o ho
    have : o = 0 := by simpa using ho
    subst this; exact .inl (by decide)
  · show 0 ∈ _
    decide
  · show 0 ∈ _
    decide

/-- Of two returned objects the second is never freed, and the host cannot free it. -/
theorem second_value_violated :
    World.init.UsesAll [.call [] 0 [] [.new, .new], .unref 0] ∧
    ∃ s os, steps S.init [.call [] 0 [] [.new, .new], .unref 0] = .ok (s, os) ∧ s.glob = [] ∧ s.life = [] ∧ s.mem 1 = .bare := by
  refine ⟨⟨?_, ?_, trivial⟩, _, _, rfl, rfl, rfl, rfl⟩
  · intro o ho; exact absurd ho List.not_mem_nil
  · show 0 ∈ _
    decide

/-- The object of a variable of the main function that a function returns by the name of the variable is not the host's: the
script frees it while the host has it, and giving it back throws. -/
theorem return_global_violated :
    World.init.UsesAll [.run 1 [.setG 0 .new] [], .call [] 0 [] [.glob 0], .run 0 [.setG 0 .undef] [], .unref 0] ∧
    ∃ s, steps S.init [.run 1 [.setG 0 .new] [], .call [] 0 [] [.glob 0], .run 0 [.setG 0 .undef] [], .unref 0] =
      .ok (s, [.val none, .val (some 0), .val none, .exc]) ∧ s.mem 0 = .dead := by
  refine ⟨⟨trivial, ?_, trivial, ?_, trivial⟩, _, rfl, rfl⟩
  · intro o ho; exact absurd ho List.not_mem_nil
  · show 0 ∈ _
    decide

/-- `delete` of the last variable that refers to an object reads the object after it is freed. -/
theorem delete_violated : World.init.UsesAll [.run 1 [.setG 0 .new, .delG 0] []] ∧
    steps S.init [.run 1 [.setG 0 .new, .delG 0] []] = .ub := ⟨⟨trivial, trivial⟩, rfl⟩

theorem lifetime_violated : ¬ LifetimeAll := by
  intro h
  obtain ⟨s, hs, _⟩ := h _ pass_back_violated.1
  rw [pass_back_violated.2] at hs
  cases hs

/-! ### A run that meets the hypotheses -/

/-- Two variables; a function that stores a new object in one and returns it; a function that is called with it, deletes its
parameter, makes an object of its own and fails; one that returns a new object of its own; everything is given up again. -/
def sample : List Op :=
  [.run 2 [.setG 0 .new] [], .call [none] 1 [.setL 1 .new, .setG 1 (.loc 1)] [.loc 1],
    .call [some 1, some 0] 1 [.delL 0, .setL 2 .new, .setG 0 (.loc 2), .fail] [], .run 0 [.setG 1 .undef] [],
    .call [some 2] 1 [.setL 1 .new, .setL 0 (.loc 1)] [.loc 0], .unref 1]

theorem sample_uses : World.init.UsesAll sample := by
  refine ⟨trivial, ?_, ?_, trivial, ?_, ?_, trivial⟩
  · intro o ho; simp at ho
  · intro o ho
    have : o = 1 ∨ o = 0 := by simpa using ho
    rcases this with e | e <;> subst e <;> exact .inr (by decide)
  · intro o ho
    have : o = 2 := by simpa using ho
    subst this; exact .inr (by decide)
  · show 1 ∈ _
    decide

theorem sample_fine : World.init.FineAll sample := by
  refine ⟨⟨⟨by decide, ?_⟩, ?_⟩, ⟨?_, ⟨by decide, ?_⟩, ?_⟩, ⟨?_, ⟨by decide, ?_⟩, ?_⟩, ⟨⟨by decide, ?_⟩, ?_⟩,
    ⟨?_, ⟨by decide, ?_⟩, ?_⟩, trivial, trivial⟩
  · intro g o h; simp at h
  · exact ⟨trivial, trivial⟩
  · intro o ho; simp at ho
  · intro g o h; simp at h
  · exact ⟨trivial, trivial, trivial⟩
  · intro o ho
    have : o = 1 ∨ o = 0 := by simpa using ho
    rcases this with e | e <;> subst e <;> decide
  · intro g o h; simp at h
  · refine ⟨?_, trivial, trivial, trivial⟩
    intro o ho
    have : o = 1 := by simpa using ho.symm
    subst this
    exact .inl (by decide)
  · intro g o h; simp at h
  · exact ⟨trivial, trivial⟩
  · intro o ho
    have : o = 2 := by simpa using ho
    subst this; decide
  · intro g o h; simp at h
  · exact ⟨trivial, trivial, trivial⟩

example : Lifetime sample := lifetime_partial sample sample_uses sample_fine

/-- What it is in the end: the host has object 3, a variable object 2. -/
example : World.init.steps sample = (⟨[some 2, none], [3], 4⟩,
    [.val none, .val (some 1), .exc, .val none, .val (some 3), .val none]) := rfl

/-- The objects of a list of variables are the objects that one of them holds. -/
theorem objs_held (vs : List (Option Nat)) (o : Nat) : o ∈ Host.objs vs ↔ some o ∈ vs := by
  induction vs with
  | nil => simp [Host.objs]
  | cons v vs ih => cases v <;> simp [Host.objs, ih]

end Verif.HostProps
