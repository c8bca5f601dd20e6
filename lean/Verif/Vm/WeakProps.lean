import Verif.Vm.WeakLemmas
/-
Properties C110 and C111: methods stored in variables.
-/
namespace Verif.Vm.Weak
open Verif

/-! ## C110 -/

/-- Scripts that make objects, store methods, let objects end and call stored methods. -/
def InScript (ops : List Op) : Prop := ∀ op ∈ ops, (∀ r, op ≠ .print r) ∧ ∀ b, op ≠ .callBound b

theorem fine_inScript (ops : List Op) : ∀ S : Spec, InScript ops → S.FineAll ops := by
  induction ops with
  | nil => intro S _; trivial
  | cons op ops ih =>
    intro S h
    refine ⟨?_, ih _ (fun op' h' => h op' (List.mem_cons_of_mem _ h'))⟩
    have := h op (List.mem_cons_self ..)
    cases op with
    | print r => exact absurd rfl (this.1 r)
    | callBound b => exact absurd rfl (this.2 b)
    | _ => trivial

/-- Every history ends, and every call of a stored method gives what the object holds that the method was taken from, or an error if that
object has ended, also if another one is at its address by then. -/
theorem stored_method_call (ops : List Op) (hs : InScript ops) (hc : Spec.init.CanAll ops) :
    ∃ F, ∀ fuel, F ≤ fuel → run St.init fuel ops = some (.ok (Spec.init.run ops)) :=
  run_ok ops j_init hc (fine_inScript ops _ hs)

/-- Two stored methods of one object, one of them gone before the object, a stored method of a stored method, and the address of the
object used again: the calls give 7, 7, an error and 8. -/
example : InScript [.new 1 7, .method 2 1 0, .method 3 1 0, .method 4 3 0, .call 2, .destroy 2, .call 3, .destroy 1, .new 1 8, .call 3,
      .method 2 1 0, .call 2, .destroy 3] ∧
    Spec.init.CanAll [.new 1 7, .method 2 1 0, .method 3 1 0, .method 4 3 0, .call 2, .destroy 2, .call 3, .destroy 1, .new 1 8, .call 3,
      .method 2 1 0, .call 2, .destroy 3] ∧
    Spec.init.run [.new 1 7, .method 2 1 0, .method 3 1 0, .method 4 3 0, .call 2, .destroy 2, .call 3, .destroy 1, .new 1 8, .call 3,
      .method 2 1 0, .call 2, .destroy 3] =
      [.ok 0, .ok 0, .ok 0, .ok 0, .ok 7, .ok 0, .ok 7, .ok 0, .ok 0, .err, .ok 0, .ok 8, .ok 0] := by
  refine ⟨?_, ?_, rfl⟩
  · intro op h
    simp only [List.mem_cons, List.not_mem_nil, or_false] at h
    rcases h with rfl | rfl | rfl | rfl | rfl | rfl | rfl | rfl | rfl | rfl | rfl | rfl | rfl <;> simp
  · refine ⟨rfl, ⟨rfl, rfl⟩, ⟨rfl, rfl⟩, ⟨rfl, rfl⟩, rfl, rfl, rfl, rfl, rfl, rfl, ⟨rfl, rfl⟩, rfl, rfl, trivial⟩

/-! ## C111 -/

/-- The same with printing, and with functions that the host has bound: as long as the objects live. -/
theorem stored_method_use_partial (ops : List Op) (hc : Spec.init.CanAll ops) (hf : Spec.init.FineAll ops) :
    ∃ F, ∀ fuel, F ≤ fuel → run St.init fuel ops = some (.ok (Spec.init.run ops)) :=
  run_ok ops j_init hc hf

example : Spec.init.CanAll [.new 1 7, .method 2 1 0, .print 2, .bind 5 2, .destroy 2, .callBound 5, .destroy 1] ∧
    Spec.init.FineAll [.new 1 7, .method 2 1 0, .print 2, .bind 5 2, .destroy 2, .callBound 5, .destroy 1] ∧
    Spec.init.run [.new 1 7, .method 2 1 0, .print 2, .bind 5 2, .destroy 2, .callBound 5, .destroy 1] =
      [.ok 0, .ok 0, .ok 0, .ok 0, .ok 0, .ok 7, .ok 0] := by
  refine ⟨⟨rfl, ⟨rfl, rfl⟩, rfl, rfl, rfl, rfl, rfl, trivial⟩, ⟨trivial, trivial, ?_, trivial, trivial, ?_, trivial, trivial⟩, rfl⟩
  · intro o h
    cases h
    rfl
  · intro o h
    cases h
    rfl

/-- The full statement. -/
def StoredMethodUse : Prop := ∀ ops, Spec.init.CanAll ops →
  ∃ F, ∀ fuel, F ≤ fuel → run St.init fuel ops = some (.ok (Spec.init.run ops))

/-- Printing a stored method whose object has ended dereferences NULL. -/
theorem print_violated : ¬ StoredMethodUse := by
  intro h
  obtain ⟨F, hF⟩ := h [.new 1 7, .method 2 1 0, .destroy 1, .print 2] ⟨rfl, ⟨rfl, rfl⟩, rfl, rfl, trivial⟩
  have h1 := hF (F + 2) (by omega)
  have h2 : run St.init (F + 2) [.new 1 7, .method 2 1 0, .destroy 1, .print 2] = some .ub := rfl
  rw [h2] at h1
  cases h1

/-- Calling a function that the host has bound to a method of an object that has ended runs on freed memory, where an error would be
due. -/
theorem bound_violated : ∃ ops, Spec.init.CanAll ops ∧ (∀ op ∈ ops, ∀ r, op ≠ .print r) ∧
    Spec.init.run ops = [.ok 0, .ok 0, .ok 0, .ok 0, .err] ∧ ∀ fuel, 2 ≤ fuel → run St.init fuel ops = some .ub := by
  refine ⟨[.new 1 7, .method 2 1 0, .bind 5 2, .destroy 1, .callBound 5], ⟨rfl, ⟨rfl, rfl⟩, rfl, rfl, rfl, trivial⟩, ?_, rfl, ?_⟩
  · intro op h r
    simp only [List.mem_cons, List.not_mem_nil, or_false] at h
    rcases h with rfl | rfl | rfl | rfl | rfl <;> simp
  · intro fuel h
    obtain ⟨k, rfl⟩ : ∃ k, fuel = k + 2 := ⟨fuel - 2, by omega⟩
    rfl

/-- If another object is at the address by then, the bound function runs on that one: 8 where an error would be due. -/
theorem bound_other_object_violated : ∃ ops, Spec.init.CanAll ops ∧
    Spec.init.run ops = [.ok 0, .ok 0, .ok 0, .ok 0, .ok 0, .err] ∧
    ∀ fuel, 2 ≤ fuel → run St.init fuel ops = some (.ok [.ok 0, .ok 0, .ok 0, .ok 0, .ok 0, .ok 8]) := by
  refine ⟨[.new 1 7, .method 2 1 0, .bind 5 2, .destroy 1, .new 1 8, .callBound 5],
    ⟨rfl, ⟨rfl, rfl⟩, rfl, rfl, rfl, rfl, trivial⟩, rfl, ?_⟩
  intro fuel h
  obtain ⟨k, rfl⟩ : ∃ k, fuel = k + 2 := ⟨fuel - 2, by omega⟩
  rfl

end Verif.Vm.Weak
