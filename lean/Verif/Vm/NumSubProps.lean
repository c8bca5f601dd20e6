import Verif.Vm.NumSubLemmas
/-
The sign of a difference (C150): what a script that compares by subtracting relies on.
-/
namespace Verif.Vm.NumOrder
open Verif Verif.Vm

/-- C150: for all integers, in any mixture with floats that are not infinite, `x - y` is below, at or above zero exactly as `x` is below, at
or above `y`, as long as differences of integers are integers of 64 bits. It is never rounded to zero.
Missing: infinities and longer differences, see the counterexamples. -/
theorem difference_tells_partial (x y : V) (hx : NotInfinite x) (hy : NotInfinite y) (hf : DiffFits x y) : SameSign x y := by
  by_cases h : ∃ a b, x = .int a ∧ y = .int b
  · obtain ⟨a, b, rfl, rfl⟩ := h
    obtain ⟨r, hr, hd⟩ := difference_int hf
    refine ⟨_, hd, ?_, ?_, ?_⟩
    · rw [ints_lt, ints_lt, hr, show (0 : Word).toInt = 0 from rfl]; omega
    · rw [ints_eq, ints_eq, hr, show (0 : Word).toInt = 0 from rfl]; omega
    · rw [ints_gt, ints_gt, hr, show (0 : Word).toInt = 0 from rfl]; omega
  · obtain ⟨nx, ix⟩ := notInfinite_facts hx
    obtain ⟨ny, iy⟩ := notInfinite_facts hy
    refine ⟨_, difference_mixed nx ny h, ?_⟩
    rw [mixed_lt rfl rfl mixed_left, mixed_lt nx ny h, mixed_eq rfl rfl mixed_left, mixed_eq nx ny h, mixed_gt rfl rfl mixed_left,
      mixed_gt nx ny h, show key (.int 0) = 0 from by decide +kernel]
    show (Ieee.isNaN _ = false ∧ _ ∧ Ieee.scaled _ < 0 ↔ Ieee.isNaN _ = false ∧ Ieee.isNaN _ = false ∧ Ieee.scaled _ < Ieee.scaled _) ∧
      (Ieee.isNaN _ = false ∧ _ ∧ Ieee.scaled _ = 0 ↔ Ieee.isNaN _ = false ∧ Ieee.isNaN _ = false ∧ Ieee.scaled _ = Ieee.scaled _) ∧
      (_ ∧ Ieee.isNaN _ = false ∧ 0 < Ieee.scaled _ ↔ Ieee.isNaN _ = false ∧ Ieee.isNaN _ = false ∧ Ieee.scaled _ < Ieee.scaled _)
    generalize x.asFlt ieee = u at *
    generalize y.asFlt ieee = v at *
    have h0 : bad (.int 0) = false := int_good 0
    by_cases hn : Ieee.isNaN u = true ∨ Ieee.isNaN v = true
    · have hs := nan_sub hn
      have hv : ¬ (Ieee.isNaN u = false ∧ Ieee.isNaN v = false) := by
        rintro ⟨h1, h2⟩
        rw [h1, h2] at hn
        rcases hn with h | h <;> cases h
      show (Ieee.isNaN (Ieee.sub u v) = false ∧ _ ↔ _) ∧ (Ieee.isNaN (Ieee.sub u v) = false ∧ _ ↔ _) ∧ (_ ∧ Ieee.isNaN (Ieee.sub u v) = false ∧ _ ↔ _)
      rw [hs]
      exact ⟨⟨fun h => Bool.noConfusion h.1, fun h => (hv ⟨h.1, h.2.1⟩).elim⟩, ⟨fun h => Bool.noConfusion h.1, fun h => (hv ⟨h.1, h.2.1⟩).elim⟩,
        ⟨fun h => Bool.noConfusion h.2.1, fun h => (hv ⟨h.2.1, h.1⟩).elim⟩⟩
    · have hu : Ieee.isNaN u = false := by cases h : Ieee.isNaN u; rfl; exact absurd (.inl h) hn
      have hv : Ieee.isNaN v = false := by cases h : Ieee.isNaN v; rfl; exact absurd (.inr h) hn
      obtain ⟨g0, g1, g2, g3⟩ := Ieee.sub_sign ⟨hu, ix⟩ ⟨hv, iy⟩
      exact ⟨⟨fun h => ⟨hu, hv, g1.1 h.2.2⟩, fun h => ⟨g0, h0, g1.2 h.2.2⟩⟩, ⟨fun h => ⟨hu, hv, g2.1 h.2.2⟩, fun h => ⟨g0, h0, g2.2 h.2.2⟩⟩,
        ⟨fun h => ⟨hv, hu, g3.1 h.2.2⟩, fun h => ⟨h0, g0, g3.2 h.2.2⟩⟩⟩

/-- C150: infinity equals infinity, but their difference is not a number. -/
theorem difference_violated : ¬ DifferenceTells := by
  intro h
  obtain ⟨r, h1, _, h2, _⟩ := h (.flt 0x7FF0000000000000) (.flt 0x7FF0000000000000) rfl rfl
  have h3 := h2.2 ((holds_num rfl rfl).2 (by decide +kernel)) noMem false false
  have e1 := h1 noMem false false
  rw [show arith ieee noMem .sub (held false (.flt 0x7FF0000000000000)) (held false (.flt 0x7FF0000000000000)) = .val (enc (.flt Ieee.nan)) from by
    decide +kernel] at e1
  injection e1 with e1
  have e1' : held false r = held false (.flt Ieee.nan) := e1.symm
  rw [e1'] at h3
  exact absurd h3 (by decide +kernel)

/-- C150: the difference of the smallest integer and 1 is undefined behaviour. -/
theorem difference_overflow_violated : ∃ x y : V, x.isNum = true ∧ y.isNum = true ∧ ¬ SameSign x y := by
  refine ⟨.int 0x8000000000000000, .int 1, rfl, rfl, ?_⟩
  rintro ⟨r, h, _⟩
  have := h noMem false false
  rw [show arith ieee noMem .sub (held false (.int 0x8000000000000000)) (held false (.int 1)) = .ub from by decide] at this
  cases this

/-- A case of `difference_tells_partial`: 9007199254740993 and 0.5, and two neighbours among the least floats. -/
example : NotInfinite (.int 9007199254740993) ∧ NotInfinite (.flt 0x3FE0000000000000) ∧ DiffFits (.int 9007199254740993) (.flt 0x3FE0000000000000) ∧
    NotInfinite (.flt 2) ∧ NotInfinite (.flt 1) ∧ Holds .gt (.flt 2) (.flt 1) :=
  ⟨trivial, show Ieee.isInf _ = false by decide +kernel, trivial, show Ieee.isInf _ = false by decide +kernel,
    show Ieee.isInf _ = false by decide +kernel, (holds_num rfl rfl).2 (by decide +kernel)⟩

end Verif.Vm.NumOrder
