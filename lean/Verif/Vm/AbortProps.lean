import Verif.Vm.AbortLemmas
/-
Properties C112 and C113: what errors leave behind.
-/
namespace Verif.Vm.Abort
open Verif

theorem idle_init : Idle St.init (fun _ => 0) := ⟨rfl, rfl, fun _ => rfl⟩

/-! ## C112 -/

/-- After any history of runs whose errors are reported by the machine itself - in functions at any depth, in constructors, in functions
called by native ones, in `System::eval`, by a call that is too deep or finds no room - the host has got the end of each run or an
exception that reports the error, the machine is ready for the next run, and objects held by global variables have at least the shares
of these. -/
theorem reported_errors (rs : List Run) (h : ∀ r ∈ rs, r.Reported) :
    (runAll St.init rs).2 = rs.map Run.expected ∧ (runAll St.init rs).1.cur = 0 ∧
      ∀ o, occ o (rs.flatMap Run.keeps) ≤ (runAll St.init rs).1.shares o := by
  obtain ⟨h1, h2, Y, h3, _, h5⟩ := runs_fine rs St.init (fun _ => 0) idle_init h
  refine ⟨h1, h5.cur, ?_⟩
  intro o
  have a := h5.acc o
  have b := h2 o
  have c := h3 o
  have d : St.init.globals o = 0 := rfl
  omega

/-- A constructor that fails within a call in a block, a call that finds no room, a callback that fails in a deeper function, an `eval`
that does not compile, a default value that fails; then a run that ends. -/
example : (∀ r ∈ [Run.main (.seq (.hold 1) (.block (.call [2] false .skip true (.construct 3 [4] true (.seq (.hold 5) (.fail true)))))),
      Run.host [6] [6] true (.call [7] false .skip false .skip),
      Run.main (.seq (.native [8] [8, 1] true (.call [1] false .skip true (.fail false))) (.hold 9)),
      Run.main (.eval [1] false true .skip), Run.main (.call [1] true (.fail true) true .skip), Run.main (.hold 10)], r.Reported) ∧
    (runAll St.init [Run.main (.seq (.hold 1) (.block (.call [2] false .skip true (.construct 3 [4] true (.seq (.hold 5) (.fail true)))))),
      Run.host [6] [6] true (.call [7] false .skip false .skip),
      Run.main (.seq (.native [8] [8, 1] true (.call [1] false .skip true (.fail false))) (.hold 9)),
      Run.main (.eval [1] false true .skip), Run.main (.call [1] true (.fail true) true .skip), Run.main (.hold 10)]).2 =
      [.failed, .failed, .failed, .failed, .failed, .done] := by
  refine ⟨?_, rfl⟩
  intro r hr
  simp only [List.mem_cons, List.not_mem_nil, or_false] at hr
  rcases hr with rfl | rfl | rfl | rfl | rfl | rfl <;> simp [Run.Reported, Reported]

/-! ## C113 -/

/-- Nothing is left behind, for histories whose errors the code cleans up after. -/
theorem error_leaves_nothing_partial (rs : List Run) (h : ∀ r ∈ rs, r.Clean) : LeavesNothing rs := by
  have hr : ∀ r ∈ rs, r.Reported := by
    intro r hr
    have := h r hr
    cases r with
    | main a => exact clean_reported a _ this
    | host tmp args fits a => exact clean_reported a _ this.2.2
  obtain ⟨h1, h2, Y, _, h4, h5⟩ := runs_fine rs St.init (fun _ => 0) idle_init hr
  refine ⟨h1, h5.cur, ?_⟩
  intro o
  have a := h5.acc o
  have b := h2 o
  have c := h4 h o
  have d : St.init.globals o = 0 := rfl
  omega

/-- Errors in the third function of a chain of calls with objects, with blocks open in each; in a function called by a native one; in
`eval`; in a function called by the host, with an object of the script; a constructor that ends. -/
example : ∀ r ∈ [Run.main (.seq (.hold 1) (.block (.seq (.hold 2) (.call [1, 2] false .skip true
        (.block (.seq (.hold 3) (.call [3, 3] true .skip true (.block (.seq (.hold 4) (.fail true)))))))))),
      Run.main (.seq (.construct 5 [1] true (.hold 6)) (.seq (.hold 5) (.native [] [1] true (.seq (.hold 7) (.fail false))))),
      Run.main (.eval [1] true true (.block (.seq (.hold 8) (.fail true)))),
      Run.host [] [1] true (.call [1] false .skip true (.fail true))], r.Clean := by
  intro r hr
  simp only [List.mem_cons, List.not_mem_nil, or_false] at hr
  rcases hr with rfl | rfl | rfl | rfl <;> simp [Run.Clean, Clean, ends]

/-- An instruction throws, such as an operator defined by a class whose operand is a literal string (`literal_operand_violated`): no later
run of a main function, whatever it does, is executed any more. -/
theorem thrown_violated : ∀ (rs : List Act), ∀ x ∈ (runAll St.init (.main .raise :: rs.map .main)).2.tail, x = Res.refused := by
  have key : ∀ (rs : List Act) (σ : St), σ.cur ≠ 0 → ∀ x ∈ (runAll σ (rs.map .main)).2, x = Res.refused := by
    intro rs
    induction rs with
    | nil => intro σ _ x hx; simp [runAll] at hx
    | cons a rs ih =>
      intro σ h x hx
      simp only [List.map_cons, runAll, runStep, if_neg h, List.mem_cons] at hx
      rcases hx with rfl | hx
      · rfl
      · exact ih σ h x hx
  intro rs
  exact key rs (runStep St.init (.main .raise)).1 (by decide)

theorem thrown_leaves_violated : ¬ LeavesNothing [.main .raise, .main .skip] := by
  intro h
  have := h.1
  revert this
  decide +kernel

/-- An error in a constructor: the object is never freed. -/
theorem constructor_violated : ¬ LeavesNothing [.main (.construct 1 [] true (.fail true))] := by
  intro h
  have := h.2.2 1
  revert this
  decide +kernel

/-- A call with an object that is refused, because there is no room for the function or because the function for the default value of a
parameter has failed: the object is never freed. -/
theorem refused_call_violated : ¬ LeavesNothing [.main (.block (.seq (.hold 1) (.call [1] false .skip false .skip)))] ∧
    ¬ LeavesNothing [.main (.block (.seq (.hold 1) (.call [1] true (.fail true) true .skip)))] := by
  constructor
  all_goals
    intro h
    have := h.2.2 1
    revert this
    decide +kernel

/-- A function called by the host with a new object ends with an error: the object is never freed. -/
theorem host_argument_violated : ¬ LeavesNothing [.host [1] [1] true (.fail true)] := by
  intro h
  have := h.2.2 1
  revert this
  decide +kernel

/-- `eval` of a text that does not compile, with an object as argument: the object is never freed. -/
theorem eval_argument_violated : ¬ LeavesNothing [.main (.block (.seq (.hold 1) (.eval [1] false true .skip)))] := by
  intro h
  have := h.2.2 1
  revert this
  decide +kernel

/-- A function of the host that catches the exception of a function it has called and then calls another one: the table has
been emptied below the script function that called it, whose next variable is outside of it. -/
theorem guarded_violated : ¬ LeavesNothing [.main (.call [] false .skip true (.seq (.guarded (.fail true) .skip) (.hold 1)))] ∧
    (runAll St.init [.main (.call [] false .skip true (.seq (.guarded (.fail true) .skip) (.hold 1)))]).2 = [.ub] := by
  have h2 : (runAll St.init [.main (.call [] false .skip true (.seq (.guarded (.fail true) .skip) (.hold 1)))]).2 = [.ub] := by
    decide +kernel
  refine ⟨?_, h2⟩
  intro h
  rw [h.1] at h2
  revert h2
  decide +kernel

end Verif.Vm.Abort
