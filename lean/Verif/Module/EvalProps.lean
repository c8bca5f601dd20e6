import Verif.Module.EvalLemmas
import Verif.Module.EvalSpec
/-
C101: what `System::eval` gives to the expression that calls it.
-/
namespace Verif.EvalProps
open Verif Verif.Eval Verif.EvalSpec

/-- A call of `System::eval` for `m` values with the arguments from `start - nargs` to `start` leaves the operands below its arguments
as they were and puts the first `m` values, the first one on top, where the arguments began. -/
def Gives (mem : Nat → Val) (start nargs : Nat) (params : List Val) (nl : Nat) (ss : List Stmt) (m : Nat) : Prop :=
  ∃ s, evalCall mem start nargs params nl ss m = .ok s ∧ s.cur = start - nargs + m ∧
    (∀ j, j < start - nargs → s.mem j = mem j) ∧
    ∀ i, i < m → s.mem (start - nargs + m - 1 - i) = value (run ss (params ++ List.replicate nl .undef)) i

/-- C101 in full: for all code, parameters and numbers of values wanted. -/
def EvalGives : Prop :=
  ∀ mem start nargs params nl ss m, nargs ≤ start → nargs = 1 + (if params = [] then 0 else 1) →
    Gives mem start nargs params nl ss m

/-- C101 (partial): code that returns as many values as the caller takes, and code without `return`, called for one value with no
more parameters than `eval` has arguments. Missing: other numbers of values, and more parameters; see the counterexamples below. -/
theorem eval_partial (mem : Nat → Val) (start nargs : Nat) (params : List Val) (nl : Nat) (ss : List Stmt) (m : Nat)
    (hb : nargs ≤ start)
    (h : (∃ vs, run ss (params ++ List.replicate nl .undef) = some vs ∧ m = vs.length) ∨
         (run ss (params ++ List.replicate nl .undef) = none ∧ m = 1 ∧ params.length ≤ nargs)) :
    Gives mem start nargs params nl ss m := by
  have hg := good_patch ss (params ++ List.replicate nl .undef)
  rw [run_through] at h
  unfold Gives evalCall
  rw [run_through]
  simp only [R] at hg
  generalize hr : exec (patch (code ss)).length (patch (code ss)) (params ++ List.replicate nl .undef) [] = r at hg
  cases ht : through ss (params ++ List.replicate nl .undef) with
  | inl vs =>
    rw [ht] at hg h
    have hm : m = vs.length := by
      rcases h with ⟨vs', e, hm⟩ | ⟨e, _⟩
      · cases e; exact hm
      · cases e
    subst hm
    have hr' : r = some vs := hg
    subst hr'
    obtain ⟨s, e, hc, hlo, _, hv⟩ := native_values mem start params.length nl vs
    obtain ⟨c1, c2, c3⟩ := call_values (nativeEnd s start) start nargs vs.length hb (by rw [hc]; omega)
    refine ⟨callEnd (nativeEnd s start) start nargs vs.length, by simp only [hr, e]; rfl, c1, ?_, ?_⟩
    · intro j hj
      rw [c2 j hj, hlo j (by omega)]
    · intro i hi
      rw [c3 i hi, hc]
      have : start + nl + vs.length + 1 - vs.length + i = start + 1 + nl + i := by omega
      rw [this, hv i hi]
      rfl
  | inr v =>
    rw [ht] at hg h
    have ⟨hm, hp⟩ : m = 1 ∧ params.length ≤ nargs := by
      rcases h with ⟨vs', e, hm⟩ | ⟨_, hm⟩
      · cases e
      · exact hm
    subst hm
    cases r with
    | none =>
      obtain ⟨s, e, hc, hlo, hv⟩ := call_idle mem start params.length nl nargs 1 hb hp (by omega)
      refine ⟨callEnd (nativeEnd s start) start nargs 1, by simp only [hr, e]; rfl, hc, hlo, ?_⟩
      intro i hi
      rw [hv i hi]
      rfl
    | some ws =>
      obtain ⟨s, e, hc, hlo, hu, hv⟩ := native_values mem start params.length nl ws
      obtain ⟨c1, c2, c3⟩ := call_values (nativeEnd s start) start nargs 1 hb (by rw [hc]; omega)
      refine ⟨callEnd (nativeEnd s start) start nargs 1, by simp only [hr, e]; rfl, c1, ?_, ?_⟩
      · intro j hj
        rw [c2 j hj, hlo j (by omega)]
      · intro i hi
        rw [c3 i hi, hc]
        have hi0 : i = 0 := by omega
        subst hi0
        have hi' : Idle (some ws) := hg
        rcases hi' with e0 | el
        · subst e0
          exact hu nl (Nat.le_refl _)
        · have hpos : 0 < ws.length := by
            cases ws with
            | nil => cases el
            | cons a as => simp
          have : start + nl + ws.length + 1 - 1 + 0 = start + 1 + nl + (ws.length - 1) := by omega
          rw [this, hv _ (by omega), ← List.getLast?_eq_getElem?, el]
          rfl

/-- `a,b = System::eval("c=p1+0; if(c){return c,7}", {p1})` (two values, a local variable). -/
example : (∃ vs, run [.one (.set 1 (.var 0)), .ite (.var 1) [.ret [.var 1, .lit 7]]] ([.num 5] ++ List.replicate 1 .undef) = some vs ∧
    2 = vs.length) := ⟨_, rfl, rfl⟩
example : Gives (fun _ => .num 9) 4 2 [.num 5] 1 [.one (.set 1 (.var 0)), .ite (.var 1) [.ret [.var 1, .lit 7]]] 2 :=
  eval_partial _ _ _ _ _ _ _ (by omega) (.inl ⟨_, rfl, rfl⟩)

/-- `10 + System::eval("if(p1){return 1}", {p1,p2})` with `p1` zero: `undefined`. -/
example : Gives (fun _ => .num 9) 4 2 [.num 0, .num 1] 0 [.ite (.var 0) [.ret [.lit 1]]] 1 :=
  eval_partial _ _ _ _ _ _ _ (by omega) (.inr ⟨rfl, rfl, by decide⟩)

/-- `10 + System::eval("f()", {a,b,c})`: three parameters and code that ends without `return` overwrite the operand below the
arguments (the 10, at 0, becomes `undefined`). -/
theorem eval_operand_lost_violated :
    ∃ s, evalCall (fun _ => .num 10) 3 2 [.num 1, .num 2, .num 3] 0 [.one (.call [])] 1 = .ok s ∧ s.mem 0 = .undef :=
  ⟨_, rfl, rfl⟩

/-- `a,b = System::eval("return 1")`: `a` is `undefined` and `b` is 1. -/
theorem eval_fewer_values_violated :
    ∃ s, evalCall (fun _ => .num 10) 1 1 [] 0 [.one (.ret [.lit 1])] 2 = .ok s ∧ s.mem 1 = .undef ∧ s.mem 0 = .num 1 :=
  ⟨_, rfl, rfl, rfl⟩

/-- `a = System::eval("return 1,2")`: `a` is 2. -/
theorem eval_more_values_violated :
    ∃ s, evalCall (fun _ => .num 10) 1 1 [] 0 [.one (.ret [.lit 1, .lit 2])] 1 = .ok s ∧ s.mem 0 = .num 2 :=
  ⟨_, rfl, rfl⟩

/-- `a,b = System::eval("3,4")`: code without `return` gives 4 as a value (`a` is 4, `b` is `undefined`). -/
theorem eval_value_without_return_violated :
    ∃ s, evalCall (fun _ => .num 10) 1 1 [] 0 [.one (.expr (.lit 3) [.lit 4])] 2 = .ok s ∧ s.mem 1 = .num 4 ∧ s.mem 0 = .undef :=
  ⟨_, rfl, rfl, rfl⟩

/-- C101 in full does not hold. -/
theorem eval_gives_violated : ¬ EvalGives := by
  intro h
  obtain ⟨s, e, _, hlo, _⟩ := h (fun _ => .num 10) 3 2 [.num 1, .num 2, .num 3] 0 [.one (.call [])] 1 (by decide) rfl
  obtain ⟨s', e', h0⟩ := eval_operand_lost_violated
  rw [e] at e'
  cases e'
  rw [hlo 0 (by decide)] at h0
  cases h0

end Verif.EvalProps
