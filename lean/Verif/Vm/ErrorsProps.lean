import Verif.Vm.ErrorsLemmas
/-
C124: the report of an error is its message, with every text in it as it was given, a line for each call, and its place.
-/
namespace Verif.Err
open Verif ErrSpec

/-- The property for a history: every exception is the one that it must be, and nothing is undefined. -/
def Right (ops : List Op) : Prop := steps Vm.init ops = .ok (ops.map catches)

/-- The full property. -/
def ReportsAll : Prop := ∀ ops, Right ops

/-- The file is not set by the error. -/
def Unplaced : Cause → Prop
  | .native _ => True
  | .host _ => True
  | _ => False

/-- The file of an error. -/
def fileOf : Cause → Text
  | .engine _ f _ => f
  | _ => []

theorem base_nil : base [] = [] := rfl

theorem fail_eq (v : Vm) (c : Cause) (fs : List Frame) (h : Plain (message c ++ trace fs)) (hv : Unplaced c → v.file = []) :
    ∃ v', fail v c fs = .ok (v', report c fs) ∧ v'.file = fileOf c := by
  have hm := Plain.left h
  have ht := Plain.right h
  have hfs := frames_short (Nat.le_succ_of_le ht.2)
  cases c with
  | error t =>
    have hm : Plain t := hm
    refine ⟨⟨t, [], -1, trace fs⟩, ?_, rfl⟩
    simp only [fail, raise, setError, capture_plain hm, Out.map, Out.bind]
    rw [pass_eq _ _ hfs]
    simp only [Vm.reset, List.nil_append]
    simp only [message] at h
    rw [throwAt_eq _ _ h]
    simp only [report, message, base_nil]
  | engine m f n =>
    have hm : Plain (says m) := hm
    refine ⟨⟨says m, f, n, trace fs⟩, ?_, rfl⟩
    simp only [fail, raise, setFileLineError, setError, capture_msg hm, capture_plain hm, Out.map, Out.bind]
    rw [pass_eq _ _ hfs]
    simp only [Vm.reset, List.nil_append]
    simp only [message] at h
    rw [throwAt_eq _ _ h]
    simp only [report, message]
  | native m =>
    have hm : Plain (says m) := hm
    have hv : v.file = [] := hv trivial
    refine ⟨⟨says m, [], -1, trace fs⟩, ?_, rfl⟩
    simp only [fail, raise, capture_msg hm, Out.map, Out.bind]
    rw [pass_eq _ _ hfs]
    simp only [Vm.reset, List.nil_append, hv]
    simp only [message] at h
    rw [throwAt_eq _ _ h]
    simp only [report, message, base_nil]
  | host t =>
    have hv : v.file = [] := hv trivial
    refine ⟨⟨t, [], -1, trace fs⟩, ?_, rfl⟩
    simp only [fail, raise, Out.bind]
    rw [pass_eq _ _ hfs]
    simp only [Vm.reset, List.nil_append, hv]
    simp only [message] at h
    rw [throwAt_eq _ _ h]
    simp only [Out.map, report, message, base_nil]

theorem steps_fine (ops : List Op) : ∀ (v : Vm) (stale : Bool), (stale = false → v.file = []) → Fine stale ops →
    steps v ops = .ok (ops.map catches) := by
  induction ops with
  | nil => intro v stale _ _; rfl
  | cons op ops ih =>
    intro v stale hv h
    cases op with
    | runs =>
      rw [steps, step]
      simp only [Out.bind]
      rw [ih v.reset stale hv h]
      rfl
    | fails c fs =>
      have key : ∃ v' st, fail v c fs = .ok (v', report c fs) ∧ (st = false → v'.file = []) ∧ Fine st ops := by
        cases c with
        | error t =>
          obtain ⟨v', h1, h2⟩ := fail_eq v (.error t) fs h.1 (fun e => absurd e id)
          exact ⟨v', false, h1, fun _ => h2, h.2⟩
        | engine m f n =>
          obtain ⟨v', h1, h2⟩ := fail_eq v (.engine m f n) fs h.1 (fun e => absurd e id)
          refine ⟨v', f != [], h1, fun he => ?_, h.2⟩
          have he : f = [] := by simpa using he
          rw [h2]; exact he
        | native m =>
          obtain ⟨v', h1, h2⟩ := fail_eq v (.native m) fs h.1 (fun _ => hv h.2.1)
          exact ⟨v', stale, h1, fun _ => h2, h.2.2⟩
        | host t =>
          obtain ⟨v', h1, h2⟩ := fail_eq v (.host t) fs h.1 (fun _ => hv h.2.1)
          exact ⟨v', stale, h1, fun _ => h2, h.2.2⟩
      obtain ⟨v', st, h1, h2, h3⟩ := key
      rw [steps, step, h1]
      simp only [Out.map, Out.bind]
      rw [ih v' st h2 h3]
      rfl
    | text f =>
      cases f with
      | imported name n f => exact absurd h id
      | here m n =>
        rw [steps, step, compile_eq [] (.here m n) (Or.inl rfl) trivial h.1]
        simp only [Out.map, Out.bind]
        rw [ih v stale hv h.2]
        rfl
    | file name f =>
      obtain ⟨h1, h2, h3, h4, h5⟩ := h
      have hf := refusal_file name f h2 h3
      rw [steps, step, compileFile, compile_eq name f (Or.inr h1) h3 h4]
      simp only [Out.map, Out.bind]
      rw [rethrow_eq hf.1 hf.2 h4]
      simp only
      rw [ih v stale hv h5]
      rfl

/-- C124, for reports without `%` of at most 4094 characters: in every history the host catches exactly the report of each error.
Left out are also an error of a native function after an error that had a file, and an error in a file that a text imports. -/
theorem reports_partial (ops : List Op) (h : Fine false ops) : Right ops :=
  steps_fine ops Vm.init false (fun _ => rfl) h

/-- The bounds are exact for `System::error`: a report, with lines of calls that fit, is right exactly if it has no `%` and not more
than 4094 characters. -/
theorem error_exact (t : Text) (fs : List Frame) (hfs : ∀ f ∈ fs, (frame f).length ≤ 4095) :
    Right [.fails (.error t) fs] ↔ '%' ∉ t ++ trace fs ∧ (t ++ trace fs).length ≤ 4094 := by
  constructor
  · intro h
    refine Classical.byContradiction fun hp => ?_
    have hp : ¬ Plain (t ++ trace fs) := hp
    simp only [Right, steps, step, fail, raise, setError] at h
    cases hc : capture t [] with
    | err => rw [hc] at h; cases h
    | ub => rw [hc] at h; cases h
    | ok d =>
      rw [hc] at h
      simp only [Out.map, Out.bind] at h
      rw [pass_eq _ _ hfs] at h
      simp only [Vm.reset, List.nil_append, throwAt] at h
      have h1 := capture_iff hc
      cases hw : capture (d ++ trace fs) [] with
      | err => rw [hw] at h; cases h
      | ub => rw [hw] at h; cases h
      | ok w =>
        rw [hw] at h
        simp only [Out.bind, mkExc_eq, List.map, catches, report, message] at h
        injection h with h
        injection h with h _
        injection h with h
        injection h with h _ _
        subst h
        have h2 := capture_iff hw
        simp only [List.length_append] at h2
        by_cases ht : Plain t
        · rw [capture_plain ht] at hc
          injection hc with hc; subst hc
          have := h2.2 hp
          omega
        · have := h1.2 ht
          omega
  · intro h
    exact reports_partial _ ⟨h, trivial⟩

/-! ### Cases -/

/-- The hypotheses of `reports_partial` hold for errors of all kinds one after another. -/
def sample : List Op := [
  .fails (.error "no such key".toList) [.call (some "System".toList) "error".toList (some "a.zs".toList) 3, .call none "f".toList (some "a.zs".toList) 9],
  .fails (.host "disk full".toList) [.call (some "Db".toList) "save".toList none 2],
  .runs,
  .fails (.engine [.lit "Variable '".toList, .str "x".toList, .lit "' is not function".toList] "lib/b.zs".toList 12)
    [.inner "_add".toList "lib/b.zs".toList 7],
  .file "main.zs".toList (.imported "lib/c.zs".toList 2 (.here [.lit "Expected ')'".toList] 40)),
  .text (.here [.lit "Symbol '".toList, .str "y".toList, .lit "' not defined".toList] 1)]

instance (t : Text) : Decidable (Plain t) := by unfold Plain; infer_instance

example : Right sample := by
  refine reports_partial _ ⟨?_, ?_, rfl, ?_, ?_, ?_, ⟨?_, ?_, trivial⟩, ?_, ?_, trivial⟩ <;> decide +kernel

/-- What the fifth of them is. -/
example : catches sample[4] = some ⟨"Expected ')' \n[main.zs:2] from import 'lib/c.zs'".toList, "c.zs".toList, 40⟩ := by decide +kernel

/-- And the first. -/
example : catches sample[0] =
    some ⟨"no such key\nat calling function System::error (file:a.zs line:3)\nat calling function f (file:a.zs line:9)".toList, [], -1⟩ := by
  decide +kernel

/-! ### Counterexamples -/

/-- `System::error("100%s")`: the text is a format, and its argument is missing. -/
theorem percent_violated : steps Vm.init [.fails (.error "100%s".toList) []] = .ub := by decide +kernel

/-- `System::error("%%%%")` arrives as `%`. -/
theorem percents_violated : steps Vm.init [.fails (.error "%%%%".toList) []] = .ok [some ⟨"%".toList, [], -1⟩] := by decide +kernel

/-- `Object::erase(o,"%s")` for a field that does not exist. -/
theorem field_violated :
    steps Vm.init [.fails (.engine [.lit "field '".toList, .str "%s".toList, .lit "' not exist".toList] "a.zs".toList 3) []] = .ub := by
  decide +kernel

/-- An error in a script whose file has a `%` in its name. -/
theorem file_name_violated :
    steps Vm.init [.fails (.error "oh".toList) [.call none "f".toList (some "50%s.zs".toList) 3]] = .ub := by decide +kernel

/-- An exception of the host, after an error in `a.zs`, is reported for `a.zs`. -/
theorem stale_file_violated :
    steps Vm.init [.fails (.engine [.lit "bad".toList] "a.zs".toList 3) [], .fails (.host "disk full".toList) []] =
      .ok [some ⟨"bad".toList, "a.zs".toList, 3⟩, some ⟨"disk full".toList, "a.zs".toList, -1⟩] := by decide +kernel

/-- A refused script: `"50%s" 3` is answered with the literal as part of a format. -/
theorem literal_violated :
    steps Vm.init [.text (.here [.lit "Expected operator after '".toList, .str "50%s".toList, .lit "'".toList] 1)] = .ub := by decide +kernel

/-- `var a % 2` is answered with the operator as part of a format. -/
theorem operator_violated :
    steps Vm.init [.text (.here [.lit "Unexpected '".toList, .str "%".toList, .lit "' within variable initialization".toList] 1)] = .ub := by
  decide +kernel

/-- A text that imports a file with an error: the name of the text is empty, and the byte before it is read. -/
theorem text_import_violated :
    steps Vm.init [.text (.imported "a.zs".toList 1 (.here [.lit "Expected ')'".toList] 4))] = .ub := by decide +kernel

/-- A long message of the compiler does not fit into the buffer: every message with a text of more than 4095 characters. -/
theorem long_refusal_violated (t : Text) (n : Int) (h : t.length ≥ 4096) : steps Vm.init [.text (.here [.str t] n)] = .ub := by
  have hf : format (fmtOf [.str t]) (argsOf [.str t]) = .ub := by
    unfold format
    rw [vfmt_msg [.str t] (by intro u hu; simp at hu)]
    simp only [Out.bind, says, List.append_nil]
    rw [if_pos h]
  simp only [steps, step, compile]
  rw [hf]
  rfl

example : ∃ t : Text, t.length ≥ 4096 := ⟨List.replicate 4096 'a', Nat.le_of_eq List.length_replicate.symm⟩

/-- A long message of `System::error` is cut. -/
theorem long_error_violated (t : Text) (h : t.length ≥ 4095) : ¬ Right [.fails (.error t) []] := by
  intro hr
  have := ((error_exact t [] (by intro f hf; cases hf)).1 hr).2
  simp only [List.length_append] at this
  omega

theorem reports_violated : ¬ ReportsAll := fun h => by
  have := h [.fails (.error "100%s".toList) []]
  rw [Right, percent_violated] at this
  cases this

end Verif.Err
