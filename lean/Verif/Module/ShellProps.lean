/-
Properties of the command line program (C116, C117).
-/
import Verif.Module.ShellLemmas

namespace Verif.Shell
open Verif

/-! ### C116: the console follows each line that is typed -/

/-- C116, the full statement: for every input, the session ends, and the lines of the input have been followed. -/
def ConsoleFollows : Prop :=
  ∀ (E : Type) (G : Engine E) (e : E) (input : Text), FollowsInput G e input

/-- C116 (part): whatever the engine does, for every input with a line `exit` or `quit` and no line of more than 254
bytes or with a zero byte before it, each line is followed once, in order, and the session ends there. Missing: inputs
that just end, and longer lines (see the counterexamples). -/
theorem console_partial {E : Type u} (G : Engine E) (e : E) (input : Text) (hx : ∃ l ∈ linesOf input, Ends l)
    (hs : ∀ l ∈ todo (linesOf input), l.length ≤ 254 ∧ '\x00' ∉ l) : FollowsInput G e input :=
  ⟨(todo (linesOf input)).length + 1, fun n hn =>
    loop_follows G _ e (Term.start input) n rfl rfl hx hs hn⟩

/-- A session with commands, an empty line, and something after its end; its last line lacks a newline. -/
example : FollowsInput recorder [] "var a=1;\nsave\n\na+=1;\nclear\nquit\nnever".toList :=
  console_partial _ _ _ (by decide) (by decide)

example : (todo (linesOf "var a=1;\nsave\n\na+=1;\nclear\nquit\nnever".toList)).foldl (obey recorder) [] =
    [.run "var a=1;".toList, .save, .run [], .run "a+=1;".toList, .clear] := by decide +kernel

/-- A line of 254 bytes is still followed. -/
example : FollowsInput recorder [] (List.replicate 254 'x' ++ "\nexit".toList) :=
  console_partial _ _ _ (by decide +kernel) (by decide +kernel)

/-- C116 is violated: an input that ends without `exit` is undefined behaviour: `strcpy` to a null pointer
(Console.cpp 53). -/
theorem end_of_input_violated :
    ¬ ConsoleFollows ∧ ∀ n, session recorder (n + 2) [] "1;\n".toList = some .ub := by
  have h : ∀ n, session recorder (n + 2) [] "1;\n".toList = some .ub := fun n => rfl
  refine ⟨fun hc => ?_, h⟩
  obtain ⟨N, hN⟩ := hc _ recorder [] "1;\n".toList
  have h1 := hN (N + 2) (by omega)
  rw [h] at h1
  cases h1

/-- C116 is violated: if the last line lacks its newline, or is `clear`, the program asks for ever. -/
theorem endless_violated :
    ¬ ConsoleFollows ∧ (∀ n, session recorder n [] "1;".toList = none) ∧
      ∀ n, session recorder n [] "clear\n".toList = none := by
  have h : ∀ n, session recorder n [] "1;".toList = none := by
    intro n
    match n with
    | 0 => rfl
    | n + 1 => exact loop_at_end recorder n [.run "1;".toList] ⟨[], true, "1;".toList, none⟩ rfl
  refine ⟨fun hc => ?_, h, ?_⟩
  · obtain ⟨N, hN⟩ := hc _ recorder [] "1;".toList
    have h1 := hN N (by omega)
    rw [h] at h1
    cases h1
  · intro n
    match n with
    | 0 => rfl
    | 1 => rfl
    | n + 2 => exact loop_at_end recorder n [.clear, .clear] ⟨[], true, "clear".toList, some "clear".toList⟩ rfl

/-- And `clear` is done once more than it was typed: after two prompts the engine has been cleared twice. -/
theorem clear_again_violated (n : Nat) :
    session recorder (n + 2) [] "clear\n".toList =
      loop recorder n [.clear, .clear] ⟨[], true, "clear".toList, some "clear".toList⟩ := rfl

/-- C116 is violated: a line of 255 bytes is undefined behaviour. -/
theorem long_line_violated :
    ¬ ConsoleFollows ∧
      ∀ n, session recorder (n + 1) [] (List.replicate 255 'x' ++ "\nexit\n".toList) = some .ub := by
  have h : ∀ n, session recorder (n + 1) [] (List.replicate 255 'x' ++ "\nexit\n".toList) = some .ub := by
    intro n
    have hg : getline (Term.start (List.replicate 255 'x' ++ "\nexit\n".toList)) = .ub := by decide +kernel
    simp only [session, loop, hg]
  refine ⟨fun hc => ?_, h⟩
  obtain ⟨N, hN⟩ := hc _ recorder [] (List.replicate 255 'x' ++ "\nexit\n".toList)
  have h1 := hN (N + 1) (by omega)
  rw [h] at h1
  cases h1

/-- C116 is violated: after `save` or `clear` a longer line is run in pieces instead. -/
theorem pieces_violated :
    session recorder 9 [] ("save\n".toList ++ List.replicate 300 'x' ++ "\nexit\n".toList) =
      some (.ok [.save, .run (List.replicate 255 'x'), .run (List.replicate 45 'x')]) := by decide +kernel

/-! ### C117: the arguments -/

/-- C117: for every list of arguments, the program does what they ask for: the options before the script apply, in any
order and number; the first one that is unknown, or `--version`, means that nothing is compiled or run; otherwise the script
is compiled, printed if asked for, and run unless it was asked not to; without a script it is the console. -/
theorem arguments (W : World) (args : List Text) : (main W args).1 = asked W args := by
  unfold main asked
  rw [parse_found]
  unfold found
  rcases h : (optionsOf args).find? (fun a => !flags.contains a) with _ | a
  · simp only []
    generalize ((optionsOf args).any fun a => decide (a = "--print-byte-code".toList ∨ a = "--print-byte-code-all".toList)) = p
    generalize (optionsOf args).contains "--no-execute".toList = x
    generalize (optionsOf args).contains "--no-execution-time".toList = q
    rcases fileOf args with _ | f
    · rfl
    · rcases f with _ | ⟨c, r⟩
      · rfl
      · simp only [Option.getD_some, reduceCtorEq, if_false]
        by_cases hf : W.isFile (c :: r) = true
        · simp only [hf, if_true, process, work, Bool.false_or]
          cases W.compiles (c :: r) <;> cases W.runs (c :: r) <;> cases p <;> cases x <;> rfl
        · simp only [hf]
          rfl
  · simp only []
    by_cases hv : a = "--version".toList
    · rw [if_pos hv, if_pos hv]
    · rw [if_neg hv, if_neg hv]

/-- All files exist; those that start with `b` do not compile, those that start with `r` fail when they run. -/
def W0 : World := ⟨fun f => f ≠ "none".toList, fun f => f.head? ≠ some 'b', fun f => f.head? ≠ some 'r'⟩

example : asked W0 ["--no-execution-time".toList, "--print-byte-code".toList, "s.zs".toList, "--version".toList] =
    [.compile "s.zs".toList, .printCode, .run] := by decide +kernel
example : asked W0 ["--print-byte-code".toList, "--no-execute".toList, "--no-execute".toList, "r.zs".toList] =
    [.compile "r.zs".toList, .printCode, .time "r.zs".toList] := by decide +kernel
example : asked W0 ["--no-execute".toList, "--what".toList, "--version".toList, "s.zs".toList] =
    [.usage "--what".toList] := by decide +kernel
example : asked W0 ["--no-execute".toList] = [.console] := by decide +kernel
example : asked W0 ["r.zs".toList] = [.compile "r.zs".toList, .run, .report, .time "r.zs".toList] := by decide +kernel

/-- The exit status does not tell: it is zero if the script fails, if it does not exist and if an option is unknown. -/
theorem status_violated :
    ¬ StatusTells W0 ["r.zs".toList] ∧ ¬ StatusTells W0 ["none".toList] ∧ ¬ StatusTells W0 ["--what".toList] := by
  have h1 : main W0 ["r.zs".toList] = ([.compile "r.zs".toList, .run, .report, .time "r.zs".toList], 0) := by
    decide +kernel
  have h2 : main W0 ["none".toList] = ([.missing "none".toList], 0) := by decide +kernel
  have h3 : main W0 ["--what".toList] = ([.usage "--what".toList], 0) := by decide +kernel
  refine ⟨fun h => ?_, fun h => ?_, fun h => ?_⟩ <;> unfold StatusTells at h
  · rw [h1] at h
    exact (h.1 rfl).1 (by simp)
  · rw [h2] at h
    exact (h.1 rfl).2.1 "none".toList (by simp)
  · rw [h3] at h
    exact (h.1 rfl).2.2 "--what".toList (by simp)

end Verif.Shell
