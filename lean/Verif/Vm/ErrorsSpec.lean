import Verif.Vm.ErrorsSyntax
/-
What the report of an error must be: the message, with every text in it as it was given; a line for each call that was active; and
the place of the error, if it has one.
-/
namespace Verif.ErrSpec
open Verif.Err

/-- A message. -/
def says : Msg → Text
  | [] => []
  | .lit t :: m => t ++ says m
  | .str t :: m => t ++ says m
  | .int n :: m => dec n ++ says m

/-- The line of a call. -/
def frame : Frame → Text
  | .call owner name file line =>
    "\nat calling function ".toList ++ (match owner with | none => [] | some o => o ++ "::".toList) ++ name ++ " (".toList ++
      (match file with | none => [] | some f => "file:".toList ++ f ++ " ".toList) ++ "line:".toList ++ dec line ++ ")".toList
  | .inner caller file line =>
    "\nat ".toList ++ caller ++ " (file:".toList ++ file ++ " line:".toList ++ dec line ++ ")".toList

/-- The lines of all calls. -/
def trace (fs : List Frame) : Text := fs.flatMap frame

/-- The message of an error. -/
def message : Cause → Text
  | .error t => t
  | .engine m _ _ => says m
  | .native m => says m
  | .host t => t

/-- The file's own name: what follows the last `/` or `\`. -/
def base (t : Text) : Text := (t.reverse.takeWhile (fun c => c != '/' && c != '\\')).reverse

/-- The report of a run that fails. -/
def report (c : Cause) (fs : List Frame) : Exc :=
  match c with
  | .engine _ file line => ⟨message c ++ trace fs, base file, line⟩
  | _ => ⟨message c ++ trace fs, [], -1⟩

/-- The report of a script, in the file `cur`, that is refused: the place of the error, and a line for each `import` on the way. -/
def refusal (cur : Text) : Fault → Exc
  | .here m line => ⟨says m, base cur, line⟩
  | .imported name line f =>
    { refusal name f with
      what := (refusal name f).what ++ " \n[".toList ++ base cur ++ ":".toList ++ dec line ++ "] from import '".toList ++ name ++ "'".toList }

/-- What the host catches. -/
def catches : Op → Option Exc
  | .fails c fs => some (report c fs)
  | .runs => none
  | .text f => some (refusal [] f)
  | .file name f => some (refusal name f)

/-! ### Histories for which the property is proved -/

/-- No `%` and not more than 4094 characters. -/
def Plain (t : Text) : Prop := '%' ∉ t ∧ t.length ≤ 4094

/-- Files have names. -/
def Named : Fault → Prop
  | .here _ _ => True
  | .imported name _ f => name ≠ [] ∧ base name ≠ [] ∧ Named f

/-- The report has no `%` and is not longer than 4094 characters; if the error has no place of its own, the last error before it that
had been raised by the engine or by `System::error` had no file either (`stale`). -/
def Fine (stale : Bool) : List Op → Prop
  | [] => True
  | .runs :: ops => Fine stale ops
  | .fails c fs :: ops => Plain (message c ++ trace fs) ∧
      match c with
      | .error _ => Fine false ops
      | .engine _ file _ => Fine (file != []) ops
      | _ => stale = false ∧ Fine stale ops
  | .text (.here m _) :: ops => Plain (says m) ∧ Fine stale ops
  | .text (.imported _ _ _) :: _ => False
  | .file name f :: ops => name ≠ [] ∧ base name ≠ [] ∧ Named f ∧ Plain (refusal name f).what ∧ Fine stale ops

end Verif.ErrSpec
