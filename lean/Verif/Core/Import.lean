import Verif.Core.ImportSyntax
/-
Importing files: `compileFile`, the `import` directive and `compiler_compile_and_link`.

Simplified: a text is a list of items (`ImportSyntax.lean`); an item that is refused is refused as a whole, at the top level of the
script (no function is being compiled); the names of files are lists of directories and a file name, which are equal exactly if the
strings are (`/` between them, no empty parts). Reading a file and changing the directory of the process do not fail for a file that
exists. Not modelled: an `import` inside a function or a block, functions and classes, files that change while they are read.
-/
namespace Verif.Imp

/-- What a compilation works on: the engine's `parsed_files` (`ScriptEngine.h` 500), the variables of the main scope, and the
instructions generated so far for the main function (`compiler_data->current_function->compiler_instructions`). -/
structure C where
  parsed : List Name
  vars : List String
  code : List Nat
  deriving DecidableEq, Repr

/-- How a compilation ends: normally, with an error (what was done so far stays done), or not within the given depth of imports. -/
inductive R where
  | ok (c : C)
  | err (c : C)
  | deep
  deriving DecidableEq, Repr

/-- `compiler_compile_recursive` (`compiler.cpp` 295-441) over the items of a text found in directory `d`; `rec` compiles the text of
an imported file. A declaration: `compiler_keyword_var.cpp` 108-144, `ScriptScope.cpp` 150-173 (a name that is declared is an error).
`import`: `compiler.cpp` 370-400, the file must exist; `compileFile` (`ScriptEngine.cpp` 915-973) does nothing if the name, as it is
written, is among the parsed ones (884-891); else it adds the name, changes to the directory that is part of the name, compiles the
text at the end of the same instructions, and changes back. An error of the imported file is passed on (386-398). -/
def items (rec : Dir → Text → C → R) (k : Disk) (d : Dir) : Text → C → R
  | [], c => .ok c
  | .stmt i :: t, c => items rec k d t { c with code := c.code ++ [i] }
  | .var x :: t, c => if x ∈ c.vars then .err c else items rec k d t { c with vars := c.vars ++ [x] }
  | .bad :: _, c => .err c
  | .imp n :: t, c =>
    match k.text (fileOf d n) with
    | none => .err c
    | some u =>
      if n ∈ c.parsed then items rec k d t c
      else
        match rec (walk d n.dirs) u { c with parsed := c.parsed ++ [n] } with
        | .ok c' => items rec k d t c'
        | .err c' => .err c'
        | .deep => .deep

/-- Compiling a text with imports up to a depth (the C++ calls are not bounded: that the depth `bound` is never reached is
proved). -/
def comp (k : Disk) : Nat → Dir → Text → C → R
  | 0 => fun _ _ _ => .deep
  | m + 1 => items (comp k m) k

/-- The names that a text imports. -/
def imports : Text → List Name
  | [] => []
  | .imp n :: t => n :: imports t
  | _ :: t => imports t

/-- More than the number of imports that are written in a text and in all files. -/
def bound (k : Disk) (t : Text) : Nat := (imports t ++ k.flatMap (fun p => imports p.2)).length + 1

/-- An engine between two actions: `parsed_files`, the variables of the main scope, the code of the main function. -/
structure Eng where
  parsed : List Name
  vars : List String
  code : List Nat
  deriving DecidableEq, Repr

def Eng.init : Eng := ⟨[], [], []⟩

/-- `compiler_compile_and_link` (`compiler.cpp` 63-122) of a script, and then `run`. The code of the main function is replaced also if
there was an error (`compiler_pop_and_compile_function`, 103-117). `none` if the depth was not sufficient. -/
def compileRun (k : Disk) (d : Dir) (t : Text) (parsed : List Name) (e : Eng) : Option (Eng × Obs) :=
  match comp k (bound k t) d t ⟨parsed, e.vars, []⟩ with
  | .ok c => some (⟨c.parsed, c.vars, c.code⟩, .ran c.code)
  | .err c => some (⟨c.parsed, c.vars, c.code⟩, .exc)
  | .deep => none

/-- One action: `compileAndRun` (`ScriptEngine.cpp` 900-911), `compileFileAndRun` (975-983) with `compileFile` (the name is added to
`parsed_files` before the file is read, 924-932; `File::readText` throws if it cannot), `run` (985-998; it runs the code of the main
function). The process is in the directory where it was started. -/
def step (k : Disk) (e : Eng) : Op → Option (Disk × Eng × Obs)
  | .text t => (compileRun k [] t e.parsed e).map (fun r => (k, r))
  | .file n =>
    if n ∈ e.parsed then some (k, e, .ran e.code)
    else
      match k.text (fileOf [] n) with
      | none => some (k, { e with parsed := e.parsed ++ [n] }, .exc)
      | some t => (compileRun k (walk [] n.dirs) t (e.parsed ++ [n]) e).map (fun r => (k, r))
  | .run => some (k, e, .ran e.code)
  | .write f t => some ((f, t) :: k, e, .none)

/-- A history. -/
def steps (k : Disk) (e : Eng) : List Op → Option (Disk × Eng × List Obs)
  | [] => some (k, e, [])
  | op :: ops =>
    match step k e op with
    | none => none
    | some (k1, e1, o) =>
      match steps k1 e1 ops with
      | none => none
      | some (k2, e2, os) => some (k2, e2, o :: os)

end Verif.Imp
