import Verif.Common
import Verif.Vm.ErrorsSyntax
/-
How errors are reported: `vm_set_error`, `vm_set_file_line_error`, the lines that `vm_call` adds, `vm_execute`, `throw_exception…`,
`EVAL_ERROR_FILE_LINE` and `compileFile`.

Simplified: of the conversions of `printf` only `%s`, `%i` and `%%` are modelled (an invalid conversion and a conversion without an
argument are undefined, and a conversion that is not modelled is treated like them; a text that is used as a format has no
arguments, so that every conversion in it but `%%` is undefined in C++ too). Numbers are not cut to 32 bits. The calls of
`System::error` to `errorNative`, which add no line (`vm_call.cpp` 559-582), are left out of the calls of a run. Not modelled: an error
because of a full stack (which adds no lines), an error in a script function that is called by a function of the host that a script
calls, the errors of folding constants and of assigning to a member property (which put more words around the message), and the
position in the script of a JSON error.
-/
namespace Verif.Err
open Verif

/-- An argument of `printf`. -/
inductive Arg where
  | s (t : Text)
  | i (n : Int)
  deriving DecidableEq, Repr

/-- `vsnprintf`/`vsprintf` without the end of the buffer. -/
def vfmt : Text → List Arg → Out Text
  | [], _ => .ok []
  | c :: r, as =>
    if c ≠ '%' then (vfmt r as).map (c :: ·)
    else match r, as with
      | '%' :: r, as => (vfmt r as).map ('%' :: ·)
      | 's' :: r, .s t :: as => (vfmt r as).map (t ++ ·)
      | 'i' :: r, .i n :: as => (vfmt r as).map (dec n ++ ·)
      | _, _ => .ub

/-- The end of `ZS_CAPTURE_VARIABLE_ARGS`, `String.h` 14-26, for a buffer of `ZS_MAX_STR_BUFFER` = 4096 bytes (`Common.h` 44;
`max_len` is 4095): a text that does not fit is cut and ends in three points. -/
def cut (t : Text) : Text := if t.length ≥ 4095 then t.take 4091 ++ "...".toList else t

/-- `ZS_CAPTURE_VARIABLE_ARGS`. -/
def capture (f : Text) (as : List Arg) : Out Text := (vfmt f as).map cut

/-- `String::format`, `String.cpp` 27-36: `vsprintf` into a buffer of 4096 bytes. -/
def format (f : Text) (as : List Arg) : Out Text :=
  (vfmt f as).bind fun t => if t.length ≥ 4096 then .ub else .ok t

/-- The format that a message is written with in the source, for instance `"field '%s' not exist"`. -/
def fmtOf : Msg → Text
  | [] => []
  | .lit t :: m => t ++ fmtOf m
  | .str _ :: m => '%' :: 's' :: fmtOf m
  | .int _ :: m => '%' :: 'i' :: fmtOf m

/-- And its arguments. -/
def argsOf : Msg → List Arg
  | [] => []
  | .lit _ :: m => argsOf m
  | .str t :: m => .s t :: argsOf m
  | .int n :: m => .i n :: argsOf m

/-- The loop of `String::findLastOf("/\\")`, `String.cpp` 647-655: the last separator before position `i`. -/
def lastSep (t : Text) : Nat → Option Nat
  | 0 => none
  | i + 1 => match t[i]? with
    | some c => if c = '/' ∨ c = '\\' then some i else lastSep t i
    | none => lastSep t i

/-- `Path::getFilename`, `Path.cpp` 22-30. For an empty path `findLastOf` reads the byte before the buffer. -/
def getFilename (t : Text) : Out Text :=
  if t = [] then .ub
  else match lastSep t t.length with
    | some i => .ok (t.drop (i + 1))
    | none => .ok t

/-- The constructor of `Exception`, `Exception.cpp` 10-20. -/
def mkExc (file : Text) (line : Int) (what : Text) : Out Exc :=
  if file = [] then .ok ⟨what, [], line⟩ else (getFilename file).map fun f => ⟨what, f, line⟩

/-- `throw_exception_file_line`, `Exception.cpp` 34-38, with a text for a format. -/
def throwAt (file : Text) (line : Int) (f : Text) : Out Exc := (capture f []).bind fun w => mkExc file line w

/-- `throw_exception`, `Exception.cpp` 40-44. -/
def throw' (f : Text) : Out Exc := throwAt [] (-1) f

/-- `VirtualMachineData`, `vm_common.h` 169-173: `vm_error_description`, `vm_error_file`, `vm_error_line`,
`vm_error_callstack_str`. -/
structure Vm where
  desc : Text
  file : Text
  line : Int
  trace : Text
  deriving DecidableEq, Repr

def Vm.init : Vm := ⟨[], [], -1, []⟩

/-- `vm_reset_error_vars`, `vm.cpp` 238-246, at the beginning of a run (271-273). The file and the description stay. -/
def Vm.reset (v : Vm) : Vm := { v with trace := [], line := -1 }

/-- `vm_set_error`, `vm.cpp` 90-104. -/
def setError (v : Vm) (f : Text) : Out Vm :=
  (capture f []).map fun d => { v with desc := d, file := [], line := -1 }

/-- `vm_set_file_line_error`, `vm.cpp` 106-121: the text is formatted, and then `vm_set_error` takes it for a format. -/
def setFileLineError (v : Vm) (file : Text) (line : Int) (m : Msg) : Out Vm :=
  (capture (fmtOf m) (argsOf m)).bind fun t => (setError v t).map fun v => { v with file := file, line := line }

/-- How an error begins. `error`: `SystemModule_error`, `SystemModule.cpp` 216-221 (after `String::format`), and
`JsonModule_deserialize`, `JsonModule.cpp` 29. `engine`: the macros of `vm_common.h` 72-112. `native`, `host`: what is thrown
(`ZS_THROW_RUNTIME_ERROR`, `Exception.h` 7, for the library) is caught in `vm_call.cpp` 546-549; the file and the line are not
touched. -/
def raise (v : Vm) : Cause → Out Vm
  | .error t => setError v t
  | .engine m file line => setFileLineError v file line m
  | .native m => (capture (fmtOf m) (argsOf m)).map fun d => { v with desc := d }
  | .host t => .ok { v with desc := t }

/-- What is written between a type and its function, `vm_call.cpp` 595. -/
def sep : Option Text → Text
  | none => []
  | some _ => "::".toList

/-- The line that a call adds: `vm_call.cpp` 592-599, `vm_inner_call`, 49-54. -/
def line : Frame → Out Text
  | .call owner name file n =>
    (match file with | none => Out.ok [] | some f => format "file:%s ".toList [.s f]).bind fun ft =>
      format "\nat calling function %s%s%s (%sline:%i)".toList
        [.s (owner.getD []), .s (sep owner), .s name, .s ft, .i n]
  | .inner caller file n => format "\nat %s (file:%s line:%i)".toList [.s caller, .s file, .i n]

/-- The error passes the calls, the innermost first. -/
def pass (v : Vm) : List Frame → Out Vm
  | [] => .ok v
  | f :: fs => (line f).bind fun t => pass { v with trace := v.trace ++ t } fs

/-- `vm_execute` of a run that fails, `vm.cpp` 271-273 and 358-366. -/
def fail (v : Vm) (c : Cause) (fs : List Frame) : Out (Vm × Exc) :=
  (raise v.reset c).bind fun v => (pass v fs).bind fun v =>
    (throwAt v.file v.line (v.desc ++ v.trace)).map fun e => (v, e)

/-- The end of `ScriptEngine::compileFile`, `ScriptEngine.cpp` 946-975: the exception is caught and its text thrown again, as a
format. -/
def rethrow (e : Exc) : Out Exc := if e.file ≠ [] then throwAt e.file e.line e.what else throw' e.what

/-- `compiler_compile_and_link` of a text of the file `cur` (empty: not from a file) that is refused. `EVAL_ERROR_FILE_LINE`
(`compiler_data.cpp` 10-15) formats the message; an exception of `compileFile` for an import is formatted with the place of the
import (`compiler.cpp` 384-396); what comes out is thrown as a format (`compiler.cpp` 128-130). -/
def compile (cur : Text) : Fault → Out Exc
  | .here m n => (format (fmtOf m) (argsOf m)).bind fun t => throwAt cur n t
  | .imported name n f =>
    ((compile name f).bind rethrow).bind fun e => (getFilename cur).bind fun b =>
      (format "%s \n[%s:%i] from import '%s'".toList [.s e.what, .s b, .i n, .s name]).bind fun t => throwAt e.file e.line t

/-- `ScriptEngine::compileFile`, `ScriptEngine.cpp` 914-977. -/
def compileFile (name : Text) (f : Fault) : Out Exc := (compile name f).bind rethrow

/-- One action of the host, and what it catches. -/
def step (v : Vm) : Op → Out (Vm × Option Exc)
  | .fails c fs => (fail v c fs).map fun r => (r.1, some r.2)
  | .runs => .ok (v.reset, none)
  | .text f => (compile [] f).map fun e => (v, some e)
  | .file name f => (compileFile name f).map fun e => (v, some e)

/-- A history. -/
def steps (v : Vm) : List Op → Out (List (Option Exc))
  | [] => .ok []
  | op :: ops => (step v op).bind fun r => (steps r.1 ops).map (r.2 :: ·)

end Verif.Err
