import Verif.Vm.Format
/-
`Console::out`, `Console::outln`, `Console::error`, `Console::errorln`, `System::error` and `System::assert`: the script functions of
`src/ScriptEngine.cpp` 142-167 and the native ones of `src/module/ConsoleModule.cpp` and `src/module/SystemModule.cpp` 216-221.

Simplified: a value is given by its kind, its text and the name of its type (objects of script classes that define `_equ` are left
out); texts have no NUL; writing to a stream does not fail. How the message of an error reaches the host is in `Verif/Vm/Errors.lean`.
-/
namespace Verif.Report
open Verif Verif.Str Verif.Format

/-- A value: undefined, a boolean, a string or another object by its text, another value (`null`, numbers, functions, types) by its
text; the last two with the name of their type. -/
inductive V where
  | undef
  | bool (b : Bool)
  | obj (t : Bytes) (type : Bytes)
  | plain (t : Bytes) (type : Bytes)
  deriving DecidableEq, Repr

/-- A text of the source. -/
def src (s : String) : Bytes := s.toList.map fun c => UInt8.ofNat c.toNat

/-- The text of a value: `ScriptEngine.cpp` 389-440, `ScriptTypeId.h` 8. -/
def V.text : V → Bytes
  | .undef => src "Undefined"
  | .bool true => src "true"
  | .bool false => src "false"
  | .obj t _ => t
  | .plain t _ => t

/-- The text of the type of a value (`typeof`), `ScriptEngine.cpp` 424-425; names: `ScriptTypeId.h`. -/
def V.type : V → Bytes
  | .undef => src "type@Undefined"
  | .bool _ => src "type@Boolean"
  | .obj _ n => src "type@" ++ n
  | .plain _ n => src "type@" ++ n

/-- `StringScriptObject::format` (`StringScriptObject.cpp` 86-286) for any value: the text of an object is unescaped first (107-113).
-/
def formatV (v : V) (args : List Arg) : Out Bytes :=
  match v with
  | .obj t _ => (format t args).getD .ub
  | v => ((if args = [] then some (.ok v.text) else loop args (v.text.length + 1) v.text).map fun o => o.map unescapeChars).getD .ub

/-- The streams of the process. -/
structure Streams where
  out : Bytes
  err : Bytes
  deriving DecidableEq, Repr

/-- How a call ends; `raised`: with an error of the script; `fault`: with undefined behaviour. -/
inductive End where
  | done (s : Streams)
  | raised (s : Streams)
  | fault
  deriving DecidableEq, Repr

inductive Fn where
  | out
  | outln
  | error
  | errorln
  deriving DecidableEq, Repr

/-- `ConsoleModule_out` (25-32), `ConsoleModule_outln` (15-22), `ConsoleModule_error` (50-61), `ConsoleModule_errorln` (34-47) of
`ConsoleModule.cpp`. A format that fails sets the error of the machine and gives no text. -/
def native (f : Fn) (v : V) (args : List Arg) (s : Streams) : End :=
  let write (k : Bytes → Streams) : End :=
    match formatV v args with
    | .ok t => .done (k t)
    | .err => .raised s
    | .ub => .fault
  match f with
  | .out => write fun t => { s with out := s.out ++ t }
  | .outln => write fun t => { s with out := s.out ++ t ++ [10] }
  | .error => if v = .undef then .done s else write fun t => { s with err := s.err ++ t }
  | .errorln => if v = .undef then .done { s with err := s.err ++ [10] } else write fun t => { s with err := s.err ++ t ++ [10] }

/-- A call in a script, `ScriptEngine.cpp` 142-153: without arguments (`none`) the first parameter is undefined, but that of `outln` is
the empty string. -/
def console (f : Fn) (first : Option V) (args : List Arg) (s : Streams) : End :=
  native f (first.getD (if f = .outln then .obj [] (src "String") else .undef)) args s

/-- Calls one after the other; an error ends them. -/
def calls : List (Fn × V × List Arg) → Streams → End
  | [], s => .done s
  | (f, v, args) :: cs, s =>
    match console f (some v) args s with
    | .done s => calls cs s
    | e => e

/-- How `System::error` and `System::assert` end: normally, with an error that has a message (not yet formatted as in
`vm_set_error`), or with undefined behaviour. -/
inductive Raise where
  | none
  | raised (m : Bytes)
  | fault
  deriving DecidableEq, Repr

/-- `SystemModule_error`, `SystemModule.cpp` 216-221: the result of `format` is used without a check, which is a null pointer if it
failed. -/
def errorNative (v : V) (args : List Arg) : Raise :=
  match formatV v args with
  | .ok t => .raised t
  | _ => .fault

/-- `a+b` for a string `a`: `StringScriptObject.cpp` 27-84, the sum is unescaped (`set`, 301-303). -/
def cat (a b : Bytes) : Bytes := unescapeChars (a ++ b)

/-- `System::assert`, `ScriptEngine.cpp` 156-163. -/
def assert (check : V) (message : V) (args : List Arg) : Raise :=
  match check with
  | .bool true => .none
  | .bool false =>
    errorNative (.obj (cat (src "Assert error ") (if message = .undef then [] else cat (src ":") message.text)) (src "String")) args
  | v =>
    errorNative (.obj (src "Error, executing  'System::assert' first parameter must be boolean but it was {0}") (src "String"))
      [.text v.type]

/-- `System::error`, `ScriptEngine.cpp` 164-166. -/
def error (message : V) (args : List Arg) : Raise := errorNative message args

end Verif.Report
