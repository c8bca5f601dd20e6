import Verif.Vm.Native
import Verif.Base.FloatText
/-
Model of the script functions `Integer::parse`, `Float::parse` and `isNumber` and of the constants `MAX_VALUE`
(`src/core/type/ScriptTypesFactory.cpp` 136-193, 255-270), called through the call instruction of
`src/vm/vm_call.cpp` 456-540, which remembers the function it ran last (`Verif.Vm.Native`).
-/
namespace Verif.Vm.Numbers
open Verif Verif.Vm.Native
open Verif.Str (Bytes)

/-- Type id of the engine handed to every native function (`ScriptTypeId.h`); it is not looked at. -/
def T_ENGINE : Nat := 19

/-- The functions registered as `Integer::parse`, in this order: `ScriptTypesFactory.cpp` 256-258. -/
def integerFns : List Fn :=
  [⟨0, "parse", true, false, [T_ENGINE, T_FLOAT_PTR]⟩,
   ⟨1, "parse", true, false, [T_ENGINE, T_INT]⟩,
   ⟨2, "parse", true, false, [T_ENGINE, T_STRING_PTR]⟩]

/-- The functions registered as `Float::parse`, in this order: `ScriptTypesFactory.cpp` 262-264. -/
def floatFns : List Fn :=
  [⟨0, "parse", true, false, [T_ENGINE, T_INT]⟩,
   ⟨1, "parse", true, false, [T_ENGINE, T_FLOAT_PTR]⟩,
   ⟨2, "parse", true, false, [T_ENGINE, T_STRING_PTR]⟩]

/-- `*number` for a `zs_float *`. Whatever is not the address of a float is not memory that may be read so. -/
def readFloat : Conv → Out Word
  | .addr s => .ok s.value
  | .tmp v => .ok v
  | _ => .ub

/-- A `zs_int` parameter: the word that was handed over. -/
def readInt : Conv → Out Word
  | .val v => .ok v
  | .func v => .ok v
  | _ => .ub

/-- `*number_str` for a `String *`: a null pointer, a function or another object is not a string that may be read. -/
def readText (m : Mem) : Conv → Out Bytes
  | .str o => .ok (m.obj o).text
  | _ => .ub

/-- The three `parseInt`, `ScriptTypesFactory.cpp` 168-188. The conversion of a float is undefined if the result does not
fit. -/
def parseInt (m : Mem) (f : Fn) (c : Conv) : Out Word :=
  if f.params = [T_ENGINE, T_FLOAT_PTR] then
    (readFloat c).bind fun x => match truncInt x with
      | some i => .ok (BitVec.ofInt 64 i)
      | none => .ub
  else if f.params = [T_ENGINE, T_INT] then readInt c
  else (readText m c).bind fun t => .ok (match Integer.parse t with
    | some n => BitVec.ofInt 64 n
    | none => 0)

/-- The three `parseFloat`, `ScriptTypesFactory.cpp` 146-166. -/
def parseFloat (m : Mem) (f : Fn) (c : Conv) : Out Word :=
  if f.params = [T_ENGINE, T_INT] then (readInt c).map fun v => Ieee.ofInt v.toInt
  else if f.params = [T_ENGINE, T_FLOAT_PTR] then readFloat c
  else (readText m c).bind fun t => .ok (match FloatText.parse t with
    | some x => x
    | none => Ieee.ofInt 0)

/-- One execution of a call `..::parse(argument)`, `vm_call.cpp` 480-540: choose the function, hand over the argument
(`vm_native_function.cpp` 408-433), run it. -/
def step (fs : List Fn) (run : Mem → Fn → Conv → Out Word) (w : World) (last : Option Fn) (s : Stk) :
    Out (Word × Option Fn) :=
  (select w fs "parse" [s] last).bind fun p =>
    (passArgs w ieee [s] (p.1.params.drop (startParam p.1))).bind fun cs =>
      match cs with
      | [c] => (run w.mem p.1 c).map fun r => (r, p.2)
      | _ => .ub

/-- The results of successive executions of one such call (in a loop, say), each with the memory and the argument it
meets. An error ends the script. -/
def calls (fs : List Fn) (run : Mem → Fn → Conv → Out Word) : Option Fn → List (World × Stk) → List (Out Word)
  | _, [] => []
  | last, (w, s) :: rest =>
    match step fs run w last s with
    | .ok (r, last') => .ok r :: calls fs run last' rest
    | .err => [.err]
    | .ub => [.ub]

/-- `Integer::parse` called again and again from one place. -/
def integerParse (h : List (World × Stk)) : List (Out Word) := calls integerFns parseInt none h

/-- `Float::parse` called again and again from one place. -/
def floatParse (h : List (World × Stk)) : List (Out Word) := calls floatFns parseFloat none h

/-- `isNumber`, `ScriptTypesFactory.cpp` 190-193; there is only one such function, so none is searched. -/
def isNumber (w : World) (s : Stk) : Out Bool :=
  (passArgs w ieee [s] [T_STACK_ELEMENT]).bind fun cs =>
    match cs with
    | [.elem e] => .ok (has e.props (P_INT ||| P_FLOAT))
    | _ => .ub

/-- `Integer::MAX_VALUE`: `INTPTR_MAX`, `ScriptTypesFactory.cpp` 136-139. -/
def integerMax : Word := BitVec.ofInt 64 9223372036854775807

/-- `Float::MAX_VALUE`: `FLT_MAX`, which is `(2 - 2^-23) * 2^127`, as a `double`, `ScriptTypesFactory.cpp` 141-144. -/
def floatMax : Word := Ieee.ofInt ((2 ^ 24 - 1) * 2 ^ 104)

end Verif.Vm.Numbers
