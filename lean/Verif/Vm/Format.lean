import Verif.Base.Integer
/-
Model of `String::format`, `Console::out`, `Console::outln`, `Console::error`, `Console::errorln` and `System::error`, which all go
through `StringScriptObject::format` (`src/core/object/StringScriptObject.cpp` 86-286).

Simplified: texts are their character sequences without NUL (`Str*.lean` show that the `String` class acts on them so); lengths are
below 2^31.
-/
namespace Verif.Format
open Verif Verif.Str

/-- An argument: an integer, or another value by its text (objects, floats, booleans, `undefined`: the format is not used for them,
`StringScriptObject.cpp` 220-237, `ScriptEngine.cpp` 389-440). -/
inductive Arg where
  | int (n : Int)
  | text (t : Bytes)
  deriving DecidableEq, Repr

/-- The text of an argument (`StringScriptObject.cpp` 219-237); 65 turns of the digit loop are enough (`toString_terminates`). -/
def Arg.out (f : Bytes) : Arg → Out Bytes
  | .int n => (Integer.toString 65 n f).getD .ub
  | .text t => .ok t

/-- `strchr`: what lies before the first `c` and behind it. -/
def cut (c : UInt8) : Bytes → Option (Bytes × Bytes)
  | [] => none
  | a :: l => if a = c then some ([], l) else (cut c l).map fun p => (a :: p.1, p.2)

/-- The texts of index, alignment and format between `{` and `}`, `StringScriptObject.cpp` 148-172; `none`: `,` behind `:`, then
there is no index (169-175). -/
def parts (body : Bytes) : Option (Bytes × Bytes × Bytes) :=
  match cut 58 body with
  | none =>
    match cut 44 body with
    | none => some (body, [], [])
    | some (i, a) => some (i, a, [])
  | some (b, f) =>
    match cut 44 b with
    | some (i, a) => some (i, a, f)
    | none => if (cut 44 f).isSome then none else some (b, [], f)

/-- The message about a wrong index, `sprintf` to `char str_error[512]`, `StringScriptObject.cpp` 98, 260-263. -/
def wrong (i : Bytes) : Out Bytes := if 25 + i.length + 37 < 512 then .err else .ub

/-- What stands for `{body}`, `StringScriptObject.cpp` 174-267. -/
def item (args : List Arg) (body : Bytes) : Out Bytes :=
  match parts body with
  | none => .ok []
  | some (i, a, f) =>
    match Integer.parse i with
    | none => wrong i
    | some idx =>
      let idx := Integer.toInt32 idx
      let padding := Integer.toInt32 ((Integer.parse a).getD 0)
      if 0 ≤ idx then
        match args[idx.toNat]? with
        | some x => (x.out f).map fun t => List.replicate (padding - t.length).toNat 32 ++ t
        | none => .ok (123 :: body ++ [125])
      else .ok (123 :: body ++ [125])

/-- The loop over the text, `StringScriptObject.cpp` 137-274. The first argument bounds the number of turns (`none`: not enough). -/
def loop (args : List Arg) : Nat → Bytes → Option (Out Bytes)
  | 0, _ => none
  | k + 1, s =>
    match cut 123 s with
    | none => some (.ok s)
    | some (t, r) =>
      match cut 125 r with
      | none => some (.ok s)
      | some (body, r) =>
        match item args body with
        | .ok x => (loop args k r).map fun o => o.map fun y => t ++ x ++ y
        | .err => some .err
        | .ub => some .ub

/-- `StringScriptObject::format` for a string `s` as first argument, `StringScriptObject.cpp` 86-286. Without further arguments
the parameter `_args` of the script functions is `undefined` (`vm_call.cpp` 364-403) and the text is not searched. The text is
unescaped before and after. -/
def format (s : Bytes) (args : List Arg) : Option (Out Bytes) :=
  let s := unescapeChars s
  (if args = [] then some (.ok s) else loop args (s.length + 1) s).map fun o => o.map unescapeChars

end Verif.Format
