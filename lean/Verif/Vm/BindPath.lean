import Verif.Core.Globals
/-
Binding a script function by its name: `ScriptEngine::bindScriptFunction<F>("a.b.f")`
(`ScriptEngine.tcc` 1700–1829). The variables of the main function and their places on the VM stack are those of
`Core/Globals.lean`.

Simplifications, also repeated at the definitions:
* names and paths are lists of bytes without a zero byte (`String::split` itself is the subject of `Base/Str.lean`);
* the fields of an object are an association list (the maps are the subject of `Base/Map.lean`);
* whether the signature `F` fits the function (`ScriptEngine.tcc` 1450–1690) is not looked at.
-/
namespace Verif.Vm.BindPath

open Verif.Core

/-- What a slot of the VM stack or a field holds, as far as binding looks at it (`StackElement.h`): an object
(`STACK_ELEMENT_PROPERTY_OBJECT`), a script object held by another one through a container slot
(`STACK_ELEMENT_PROPERTY_CONTAINER_SLOT`, `vm.cpp` 511–520), a function, anything else. -/
inductive Val where
  | obj (a : Nat)
  | slot (a : Nat)
  | fn (f : Nat)
  | other
  deriving DecidableEq, Repr

/-- A function of a class (`Symbol` and `ScriptFunction`): `member` is `SCRIPT_FUNCTION_PROPERTY_MEMBER_FUNCTION`,
which static functions lack. -/
structure Meth where
  name : List UInt8
  fn : Nat
  member : Bool
  deriving DecidableEq, Repr

/-- An object: its type's functions, inherited ones first (`ScriptType::scope->symbol_functions`), and its fields, the
built-in ones first (`ObjectScriptObject.cpp` 89–101). -/
structure Obj where
  meths : List Meth
  fields : List (List UInt8 × Val)

structure World where
  eng : Globals.Eng Val
  /-- `Symbol::name` of the variables -/
  name : Nat → List UInt8
  /-- `main_scope->symbol_functions`: names and functions -/
  funs : List (List UInt8 × Nat)
  obj : Nat → Obj

/-- What was bound: the function and the object it is called on. -/
structure Bound where
  fn : Nat
  on : Option Nat
  deriving DecidableEq, Repr

/-- `String::split('.')` (`String.cpp` 309–328) on bytes other than zero; `cur` is the piece being read. -/
def splitDots : List UInt8 → List UInt8 → List (List UInt8)
  | cur, [] => [cur]
  | cur, c :: cs => if c = 46 then cur :: splitDots [] cs else splitDots (cur ++ [c]) cs

/-- The loop over the variables of the main scope (`ScriptEngine.tcc` 1716–1746): the variable number `j` of the list
is looked up in slot `j` of the stack (`vm_get_stack_element_at`, `vm.cpp` 228–236, `NULL` behind the last local
variable); a variable with the name that holds no object is passed over. -/
def firstObj (w : World) (n : List UInt8) : List Nat → Nat → Out (Option Nat)
  | [], _ => .ok none
  | s :: r, j =>
    if w.name s = n then
      if j < w.eng.locals.length then
        match w.eng.stack j with
        | some (.obj a) => .ok (some a)
        | _ => firstObj w n r (j + 1)
      else .err
    else firstObj w n r (j + 1)

/-- `getStackElementByKeyName` (`ObjectScriptObject.cpp` 89–101, `ScriptObject.cpp` 157–159). -/
def field (o : Obj) (n : List UInt8) : Option Val := (o.fields.find? (fun p => p.1 = n)).map (·.2)

/-- `ScriptType::getSymbolMemberFunction` without a number of parameters (`ScriptType.cpp` 713–732): from the last. -/
def memberFn (o : Obj) (n : List UInt8) : Option Meth := o.meths.reverse.find? (fun m => m.name = n)

/-- The names after the first (`ScriptEngine.tcc` 1749–1795 and 1810–1818): fields, and at last a function of the
class of the object reached. -/
def walk (w : World) (a : Nat) : List (List UInt8) → Out Bound
  | [] => .ub
  | [n] =>
    match memberFn (w.obj a) n with
    | some m => if m.member then .ok ⟨m.fn, some a⟩ else .err
    | none => .err
  | n :: r =>
    match field (w.obj a) n with
    | some (.obj b) => walk w b r
    | _ => .err

/-- `ScriptEngine::bindScriptFunction(const String &)` (`ScriptEngine.tcc` 1700–1829). -/
def bind (w : World) (path : List UInt8) : Out Bound :=
  match splitDots [] path with
  | [] => .ub
  | [n] =>
    match w.funs.find? (fun p => p.1 = n) with
    | some p => .ok ⟨p.2, none⟩
    | none => .err
  | n :: r =>
    match firstObj w n w.eng.vars 0 with
    | .ok (some a) => walk w a r
    | .ok none => .err
    | .err => .err
    | .ub => .ub

end Verif.Vm.BindPath
