import Verif.Vm.Value
/-
Model of how a native function is chosen and its arguments converted: `vm_find_native_function` and the
argument part of `vm_execute_native_function` (`src/vm/vm_native_function.cpp`), the remembered last call
(`src/vm/vm_call.cpp`), `canStackElementCastTo` / `stackElementTo` (`src/ScriptEngine.cpp`), and `instanceof`
(`src/vm/vm_script_function.cpp`).
-/
namespace Verif.Vm.Native
open Verif

/-! Further type ids, `src/core/type/ScriptTypeId.h`. -/
def T_INT_PTR : Nat := 5
def T_CONST_CHAR_PTR : Nat := 7
def T_STRING : Nat := 8
def T_BOOL_PTR : Nat := 11
def T_FLOAT_PTR : Nat := 13
def T_STACK_ELEMENT : Nat := 15

/-- What the functions below read besides the element itself: memory, the answer of `extendsFrom` (the relation of
`Verif.Core.Types`), and the native class an object is linked to (`ClassScriptObject::getNativeScriptClass`,
`ClassScriptObject.cpp` 161-163). -/
structure World where
  mem : Mem
  ext : Nat → Nat → Bool
  nativeClass : Word → Option Nat

/-- `STACK_ELEMENT_TYPE_PROPERTIES`, `StackElement.h` 10-11. -/
def kind (p : Props) : Props := p &&& 0xFFF

/-- The dereference every one of these functions starts with (`ScriptEngine.cpp` 506-509, 621-624). -/
def deref (m : Mem) (s : Stk) : Stk := if has s.props P_PTR_STK then m.stk s.value else s

/-- Flags of an element that refers to an object, `ScriptEngine.cpp` 559, 697. -/
def P_ANY_OBJECT : Props := P_OBJECT ||| P_CONTAINER_SLOT ||| P_OBJECT_IN_CONTAINER

/-- The object such an element refers to (`ScriptEngine.cpp` 561-565, 699-703). -/
def objOf (m : Mem) (s : Stk) : Word := if has s.props P_CONTAINER_SLOT then m.slot s.value else s.value

/-- `ScriptEngine::canStackElementCastTo` after the dereference, `ScriptEngine.cpp` 511-613, with the default
`_strict = false`. A null object pointer is dereferenced. -/
def castVal (w : World) (s : Stk) (t : Nat) : Out Bool :=
  if t = T_STACK_ELEMENT then .ok true
  else if kind s.props = P_NULL then .ok true
  else if kind s.props = P_BOOL then .ok (t == T_BOOL || t == T_BOOL_PTR)
  else if kind s.props = P_FLOAT then .ok (t == T_FLOAT || t == T_FLOAT_PTR || t == T_INT)
  else if kind s.props = P_INT then .ok (t == T_INT || t == T_INT_PTR || t == T_FLOAT || t == T_FLOAT_PTR)
  else if kind s.props = P_FUNCTION then .ok true
  else if has s.props P_ANY_OBJECT then
    let o := objOf w.mem s
    if o = 0 then .ub
    else
      let c := (w.mem.obj o).typeId
      if t = c then .ok true
      else if c = T_STRING_SO then .ok (t == T_STRING_PTR || t == T_STRING || t == T_CONST_CHAR_PTR)
      else if T_CLASS_SO ≤ c then
        match (if t = T_CLASS_SO then none else w.nativeClass o) with
        | some k => .ok (w.ext k t)
        | none => .ok true
      else .ok false
  else .ok false

/-- `ScriptEngine::canStackElementCastTo`, `ScriptEngine.cpp` 499-613. -/
def canCast (w : World) (s : Stk) (t : Nat) : Out Bool := castVal w (deref w.mem s) t

/-- What a conversion hands to the native function. -/
inductive Conv where
  /-- A plain word. -/
  | val (w : Word)
  /-- The stack element itself. -/
  | elem (s : Stk)
  /-- The address of the element's value field. -/
  | addr (s : Stk)
  /-- The address of a temporary float. -/
  | tmp (w : Word)
  /-- The function a function symbol points to. -/
  | func (w : Word)
  /-- `getNativeObject()` of an object. -/
  | native (o : Word)
  /-- The `String` of a string object: pointer, copy, or its characters. -/
  | str (o : Word)
  deriving DecidableEq, Repr

/-- The integer part of a float (`scaled` is its value times 2^1074), if it is a number that fits 64 bits; otherwise
the C++ conversion is undefined. -/
def truncInt (w : Word) : Option Int :=
  if Ieee.isNaN w || Ieee.isInf w then none
  else
    let i := (Ieee.scaled w).tdiv (2 ^ 1074)
    if -(2 : Int) ^ 63 ≤ i ∧ i < (2 : Int) ^ 63 then some i else none

/-- `ScriptEngine::stackElementTo` after the dereference, `ScriptEngine.cpp` 626-788: `err` when it returns false. -/
def convVal (w : World) (s : Stk) (t : Nat) : Out Conv :=
  if t = T_STACK_ELEMENT then .ok (.elem s)
  else if kind s.props = P_NULL then .ok (.val 0)
  else if kind s.props = P_BOOL then
    if t = T_BOOL then .ok (.val s.value) else if t = T_BOOL_PTR then .ok (.addr s) else .err
  else if kind s.props = P_FLOAT then
    if t = T_FLOAT then .ok (.val s.value)
    else if t = T_FLOAT_PTR then .ok (.addr s)
    else if t = T_INT then
      match truncInt s.value with
      | some i => .ok (.val (BitVec.ofInt 64 i))
      | none => .ub
    else .err
  else if kind s.props = P_INT then
    if t = T_INT then .ok (.val s.value) else if t = T_INT_PTR then .ok (.addr s) else .err
  else if kind s.props = P_FUNCTION then .ok (.func s.value)
  else if has s.props P_ANY_OBJECT then
    let o := objOf w.mem s
    if o = 0 then .err
    else
      let c := (w.mem.obj o).typeId
      if t = c then .ok (.native o)
      else if c = T_STRING_SO then
        if t = T_STRING_PTR ∨ t = T_STRING ∨ t = T_CONST_CHAR_PTR then .ok (.str o) else .err
      else if T_CLASS_SO ≤ c then
        match (if t = T_CLASS_SO then none else w.nativeClass o) with
        | some k => if w.ext k t then .ok (.native o) else .err
        | none => .ok (.val s.value)
      else .err
  else .err

/-- `ScriptEngine::stackElementTo`, `ScriptEngine.cpp` 616-788. -/
def convert (w : World) (s : Stk) (t : Nat) : Out Conv := convVal w (deref w.mem s) t

/-! ### Choosing the function -/

/-- What is read of a registered function: its name, whether it is native, whether it is a member and not static, and the
type ids of its parameters (the first is the engine, and for a member function the second is the object). -/
structure Fn where
  id : Nat
  name : String
  native : Bool
  member : Bool
  params : List Nat
  deriving DecidableEq, Repr

/-- `start_param`, `vm_common.h` 33-46. -/
def startParam (f : Fn) : Nat := if f.member then 2 else 1

/-- Whether one argument is accepted for a parameter type, `vm_native_function.cpp` 107-156. `ub`: a null object
pointer is dereferenced (by the string test or by `getScriptTypeName`). -/
def argOk (w : World) (s : Stk) (t : Nat) : Out Bool :=
  if t = T_STACK_ELEMENT then .ok true
  else
    let s := deref w.mem s
    if kind s.props = P_INT then .ok (t == T_INT_PTR || t == T_INT || t == T_FLOAT_PTR)
    else if kind s.props = P_FLOAT then .ok (t == T_FLOAT_PTR || t == T_FLOAT || t == T_INT_PTR || t == T_INT)
    else if kind s.props = P_BOOL then .ok (t == T_BOOL_PTR)
    else if kind s.props = P_FUNCTION ||| P_MEMBER_FUNCTION then .ok (t == T_MEMBER_FUNCTION)
    else if kind s.props = P_FUNCTION then .ok (t == T_SCRIPT_FUNCTION)
    else if kind s.props = P_OBJECT ∨ kind s.props = P_OBJECT_IN_CONTAINER then
      if s.value = 0 then .ub
      else if isStr w.mem s then .ok (t == T_STRING_SO || t == T_STRING_PTR || t == T_CONST_CHAR_PTR)
      else .ok (w.ext (w.mem.obj s.value).typeId t)
    else .ok false

/-- The loop over the arguments, `vm_native_function.cpp` 104-156: stops at the first one refused. -/
def argsOk (w : World) : List Stk → List Nat → Out Bool
  | [], _ => .ok true
  | _ :: _, [] => .ub
  | s :: ss, t :: ts =>
    match argOk w s t with
    | .ok true => argsOk w ss ts
    | .ok false => .ok false
    | .err => .err
    | .ub => .ub

/-- The test of one candidate, `vm_native_function.cpp` 91-162. -/
def candidate (w : World) (n : String) (args : List Stk) (f : Fn) : Out Bool :=
  if f.name == n && f.params.length == args.length + startParam f && f.native then
    argsOk w args (f.params.drop (startParam f))
  else .ok false

/-- The search from the last candidate to the first. -/
def search (w : World) (n : String) (args : List Stk) : List Fn → Out Fn
  | [] => .err
  | f :: fs =>
    match candidate w n args f with
    | .ok true => .ok f
    | .ok false => search w n args fs
    | .err => .err
    | .ub => .ub

/-- `vm_find_native_function`, `vm_native_function.cpp` 62-300, over the functions of the class (or the global ones) in
the order they were registered. `err`: the error "Cannot call native .." is raised. -/
def find (w : World) (fs : List Fn) (n : String) (args : List Stk) : Out Fn := search w n args fs.reverse

/-! ### The remembered last call -/

/-- The check of the function remembered by the instruction, `vm_call.cpp` 480-507: number of arguments, and every
argument castable. -/
def reusable (w : World) (f : Fn) (args : List Stk) : Out Bool :=
  if f.params.length = args.length + startParam f then go args (f.params.drop (startParam f)) else .ok false
where
  /-- The loop, stopping at the first argument refused. -/
  go : List Stk → List Nat → Out Bool
    | [], _ => .ok true
    | _ :: _, [] => .ub
    | s :: ss, t :: ts =>
      match canCast w s t with
      | .ok true => go ss ts
      | .ok false => .ok false
      | .err => .err
      | .ub => .ub

/-- Which function one execution of a call instruction runs, and what it remembers, `vm_call.cpp` 480-535. Neither the
name nor the class the function belongs to is looked at when the remembered one is reused. -/
def select (w : World) (fs : List Fn) (n : String) (args : List Stk) (last : Option Fn) : Out (Fn × Option Fn) :=
  match last with
  | none => (find w fs n args).map (fun f => (f, some f))
  | some f =>
    match reusable w f args with
    | .ok true => .ok (f, some f)
    | .ok false => (find w fs n args).map (fun g => (g, some g))
    | .err => .err
    | .ub => .ub

/-- The functions that successive executions of one call instruction run: each with its candidates (those of the class of
the object at hand) and arguments. An error ends the script. -/
def selects (w : World) (n : String) : Option Fn → List (List Fn × List Stk) → List (Out Fn)
  | _, [] => []
  | last, (fs, args) :: rest =>
    match select w fs n args last with
    | .ok (f, last') => .ok f :: selects w n last' rest
    | .err => [.err]
    | .ub => [.ub]

/-! ### Passing the arguments -/

/-- One argument, `vm_native_function.cpp` 408-433: an integer for a `float *` goes through a temporary, everything
else through `stackElementTo`. -/
def passArg (w : World) (F : FloatOps) (s : Stk) (t : Nat) : Out Conv :=
  if has (deref w.mem s).props P_INT && t == T_FLOAT_PTR then .ok (.tmp (F.ofInt (deref w.mem s).value.toInt))
  else convert w s t

/-- All arguments, left to right. -/
def passArgs (w : World) (F : FloatOps) : List Stk → List Nat → Out (List Conv)
  | [], _ => .ok []
  | _ :: _, [] => .ub
  | s :: ss, t :: ts =>
    match passArg w F s t with
    | .ok c => (passArgs w F ss ts).map (fun cs => c :: cs)
    | .err => .err
    | .ub => .ub

/-! ### `instanceof` -/

/-- `BYTE_CODE_INSTANCEOF`, `vm_script_function.cpp` 248-277, for an existing type. -/
def instanceOf (w : World) (s : Stk) (t : Nat) : Bool :=
  if t = T_INT then has s.props P_INT
  else if t = T_FLOAT then has s.props P_FLOAT
  else if t = T_BOOL then has s.props P_BOOL
  else if t = T_SCRIPT_FUNCTION then has s.props P_FUNCTION
  else if has s.props P_OBJECT then w.ext (w.mem.obj s.value).typeId t
  else false

end Verif.Vm.Native
