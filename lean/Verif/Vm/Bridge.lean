import Verif.Vm.Native
import Verif.Base.Str
/-
Model of how values of the C++ host become script values and back: `ScriptEngine::toStackElement` (`src/ScriptEngine.cpp`,
`src/ScriptEngine.tcc`) with its three users (the template, the parameters of a bound script function, the result of a
native function), the ways back on top of `stackElementTo` (`Verif.Vm.Native`), and the host's functions of arrays
(`src/core/object/ArrayScriptObject.tcc`).

Simplified: what a script object is freed for and when (see `Verif.Vm.Share`, `Host`, `Slots`) is left out; the address of
a new object and of a C++ temporary are arguments; an `int` index is an unbounded integer.
-/
namespace Verif.Vm.Bridge
open Verif Verif.Vm.Native

/-! Further type ids, `src/core/type/ScriptTypeId.h` 43-98. -/
def T_VOID : Nat := 3
def T_ARRAY_ITERATOR : Nat := 22
def T_OBJECT_ITERATOR : Nat := 23
def T_STRING_ITERATOR : Nat := 21
def T_MAX : Nat := 27

/-- What a C++ pointer of the host can point to. -/
inductive Cell where
  | int (w : Word)
  | float (w : Word)
  | bool (b : Bool)
  /-- a `String` -/
  | str (t : List UInt8)
  /-- characters up to a terminator -/
  | chars (t : List UInt8)
  /-- a `StackElement` -/
  | elem (s : Stk)
  deriving DecidableEq, Repr

/-- What is read of a script object. `strPtr`, `text`: `StringScriptObject::str_ptr` (`none`: it points to
`default_str_value`) and `default_str_value`, `StringScriptObject.h` 41-60. `cObject`, `cls`, `byCtor`:
`ClassScriptObject::c_object`, `script_class_native`, `was_created_by_constructor`. `shared`: `shared_pointer` is set;
`konst`: `SCRIPT_OBJECT_PROPERTY_CONSTANT`. -/
structure Obj where
  typeId : Nat
  strPtr : Option Word := none
  text : List UInt8 := []
  cObject : Word := 0
  cls : Option Nat := none
  byCtor : Bool := false
  shared : Bool := false
  konst : Bool := false
  deriving DecidableEq, Repr

/-- The host's memory and the script objects that are alive; `ext` is `extendsFrom`, `linked` the native class that the
constructor of `ClassScriptObject` finds for a type (`ClassScriptObject.cpp` 71-84), `slot` what a container slot refers to. -/
structure St where
  host : Word → Option Cell
  obj : Word → Option Obj
  ext : Nat → Nat → Bool
  linked : Nat → Option Nat
  slot : Word → Word

/-- Write to the host's memory (or end the life of what is there). -/
def St.setHost (σ : St) (p : Word) (c : Option Cell) : St :=
  { σ with host := fun q => if q = p then c else σ.host q }

/-- Write a script object. -/
def St.setObj (σ : St) (a : Word) (o : Obj) : St :=
  { σ with obj := fun b => if b = a then some o else σ.obj b }

/-- What `stackElementTo` reads. -/
def St.world (σ : St) : World where
  mem :=
    { obj := fun a => match σ.obj a with | some o => ⟨o.typeId, o.text⟩ | none => ⟨0, []⟩
      stk := fun a => match σ.host a with | some (.elem s) => s | _ => ⟨0, 0⟩
      slot := σ.slot }
  ext := σ.ext
  nativeClass := fun a => match σ.obj a with | some o => o.cls | none => none

/-- `StringScriptObject::toString`, `StringScriptObject.cpp` 317-319: `*str_ptr`. -/
def textOf (σ : St) (a : Word) : Out (List UInt8) :=
  match σ.obj a with
  | none => .ub
  | some o =>
    match o.strPtr with
    | none => .ok o.text
    | some p => match σ.host p with | some (.str t) => .ok t | _ => .ub

/-- `StringScriptObject::set`, `StringScriptObject.cpp` 301-303: `*str_ptr = _s.unescape()`. -/
def setText (σ : St) (a : Word) (t : List UInt8) : Out St :=
  match σ.obj a with
  | none => .ub
  | some o =>
    match o.strPtr with
    | none => .ok (σ.setObj a { o with text := Str.unescapeChars t })
    | some p =>
      match σ.host p with
      | some (.str _) => .ok (σ.setHost p (some (.str (Str.unescapeChars t))))
      | _ => .ub

/-- The host's text behind a word: a `String` or characters, as the type says. -/
def readText (σ : St) (w : Word) (t : Nat) : Out (List UInt8) :=
  if t = T_STRING then match σ.host w with | some (.str x) => .ok x | _ => .ub
  else match σ.host w with | some (.chars x) => .ok x | _ => .ub

/-- The text cases of `toStackElement`, `ScriptEngine.cpp` 824-842; `a` is the address of the new string object
(`StringScriptObject.cpp` 293-299). -/
def textElement (σ : St) (a w : Word) (t : Nat) : Out (Stk × St) :=
  let σ' := σ.setObj a { typeId := T_STRING_SO }
  if w = 0 then .ok (⟨a, P_OBJECT⟩, σ')
  else if t = T_STRING_PTR then .ok (⟨a, P_OBJECT⟩, σ.setObj a { typeId := T_STRING_SO, strPtr := some w })
  else (readText σ w t).bind fun x => (setText σ' a x).bind fun σ'' => .ok (⟨a, P_OBJECT⟩, σ'')

/-- The default case, `ScriptEngine.cpp` 864-874, with `ScriptTypesFactory::instanceObjectByScriptTypeId`
(`ScriptTypesFactory.cpp` 639-673) and the constructor of `ClassScriptObject` (`ClassScriptObject.cpp` 16-104) for a given
C++ object; the fields of the new object are left out. -/
def objectElement (σ : St) (a w : Word) (t : Nat) : Out (Stk × St) :=
  if w = 0 then .ok (⟨0, P_NULL⟩, σ)
  else if t > T_CLASS_SO then
    .ok (⟨a, P_OBJECT⟩, σ.setObj a { typeId := t, cObject := w, cls := σ.linked t })
  else .err

/-- `ScriptEngine::toStackElement(zs_int, ScriptTypeId)`, `ScriptEngine.cpp` 791-877. `a` is the address a new object
gets. -/
def toStackElement (σ : St) (a w : Word) (t : Nat) : Out (Stk × St) :=
  if t = T_VOID then .ok (⟨0, P_UNDEFINED⟩, σ)
  else if t = T_INT_PTR then
    if w = 0 then .ok (⟨0, P_UNDEFINED⟩, σ)
    else match σ.host w with | some (.int n) => .ok (⟨n, P_INT⟩, σ) | _ => .ub
  else if t = T_INT then .ok (⟨w, P_INT⟩, σ)
  else if t = T_FLOAT then .ok (⟨w, P_FLOAT⟩, σ)
  else if t = T_FLOAT_PTR then
    if w = 0 then .ok (⟨0, P_UNDEFINED⟩, σ)
    else match σ.host w with | some (.float n) => .ok (⟨n, P_FLOAT⟩, σ) | _ => .ub
  else if t = T_BOOL_PTR then
    if w = 0 then .ok (⟨0, P_UNDEFINED⟩, σ)
    else match σ.host w with | some (.bool b) => .ok (⟨if b then 1 else 0, P_BOOL⟩, σ) | _ => .ub
  else if t = T_BOOL then .ok (⟨if w = 0 then 0 else 1, P_BOOL⟩, σ)
  else if t = T_CONST_CHAR_PTR ∨ t = T_STRING_PTR ∨ t = T_STRING then textElement σ a w t
  else if t = T_STACK_ELEMENT then
    if w = 0 then .ok (⟨0, P_UNDEFINED⟩, σ)
    else match σ.host w with | some (.elem s) => .ok (s, σ) | _ => .ub
  else if t = T_ARRAY_SO ∨ t = T_ARRAY_ITERATOR ∨ t = T_OBJECT_SO ∨ t = T_CLASS_SO ∨ t = T_OBJECT_ITERATOR ∨
      t = T_STRING_SO ∨ t = T_STRING_ITERATOR then
    if w = 0 then .ok (⟨0, P_UNDEFINED⟩, σ) else .ok (⟨w, P_OBJECT⟩, σ)
  else objectElement σ a w t

/-! ### Giving values to a script -/

/-- A value of the host, with its C++ type: plain values, and addresses for pointers. `script`: a pointer to a script object
of a built-in type; `native`: a pointer to an object of a registered class; `other`: a pointer of another registered type
(`ScriptFunction *`, `char *`, `const zs_float *`, ..). -/
inductive HVal where
  | int (w : Word)
  | intPtr (p : Word)
  | float (w : Word)
  | floatPtr (p : Word)
  | bool (b : Bool)
  | boolPtr (p : Word)
  | chars (p : Word)
  | string (t : List UInt8)
  | stringPtr (p : Word)
  | elem (p : Word)
  | script (t : Nat) (p : Word)
  | native (t : Nat) (p : Word)
  | other (t : Nat) (p : Word)
  deriving DecidableEq, Repr

/-- The type id registered for the C++ type (`getScriptTypeIdFromNamePtr`). -/
def HVal.type : HVal → Nat
  | .int _ => T_INT
  | .intPtr _ => T_INT_PTR
  | .float _ => T_FLOAT
  | .floatPtr _ => T_FLOAT_PTR
  | .bool _ => T_BOOL
  | .boolPtr _ => T_BOOL_PTR
  | .chars _ => T_CONST_CHAR_PTR
  | .string _ => T_STRING
  | .stringPtr _ => T_STRING_PTR
  | .elem _ => T_STACK_ELEMENT
  | .script t _ => t
  | .native t _ => t
  | .other t _ => t

/-- The word that `(zs_int)_val` makes of a value that is not a float or a `String`. -/
def HVal.word : HVal → Word
  | .int w => w
  | .intPtr p => p
  | .float w => w
  | .floatPtr p => p
  | .bool b => if b then 1 else 0
  | .boolPtr p => p
  | .chars p => p
  | .string _ => 0
  | .stringPtr p => p
  | .elem p => p
  | .script _ p => p
  | .native _ p => p
  | .other _ p => p

/-- The ways into a script. -/
inductive Entry where
  /-- `engine.toStackElement<T>(v)`, `ScriptEngine.tcc` 138-155 -/
  | element
  /-- an argument of a bound script function, `ScriptEngine.tcc` 219-246 (and for more parameters) -/
  | argument
  /-- the result of a native function, `vm_native_function.cpp` 436-934 -/
  | result
  deriving DecidableEq, Repr

/-- `tmp` is the address of the temporary (`_val`, `str_aux`) that the code takes the address of. A `String` is no
argument of the template (it does not convert to `zs_int`); `bindScriptFunction` refuses parameters of types `zs_float`,
`bool` and `String` (`ScriptEngine.tcc` 1656-1668). -/
def give (σ : St) (a tmp : Word) : Entry → HVal → Out (Stk × St)
  | .element, .float w =>
    (toStackElement (σ.setHost tmp (some (.float w))) a tmp T_FLOAT_PTR).bind fun r =>
      .ok (r.1, r.2.setHost tmp (σ.host tmp))
  | .element, .string _ => .err
  | .argument, .float _ => .err
  | .argument, .bool _ => .err
  | .argument, .string _ => .err
  | .result, .string t =>
    (toStackElement (σ.setHost tmp (some (.str t))) a tmp T_STRING).bind fun r =>
      .ok (r.1, r.2.setHost tmp (σ.host tmp))
  | _, v => toStackElement σ a v.word v.type

/-! ### Taking values from a script -/

/-- What the host has after taking a value: a number, a truth value, a text, no object (a null pointer), the object at
an address, or a stack element. -/
inductive Seen where
  | int (w : Word)
  | float (w : Word)
  | truth (b : Bool)
  | text (t : List UInt8)
  | nothing
  | object (p : Word)
  | elem (s : Stk)
  deriving DecidableEq, Repr

/-- The object that the element refers to is read: it has to be alive. -/
def deadObject (σ : St) (s : Stk) : Bool :=
  let s := deref σ.world.mem s
  has s.props P_ANY_OBJECT && objOf σ.world.mem s != 0 && (σ.obj (objOf σ.world.mem s)).isNone

/-- What the host reads through the result of `stackElementTo`. `gone`: the element was a local variable of a function that
has returned, so a pointer into it dangles (`ub`). A null value written over a `String` is `ub`. -/
def readConv (σ : St) (gone : Bool) (t : Nat) : Conv → Out Seen
  | .val w =>
    if t = T_INT then .ok (.int w)
    else if t = T_FLOAT then .ok (.float w)
    else if t = T_BOOL then .ok (.truth (w != 0))
    else if t = T_STRING then .ub
    else if w = 0 then .ok .nothing
    else .ok (.object w)
  | .elem s => if gone then .ub else .ok (.elem s)
  | .addr s =>
    if gone then .ub
    else if t = T_INT_PTR then .ok (.int s.value)
    else if t = T_FLOAT_PTR then .ok (.float s.value)
    else .ok (.truth ((s.value &&& 0xFF) != 0))
  | .tmp w => .ok (.float w)
  | .func w => .ok (.object w)
  | .native o =>
    match σ.obj o with
    | none => .ub
    | some ob => if T_CLASS_SO ≤ ob.typeId then
        (if ob.cObject = 0 then .ok .nothing else .ok (.object ob.cObject)) else .ok (.object o)
  | .str o => (textOf σ o).map Seen.text

/-- `stackElementTo` and what is read through its result. `lcl`: the element is a local variable of the caller. -/
def takeWith (σ : St) (lcl : Bool) (s : Stk) (t : Nat) : Out Seen :=
  if deadObject σ s && t != T_STACK_ELEMENT then .ub
  else (convert σ.world s t).bind (readConv σ (lcl && !(has s.props P_PTR_STK)) t)

/-- The ways out of a script. -/
inductive Exit where
  /-- `engine.stackElementTo<T>(StackElement *)`, `ScriptEngine.tcc` 42-61 -/
  | pointer
  /-- `engine.stackElementTo<T>(StackElement)`, `ScriptEngine.tcc` 101-104 -/
  | value
  /-- the result of a bound script function: `checkAndConvertStackElement`, `ScriptEngine.tcc` 106-136 -/
  | bound
  /-- a parameter of a native function, `vm_native_function.cpp` 398-424 -/
  | parameter
  deriving DecidableEq, Repr

/-- The refusal of `checkAndConvertStackElement`, `ScriptEngine.tcc` 112-119. -/
def madeByScript (σ : St) (s : Stk) (t : Nat) : Out Bool :=
  if t ≥ T_MAX ∧ has s.props P_OBJECT = true then
    match σ.obj s.value with | some o => .ok o.byCtor | none => .ub
  else .ok false

/-- `bindScriptFunction` refuses the results `String *` and `const char *` (`ScriptEngine.tcc` 1643-1649), the registration
of native functions refuses parameters of types `zs_float`, `bool` and `String` (`FunctionTraits.h` 237-245). -/
def take (σ : St) (F : FloatOps) : Exit → Stk → Nat → Out Seen
  | .pointer, s, t => takeWith σ false s t
  | .value, s, t => takeWith σ true s t
  | .bound, s, t =>
    if t = T_STRING_PTR ∨ t = T_CONST_CHAR_PTR then .err
    else (madeByScript σ s t).bind fun made => if made then .err else takeWith σ true s t
  | .parameter, s, t =>
    if t = T_FLOAT ∨ t = T_BOOL ∨ t = T_STRING then .err
    else if has (deref σ.world.mem s).props P_INT && t == T_FLOAT_PTR then
      .ok (.float (F.ofInt (deref σ.world.mem s).value.toInt))
    else takeWith σ false s t

/-! ### Arrays in the hands of the host -/

/-- `vm_create_shared_object`, `vm_share_manager.cpp` 7-44: refuses constants and objects that are shared already. -/
def createShared (σ : St) (a : Word) : Out St :=
  match σ.obj a with
  | none => .ub
  | some o => if o.konst then .err else if o.shared then .err else .ok (σ.setObj a { o with shared := true })

/-- The value made of what the host passes, and its sharing: the first half of `ArrayScriptObject::push` and `set`,
`ArrayScriptObject.tcc` 31-37, 44-50. -/
def giveShared (σ : St) (a tmp : Word) (v : HVal) : Out (Stk × St) :=
  (give σ a tmp .element v).bind fun r =>
    if r.1.props = P_OBJECT then (createShared r.2 r.1.value).bind fun σ' => .ok (r.1, σ') else .ok r

/-- `stackElementAssign`, `ScriptEngine.cpp` 464-497, without the share that the element takes; `c` is the address of the
copy made of a constant text. -/
def assign (σ : St) (c : Word) (s : Stk) : Out (Stk × St) :=
  let s := deref σ.world.mem s
  let s := { s with props := s.props &&& ~~~P_READ_ONLY }
  if has s.props P_OBJECT then
    match σ.obj s.value with
    | none => .ub
    | some o =>
      if o.typeId = T_STRING_SO && o.konst then
        (textOf σ s.value).bind fun x => (setText (σ.setObj c { typeId := T_STRING_SO, shared := true }) c x).bind fun σ' =>
          .ok (⟨c, P_OBJECT⟩, σ')
      else .ok (⟨s.value, P_OBJECT⟩, σ)
  else .ok (s, σ)

/-- What the host does: change its own memory, or put a value of its own into the array. `a`, `c`, `tmp`: the addresses
that new objects and the temporary get. -/
inductive Op where
  | host (p : Word) (c : Option Cell)
  | push (a c tmp : Word) (v : HVal)
  | set (a c tmp : Word) (i : Int) (v : HVal)
  deriving Repr

/-- `ArrayScriptObject::push<T>`, `ArrayScriptObject.tcc` 42-55. -/
def push (σ : St) (arr : List Stk) (a c tmp : Word) (v : HVal) : Out (St × List Stk) :=
  (giveShared σ a tmp v).bind fun r => (assign r.2 c r.1).bind fun q => .ok (q.2, arr ++ [q.1])

/-- `ArrayScriptObject::set<T>`, `ArrayScriptObject.tcc` 26-40, with `setStackElementByIndex`, `ArrayScriptObject.cpp` 49-61,
and the range check of `Vector::get` (`Vector.tcc` 101-106), which is the one that refuses negative indices. -/
def set (σ : St) (arr : List Stk) (a c tmp : Word) (i : Int) (v : HVal) : Out (St × List Stk) :=
  if i ≥ arr.length then .err
  else
    (giveShared σ a tmp v).bind fun r =>
      if i < 0 then .err
      else (assign r.2 c r.1).bind fun q => .ok (q.2, arr.set i.toNat q.1)

/-- `ArrayScriptObject::get<T>`, `ArrayScriptObject.tcc` 17-24. -/
def get (σ : St) (arr : List Stk) (i : Int) (t : Nat) : Out Seen :=
  if i ≥ arr.length then .err
  else if i < 0 then .err
  else match arr[i.toNat]? with | some s => takeWith σ false s t | none => .ub

/-- One thing the host does. An error is an exception that the host catches: the array is as before. (What
`set` made or shared before it refused a negative index is not in the array; it is left out.) -/
def step (σ : St) (arr : List Stk) : Op → Out (St × List Stk)
  | .host p c => .ok (σ.setHost p c, arr)
  | .push a c tmp v => match push σ arr a c tmp v with | .err => .ok (σ, arr) | r => r
  | .set a c tmp i v => match set σ arr a c tmp i v with | .err => .ok (σ, arr) | r => r

/-- A history. -/
def run (σ : St) (arr : List Stk) : List Op → Out (St × List Stk)
  | [] => .ok (σ, arr)
  | o :: os => (step σ arr o).bind fun r => run r.1 r.2 os

end Verif.Vm.Bridge
