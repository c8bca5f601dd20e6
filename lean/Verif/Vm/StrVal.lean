import Verif.Common
import Verif.Base.Str
/-
Model of strings as values of scripts: how assignment, `+=`, `+`, containers, parameters, operators of classes and the
methods of strings move a text from one place to another, and which places then refer to the same object.

A *place* is anything of a script that holds a value and can be named: a variable, a parameter, an element of an array,
a field of an object.

Simplified: a value is undefined, an integer or a string (see `Verif.Vm.Share`, `Slots` for objects); integers are
unbounded; objects are not freed (a freed string is a string no place refers to); a text has no terminator in it
(`stackElementAssign` reads a literal up to one).
-/
namespace Verif.Vm.StrVal
open Verif

abbrev Text := List UInt8

/-- The object of a literal or one made while the script runs. -/
inductive Addr where
  /-- `k`-th literal of the script: one object for each text, made when the script is compiled
  (`registerStkConstantStringScriptObject`, `src/ScriptEngine.cpp` 1073-1107). -/
  | lit (k : Nat)
  | dyn (n : Nat)
  deriving DecidableEq, Repr

/-- A stack element, `src/core/StackElement.h`. -/
inductive Val where
  | undef
  | int (n : Int)
  | str (a : Addr)
  deriving DecidableEq, Repr

/-- What runs: the texts of the string objects (`StringScriptObject::str_ptr`,
`src/core/object/StringScriptObject.h`), the number of objects made so far, the places and which of them are
`READ_ONLY`. -/
structure St where
  heap : Addr → Text
  cnt : Nat
  place : Nat → Val
  ro : Nat → Bool

/-- `f` changed at `x`. -/
def upd {α : Type u} {β : Type v} [DecidableEq α] (f : α → β) (x : α) (y : β) : α → β :=
  fun z => if z = x then y else f z

/-- Expressions. -/
inductive Src where
  | undef
  | int (n : Int)
  /-- a literal -/
  | lit (k : Nat)
  /-- the value of a place -/
  | place (q : Nat)
  | add (a b : Src)
  /-- a method that gives a new string (`toUpperCase`, `replace`, `substring`, ...); `f` is what it does to the text -/
  | meth (f : Text → Text) (a : Src)

/-- Statements. -/
inductive Stmt where
  /-- `p = e` -/
  | store (p : Nat) (e : Src)
  /-- `p` is a new element of a container (`[e]`, `{p : e}`, `push(e)`) or the parameter of a function called with `e` -/
  | share (p : Nat) (e : Src)
  /-- `p += e` -/
  | append (p : Nat) (e : Src)
  /-- a method that edits the text of `p` (`append`, `insertAt`, `eraseAt`, `clear`) -/
  | edit (p : Nat) (f : Text → Text)
  /-- the same on a literal: `"abc".append("d")` -/
  | editLit (k : Nat) (f : Text → Text)
  /-- `o.x = "abc"` where `x` has a setter: `p` is the parameter of the setter -/
  | setter (p : Nat) (k : Nat)
  /-- `o - e` where the class of `o` defines the operator in the script: `p` is the parameter of that function -/
  | operand (p : Nat) (e : Src)

/-- `StringScriptObject::set`, `src/core/object/StringScriptObject.cpp` 301-303: the text is unescaped. -/
def setText (t : Text) : Text := Str.unescapeChars t

/-- `ZS_NEW_STRING_SCRIPT_OBJECT` followed by `set`. -/
def newStr (σ : St) (t : Text) : Val × St :=
  (.str (.dyn σ.cnt), { σ with heap := upd σ.heap (.dyn σ.cnt) (setText t), cnt := σ.cnt + 1 })

/-- Text of the element in a concatenation: `toString` of the string object or `stackElementValueToString`
(`src/ScriptEngine.cpp` 389-440); `N` writes an integer (`Verif.Base.Integer`). `"undefined"`. -/
def textOf (N : Int → Text) (σ : St) : Val → Text
  | .undef => [117, 110, 100, 101, 102, 105, 110, 101, 100]
  | .int n => N n
  | .str a => σ.heap a

/-- Evaluation of an expression: `LOAD_STRING` pushes the object of the literal
(`src/vm/vm_script_function.cpp` 345-348), a variable is read where it is, `+` is `ZS_VM_OPERATION_ADD` and, with a
string on one side, `newStringScriptObjectAddStk` (`src/vm/vm_call_metamethod.cpp` 38-46,
`src/core/object/StringScriptObject.cpp` 27-80), the methods are those of
`src/core/object/StringScriptObjectZs.cpp` (139-149 and others). -/
def eval (N : Int → Text) (σ : St) : Src → Out (Val × St)
  | .undef => .ok (.undef, σ)
  | .int n => .ok (.int n, σ)
  | .lit k => .ok (.str (.lit k), σ)
  | .place q => .ok (σ.place q, σ)
  | .add a b =>
    (eval N σ a).bind fun (v, σ1) =>
    (eval N σ1 b).bind fun (w, σ2) =>
    match v, w with
    | .int m, .int n => .ok (.int (m + n), σ2)
    | .str _, _ => .ok (newStr σ2 (textOf N σ2 v ++ textOf N σ2 w))
    | _, .str _ => .ok (newStr σ2 (textOf N σ2 v ++ textOf N σ2 w))
    | _, _ => .err
  | .meth f a =>
    (eval N σ a).bind fun (v, σ1) =>
    match v with
    | .str c => .ok (newStr σ1 (f (σ1.heap c)))
    | _ => .err

/-- `vm_store`, `src/vm/vm_store.cpp` 225-271: a string is written into the string object the place refers to, or else
into a new one; anything else replaces what the place refers to. A `READ_ONLY` place is refused. -/
def store (σ : St) (p : Nat) (v : Val) : Out St :=
  if σ.ro p then .err
  else match v with
    | .str a =>
      match σ.place p with
      | .str b => .ok { σ with heap := upd σ.heap b (setText (σ.heap a)) }
      | _ =>
        let (w, σ1) := newStr σ (σ.heap a)
        .ok { σ1 with place := upd σ1.place p w }
    | _ => .ok { σ with place := upd σ.place p v }

/-- `stackElementAssign`, `src/ScriptEngine.cpp` 464-497, and a parameter that is not `ref`, `src/vm/vm_call.cpp` 334-357:
the place refers to the object itself, unless it is that of a literal, which is copied. -/
def share (σ : St) (p : Nat) (v : Val) : St :=
  match v with
  | .str (.lit k) =>
    let (w, σ1) := newStr σ (σ.heap (.lit k))
    { σ1 with place := upd σ1.place p w, ro := upd σ1.ro p false }
  | v => { σ with place := upd σ.place p v, ro := upd σ.ro p false }

/-- `+=`: `ZS_VM_OPERATION_ADD_ASSIGN` for two integers, `vm_call_metamethod_set` for a string
(`src/vm/vm_call_metamethod.cpp` 281-287), which adds to the object the place refers to. Nothing asks whether the place
is `READ_ONLY`. -/
def append (N : Int → Text) (σ : St) (p : Nat) (v : Val) : Out St :=
  match σ.place p, v with
  | .str a, v => .ok { σ with heap := upd σ.heap a (σ.heap a ++ textOf N σ v) }
  | .int m, .int n => .ok { σ with place := upd σ.place p (.int (m + n)) }
  | _, _ => .err

/-- One statement. The methods that edit are those of `src/core/object/StringScriptObjectZs.cpp` (129-137 and others),
called on the object that `vm_load_field` found (`src/vm/vm_container.cpp` 87-150). A setter's parameter is the element
itself (`src/vm/vm_store.cpp` 188-196), the parameter of an operator is shared first
(`src/vm/vm_call_metamethod.cpp` 163-174), and a literal cannot be shared (`src/vm/vm_share_manager.cpp` 75-77). -/
def step (N : Int → Text) (σ : St) : Stmt → Out St
  | .store p e => (eval N σ e).bind fun (v, σ1) => store σ1 p v
  | .share p e => (eval N σ e).bind fun (v, σ1) => .ok (share σ1 p v)
  | .append p e => (eval N σ e).bind fun (v, σ1) => append N σ1 p v
  | .edit p f =>
    match σ.place p with
    | .str a => .ok { σ with heap := upd σ.heap a (f (σ.heap a)) }
    | _ => .err
  | .editLit k f => .ok { σ with heap := upd σ.heap (.lit k) (f (σ.heap (.lit k))) }
  | .setter p k => .ok { σ with place := upd σ.place p (.str (.lit k)), ro := upd σ.ro p true }
  | .operand p e =>
    (eval N σ e).bind fun (v, σ1) =>
    match v with
    | .str (.lit _) => .err
    | v => .ok (share σ1 p v)

/-- A script; it ends at the first error. -/
def run (N : Int → Text) (σ : St) : List Stmt → Out St
  | [] => .ok σ
  | s :: ss => (step N σ s).bind fun σ1 => run N σ1 ss

/-- Nothing has run yet; `L` are the texts of the literals after compilation. -/
def start (L : Nat → Text) : St :=
  { heap := fun | .lit k => L k | .dyn _ => []
    cnt := 0
    place := fun _ => .undef
    ro := fun _ => false }

end Verif.Vm.StrVal
