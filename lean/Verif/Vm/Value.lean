import Verif.Common
import Verif.Vm.Float
/-
Model of the stack element (`src/core/StackElement.h`, `StackElement.cpp`): one 64-bit word and a 16-bit
set of property flags.
-/
namespace Verif.Vm
open Verif

/-- `StackElement::properties`, `uint16_t`. -/
abbrev Props := BitVec 16

/-! Flags, `StackElement.h` 68-91. -/
def P_UNDEFINED : Props := 0x0000
def P_NULL : Props := 0x0001
def P_CHAR_PTR : Props := 0x0002
def P_INT : Props := 0x0004
def P_FLOAT : Props := 0x0008
def P_BOOL : Props := 0x0010
def P_TYPE : Props := 0x0020
def P_FUNCTION : Props := 0x0040
def P_MEMBER_FUNCTION : Props := 0x0080
def P_MEMBER_PROPERTY : Props := 0x0100
def P_OBJECT : Props := 0x0200
def P_CONTAINER_SLOT : Props := 0x0400
def P_OBJECT_IN_CONTAINER : Props := 0x0800
def P_PTR_STK : Props := 0x1000
def P_READ_ONLY : Props := 0x2000

/-- `STACK_ELEMENT_PRIMITIVE_TYPE_PROPERTIES`, `StackElement.h` 7-8: `FUNCTION - 1`. -/
def primitive (p : Props) : Props := p &&& (P_FUNCTION - 1)

/-- `p & f` used as a condition. -/
def has (p f : Props) : Bool := (p &&& f) != 0

/-- `struct StackElement`, `StackElement.h` 93-106. -/
structure Stk where
  value : Word
  props : Props
  deriving DecidableEq, Repr

/-! Built-in type ids, `src/core/type/ScriptTypeId.h`. -/
def T_UNDEFINED : Nat := 1
def T_NULL : Nat := 2
def T_INT : Nat := 4
def T_STRING_PTR : Nat := 9
def T_BOOL : Nat := 10
def T_FLOAT : Nat := 12
def T_SCRIPT_FUNCTION : Nat := 16
def T_VAR_REF : Nat := 17
def T_MEMBER_FUNCTION : Nat := 18
def T_STRING_SO : Nat := 20
def T_ARRAY_SO : Nat := 24
def T_OBJECT_SO : Nat := 25
def T_CLASS_SO : Nat := 26

/-- What the operations below look at in a heap object: its type id and, for a string object, its text
(bytes before the terminator). -/
structure ObjInfo where
  typeId : Nat
  text : List UInt8 := []

/-- Memory as seen by the operations: the object at an address, the stack element at an address, and the
object a container slot (`ContainerSlot::getSrcContainerRef`) refers to. -/
structure Mem where
  obj : Word → ObjInfo
  stk : Word → Stk
  slot : Word → Word

/-- `OBJECT | OBJECT_IN_CONTAINER` and the given type id: the `STACK_ELEMENT_IS_..._SCRIPT_OBJECT` macros,
`StackElement.h` 13-24. -/
def isObjOf (m : Mem) (t : Nat) (s : Stk) : Bool :=
  has s.props (P_OBJECT ||| P_OBJECT_IN_CONTAINER) && (m.obj s.value).typeId == t

def isStr (m : Mem) (s : Stk) : Bool := isObjOf m T_STRING_SO s
def isArr (m : Mem) (s : Stk) : Bool := isObjOf m T_ARRAY_SO s
def isDict (m : Mem) (s : Stk) : Bool := isObjOf m T_OBJECT_SO s

/-! Values as pushed by `vm_push_stk.h` 5-45. -/
def mkUndefined : Stk := ⟨0, P_UNDEFINED⟩
def mkNull : Stk := ⟨0, P_NULL⟩
def mkInt (w : Word) : Stk := ⟨w, P_INT⟩
def mkFloat (w : Word) : Stk := ⟨w, P_FLOAT⟩
def mkBool (b : Bool) : Stk := ⟨if b then 1 else 0, P_BOOL⟩
def mkType (i : Word) : Stk := ⟨i, P_TYPE⟩
def mkFunction (f : Word) : Stk := ⟨f, P_FUNCTION⟩
def mkObject (o : Word) : Stk := ⟨o, P_OBJECT⟩

/-- `StackElement::typeOf`, `StackElement.cpp` 25-54. The result's `value` is a type id (-1 if none of the
tests succeeds). -/
def typeOf (m : Mem) (s : Stk) : Stk :=
  let s := if has s.props P_PTR_STK then m.stk s.value else s
  if s.props = P_UNDEFINED then mkType (BitVec.ofNat 64 T_UNDEFINED)
  else if s.props = P_NULL then mkType (BitVec.ofNat 64 T_NULL)
  else if has s.props P_INT then mkType (BitVec.ofNat 64 T_INT)
  else if has s.props P_FLOAT then mkType (BitVec.ofNat 64 T_FLOAT)
  else if has s.props P_BOOL then mkType (BitVec.ofNat 64 T_BOOL)
  else if has s.props (P_FUNCTION ||| P_MEMBER_FUNCTION) then mkType (BitVec.ofNat 64 T_SCRIPT_FUNCTION)
  else if has s.props P_TYPE then s
  else if has s.props P_CONTAINER_SLOT then mkType (BitVec.ofNat 64 (m.obj (m.slot s.value)).typeId)
  else if has s.props (P_OBJECT ||| P_OBJECT_IN_CONTAINER) then
    mkType (BitVec.ofNat 64 (m.obj s.value).typeId)
  else mkType (-1)

/-- `ScriptEngine::unwrapStackElement`, `ScriptEngine.cpp` 369-387. -/
def unwrap (m : Mem) (s : Stk) : Stk :=
  let s := if has s.props P_PTR_STK then m.stk s.value else s
  let s := if has s.props P_CONTAINER_SLOT then ⟨m.slot s.value, P_OBJECT⟩ else s
  let s := if has s.props P_READ_ONLY then { s with props := s.props &&& ~~~P_READ_ONLY } else s
  if has s.props P_OBJECT_IN_CONTAINER then { s with props := P_OBJECT } else s

end Verif.Vm
