import Verif.Vm.Operation
import Verif.Base.Str
/-
Model of `vm_store` (`src/vm/vm_store.cpp`): the byte codes `STORE n` and `STORE_CONST`, i.e. plain
assignment, multi-assignment and constant declaration.

Not modelled here: reference counting (`vm_create_shared_object`, `vm_share_object`,
`vm_unref_shared_object`; see `Verif.Vm.Share`), the execution of user-defined setters (reported as `setter`) and
the bookkeeping of container slots (assigning an array or object to an element of an array or object,
`vm_assign_container_slot`, reported as `slot`).
-/
namespace Verif.Vm
open Verif

/-- Memory with what `vm_store` also looks at: the element a `VarRefObject` refers to, the element a
container slot stands for, and whether a class object has `_set` metamethods. -/
structure World extends Mem where
  refStk : Word → Word
  slotPtr : Word → Word
  hasSetter : Word → Bool

/-- Write the stack element at address `p`. -/
def World.setStk (w : World) (p : Word) (s : Stk) : World :=
  { w with stk := fun q => if q = p then s else w.stk q }

/-- Write the text of the string object at address `a` (its type id becomes that of strings: it is either
a string already or a new object). -/
def World.setText (w : World) (a : Word) (t : List UInt8) : World :=
  { w with obj := fun b => if b = a then ⟨T_STRING_SO, t⟩ else w.obj b }

/-- Result of storing one value. -/
inductive SEff where
  | ok (w : World)
  /-- a character of a string is overwritten, `vm_store.cpp` 233 -/
  | char (p : Word) (c : UInt8)
  /-- a user-defined setter is called, 71-205 -/
  | setter
  /-- container slot bookkeeping, 304 -/
  | slot
  | err

/-- Where a destination operand points, `vm_store.cpp` 45-62: the address of a stack element (and whether it
was reached through a container slot), the operand itself for a character pointer, or an error. -/
inductive Dst where
  | elem (p : Word) (viaSlot : Option Word)
  | temp
  | err

/-- `vm_store.cpp` 45-62. -/
def resolveDst (w : World) (dst : Stk) : Dst :=
  let d : Stk := if isObjOf w.toMem T_VAR_REF dst then w.stk (w.refStk dst.value) else dst
  if has d.props P_PTR_STK then .elem d.value none
  else if has d.props P_CONTAINER_SLOT then .elem (w.slotPtr d.value) (some d.value)
  else if has d.props P_CHAR_PTR then .temp
  else .err

/-- `ZS_VM_CHECK_CONTAINER_FOR_SLOT`: arrays, plain objects and class objects. -/
def isContainerType (t : Nat) : Bool := t == T_ARRAY_SO || t == T_OBJECT_SO || T_CLASS_SO ≤ t

/-- The text given to a string by `StringScriptObject::set` (`StringScriptObject.cpp` 302-304): unescaped. -/
def setTextOf (t : List UInt8) : List UInt8 := Str.unescapeChars t

/-- What is stored at the destination element at address `p`, `vm_store.cpp` 209-345. `new` is the address
of the string object allocated at line 259 if one is needed. `readText` gives the characters at a
character pointer. -/
def storeElem (w : World) (new : Word) (readText : Word → List UInt8) (src0 : Stk) (p : Word)
    (viaSlot : Option Word) : SEff :=
  let dst := w.stk p
  let src := if has src0.props P_PTR_STK then w.stk src0.value else src0
  let sp := if has src.props P_OBJECT_IN_CONTAINER then P_OBJECT else src.props
  if sp = P_UNDEFINED then .ok (w.setStk p ⟨0, P_UNDEFINED⟩)
  else if sp = P_NULL then .ok (w.setStk p ⟨0, P_NULL⟩)
  else if has sp P_INT then
    if has dst.props P_CHAR_PTR then .char dst.value (UInt8.ofNat src.value.toNat)
    else .ok (w.setStk p ⟨src.value, P_INT⟩)
  else if has sp P_FLOAT then .ok (w.setStk p ⟨src.value, P_FLOAT⟩)
  else if has sp P_BOOL then .ok (w.setStk p ⟨src.value, P_BOOL⟩)
  else if has sp (P_FUNCTION ||| P_TYPE ||| P_MEMBER_FUNCTION) then .ok (w.setStk p src)
  else if isStr w.toMem src || has sp P_CHAR_PTR then
    let text := if has sp P_CHAR_PTR then readText src.value else (w.obj src.value).text
    if isStr w.toMem dst then .ok (w.setText dst.value (setTextOf text))
    else .ok ((w.setText new (setTextOf text)).setStk p ⟨new, P_OBJECT⟩)
  else if has sp (P_OBJECT ||| P_CONTAINER_SLOT) then
    let o := if has sp P_CONTAINER_SLOT then w.slot src.value else src.value
    let same := match viaSlot with
      | some s => w.slot s == o
      | none => dst.value == o
    if same then .ok w
    else if isContainerType (w.obj o).typeId && viaSlot.isSome then .slot
    else .ok (w.setStk p ⟨o, P_OBJECT⟩)
  else .err

/-- One destination of `vm_store`, `vm_store.cpp` 38-366. `const` = `STORE_CONST`. -/
def storeOne (w : World) (const : Bool) (new : Word) (readText : Word → List UInt8) (src dst : Stk) : SEff :=
  match resolveDst w dst with
  | .err => .err
  | .temp =>
    -- the operand itself (a character pointer) is the destination: only an integer has a lasting effect
    let s := if has src.props P_PTR_STK then w.stk src.value else src
    if has s.props P_INT then .char dst.value (UInt8.ofNat s.value.toNat) else .ok w
  | .elem p viaSlot =>
    let d := w.stk p
    if has d.props P_READ_ONLY then .err
    else if has d.props P_OBJECT && T_CLASS_SO ≤ (w.obj d.value).typeId && w.hasSetter d.value then .setter
    else if has d.props P_MEMBER_PROPERTY then .setter
    else
      match storeElem w new readText src p viaSlot with
      | .ok w' =>
        if const then .ok (w'.setStk p { w'.stk p with props := (w'.stk p).props ||| P_READ_ONLY }) else .ok w'
      | e => e

/-- The loop of `vm_store` (`vm_store_next`, 38 and 368-372): sources in stack order, destinations from the
top of the stack. Each step may allocate one string object. Stops at the first step that is not `ok`. -/
def storeMany (w : World) (const : Bool) (readText : Word → List UInt8) : List (Word × Stk × Stk) → SEff
  | [] => .ok w
  | (new, src, dst) :: rest =>
    match storeOne w const new readText src dst with
    | .ok w' => storeMany w' const readText rest
    | e => e

/-- The operand stack built for `l_0, …, l_{n-1} = r_0, …, r_{m-1}` (`compiler_expression.cpp` 349-403): right
sides in reverse order, missing ones `undefined`, then the destinations in order. -/
def assignStack (lefts rights : List Stk) : List Stk :=
  let k := max lefts.length rights.length
  (rights ++ List.replicate (k - rights.length) mkUndefined).reverse ++ lefts

/-- How `STORE n` pairs the elements of the operand stack (`vm_store.cpp` 30-36, 368-372): the sources are
the elements from `2n` below the top upwards, the destinations are popped from the top. -/
def storePairs {α : Type} (n : Nat) (stack : List α) : List (α × α) :=
  (stack.drop (stack.length - 2 * n)).take n |>.zip (stack.reverse.take n)

end Verif.Vm
