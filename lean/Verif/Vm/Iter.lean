import Verif.Vm.Store
import Verif.Vm.Container
import Verif.Base.Map
import Verif.Base.Str
/-
Model of iteration (`for(.. in ..)`) and of the operator `in`: the iterator objects
(`src/core/object/{Array,String,Object}IteratorScriptObject.cpp`), `src/vm/vm_iterator.cpp`, the code emitted for the loop
(`src/compiler/compiler_keyword_loop.cpp` 405-665) and the hand-over of the values a native function pushed
(`src/vm/vm_native_function.cpp` 925-941, `src/vm/vm_call.cpp` 605-638).

Simplifications: iterators written in script (`_iter`, `_get`, `_next`, `_end` of classes) are not described; a field of an
object is described with its content, not with the address of its element.
-/
namespace Verif.Vm.Iter
open Verif

/-- An element as the loop sees it: a stack element, or a `CHAR_PTR` element shown with the characters it points to. -/
inductive El where
  | stk (s : Stk)
  | chars (k : List UInt8)
  deriving DecidableEq, Repr

/-- The values pushed for a call of a native function that expects `m` values, bottom first. `pushed` = what the function
pushed, `result` = its return value as an element (`undefined` for `void`), which is pushed last and whose block is then
reversed (`vm_native_function.cpp` 925-941). The caller appends `undefined` for missing values, reverses again and takes the
first `m` (`vm_call.cpp` 613-636). -/
def nativeReturn (pushed : List El) (result : El) (m : Nat) : List El :=
  let block := (pushed ++ [result]).reverse
  let block := block ++ List.replicate (m - block.length) (.stk mkUndefined)
  block.reverse.take m

/-- What one round assigns: the call of `_get` expecting as many values as there are loop variables, their
addresses, and the pairing of `STORE` (`compiler_keyword_loop.cpp` 608-648; `vm_store.cpp` 30-36): pairs (value, variable). -/
def assigned (lefts : List El) (pushed : List El) : List (El × El) :=
  storePairs lefts.length (nativeReturn pushed (.stk mkUndefined) lefts.length ++ lefts)

/-- The loop after `IT_INIT`: `_end`, `_get` and the stores, body, `_next` (`compiler_keyword_loop.cpp` 577-663). `σ` is
everything else; `body` runs the body of the loop given what was assigned. `none` = not ended after `fuel` rounds. Result: what
each round assigned, and the final state. -/
def loop {I σ : Type} (fin : I → σ → Out Bool) (get : I → σ → Out (I × List El)) (next : I → σ → Out I)
    (lefts : List El) (body : List (El × El) → σ → Out σ) :
    Nat → I → σ → Option (Out (List (List (El × El)) × σ))
  | 0, _, _ => none
  | n + 1, i, s =>
    match fin i s with
    | .ub => some .ub
    | .err => some .err
    | .ok true => some (.ok ([], s))
    | .ok false =>
      match get i s with
      | .ub => some .ub
      | .err => some .err
      | .ok (i, vs) =>
        match body (assigned lefts vs) s with
        | .ub => some .ub
        | .err => some .err
        | .ok s =>
          match next i s with
          | .ub => some .ub
          | .err => some .err
          | .ok i => (loop fin get next lefts body n i s).map fun o => o.map fun r => (assigned lefts vs :: r.1, r.2)

/-- `IT_INIT`, `vm_iterator.cpp` 28-53: only an object, or a slot of a container, is accepted as container. -/
def itInit (container : Stk) : Out Unit :=
  if has container.props (P_OBJECT ||| P_CONTAINER_SLOT) then .ok () else .err

/-! ### Array iterator, `ArrayIteratorScriptObject.cpp`. The attached array is `none` once it was destroyed
(`RefScriptObject.cpp` 44-50). -/

/-- Fields `idx` and `stk_value`. -/
structure ArrIt where
  idx : Nat
  value : Stk
  deriving DecidableEq, Repr

/-- Constructor, 18-27; the value word is not initialised. -/
def ArrIt.start (garbage : Word) : ArrIt := ⟨0, ⟨garbage, P_INT⟩⟩

/-- `get`, 29-46: pushes value, then key. -/
def ArrIt.get (arr : Option (List Stk)) (it : ArrIt) : Out (ArrIt × List El) :=
  match arr with
  | none => .err
  | some a =>
    let v := match a[it.idx]? with | some e => e | none => it.value
    .ok (⟨it.idx, v⟩, [.stk v, .stk (mkInt (BitVec.ofNat 64 it.idx))])

/-- `next`, 48-57. -/
def ArrIt.next (arr : Option (List Stk)) (it : ArrIt) : Out ArrIt :=
  match arr with
  | none => .err
  | some a => .ok (if it.idx < a.length then ⟨it.idx + 1, it.value⟩ else it)

/-- `end`, 59-65. -/
def ArrIt.fin (arr : Option (List Stk)) (it : ArrIt) : Out Bool :=
  match arr with
  | none => .err
  | some a => .ok (decide (a.length ≤ it.idx))

/-- `for(lefts in container) body` on an array; `view` reads the array's elements from the state. -/
def forArray {σ : Type} (view : σ → Option (List Stk)) (garbage : Word) (container : Stk) (lefts : List El)
    (body : List (El × El) → σ → Out σ) (fuel : Nat) (s : σ) : Option (Out (List (List (El × El)) × σ)) :=
  match itInit container with
  | .ub => some .ub
  | .err => some .err
  | .ok _ => loop (fun i s => ArrIt.fin (view s) i) (fun i s => ArrIt.get (view s) i) (fun i s => ArrIt.next (view s) i)
      lefts body fuel (ArrIt.start garbage) s

/-! ### String iterator, `StringIteratorScriptObject.cpp` -/

/-- A `char` converted to `zs_int` (`char` is signed). -/
def charCode (c : UInt8) : Word := BitVec.signExtend 64 c.toBitVec

/-- `get`, 27-46. -/
def strGet (str : Option (List UInt8)) (it : ArrIt) : Out (ArrIt × List El) :=
  match str with
  | none => .err
  | some t =>
    let v := match t[it.idx]? with | some c => ⟨charCode c, it.value.props⟩ | none => it.value
    .ok (⟨it.idx, v⟩, [.stk v, .stk (mkInt (BitVec.ofNat 64 it.idx))])

/-- `next`, 48-57. -/
def strNext (str : Option (List UInt8)) (it : ArrIt) : Out ArrIt :=
  match str with
  | none => .err
  | some t => .ok (if it.idx < t.length then ⟨it.idx + 1, it.value⟩ else it)

/-- `end`, 59-65. -/
def strFin (str : Option (List UInt8)) (it : ArrIt) : Out Bool :=
  match str with
  | none => .err
  | some t => .ok (decide (t.length ≤ it.idx))

/-- `for(lefts in container) body` on a string. -/
def forString {σ : Type} (view : σ → Option (List UInt8)) (garbage : Word) (container : Stk) (lefts : List El)
    (body : List (El × El) → σ → Out σ) (fuel : Nat) (s : σ) : Option (Out (List (List (El × El)) × σ)) :=
  match itInit container with
  | .ub => some .ub
  | .err => some .err
  | .ok _ => loop (fun i s => strFin (view s) i) (fun i s => strGet (view s) i) (fun i s => strNext (view s) i)
      lefts body fuel (ArrIt.start garbage) s

/-! ### Object iterator, `ObjectIteratorScriptObject.cpp` and `src/base/MapStringIterator.cpp` -/

abbrev Fields := Map.MapS (List UInt8) Stk

/-- Whether the node is still allocated: it belongs to an item of the map (`MapString::erase` and `clear` free the
nodes, `MapString.cpp` 227-228, 254-268). -/
def live (m : Fields) (n : Nat) : Bool :=
  (m.items.take m.count).any fun c => match c with | some (_, x) => x == n | none => false

/-- `current_node` and `_end`. -/
structure ObjIt where
  cur : Option Nat
  fin : Bool
  deriving DecidableEq, Repr

/-- `MapString::begin`, `MapStringIterator.cpp` 21-30. -/
def ObjIt.start (m : Fields) : ObjIt := ⟨m.hdr.first, m.hdr.first.isNone⟩

/-- `get`, `ObjectIteratorScriptObject.cpp` 37-48, with the pair read from the node (`setCurrentPair`): nothing is pushed
at the end. -/
def ObjIt.get (obj : Option Fields) (it : ObjIt) : Out (ObjIt × List El) :=
  match obj with
  | none => .err
  | some m =>
    if it.fin then .ok (it, [])
    else
      match it.cur with
      | none => .ub
      | some n =>
        if live m n then
          match m.nkey n, m.nval n with
          | some k, some v => .ok (it, [.stk v, .chars k])
          | _, _ => .ub
        else .ub

/-- `next`, `ObjectIteratorScriptObject.cpp` 51-56 and `MapStringIterator.cpp` 41-52: the current node is read; reading a
node that was freed is undefined. -/
def ObjIt.next (obj : Option Fields) (it : ObjIt) : Out ObjIt :=
  match obj with
  | none => .err
  | some m =>
    match it.cur with
    | none => .ok it
    | some n =>
      if live m n then
        match m.heap.next n with
        | some x => .ok ⟨some x, decide (some x = m.hdr.first)⟩
        | none => .ub
      else .ub

/-- `end`, `ObjectIteratorScriptObject.cpp` 29-34. -/
def ObjIt.ended (obj : Option Fields) (it : ObjIt) : Out Bool :=
  match obj with
  | none => .err
  | some _ => .ok it.fin

/-- `for(lefts in container) body` on an object. -/
def forObject {σ : Type} (view : σ → Option Fields) (container : Stk) (lefts : List El)
    (body : List (El × El) → σ → Out σ) (fuel : Nat) (s : σ) : Option (Out (List (List (El × El)) × σ)) :=
  match itInit container with
  | .ub => some .ub
  | .err => some .err
  | .ok _ =>
    match view s with
    | none => some .ub
    | some m => loop (fun i s => ObjIt.ended (view s) i) (fun i s => ObjIt.get (view s) i) (fun i s => ObjIt.next (view s) i)
        lefts body fuel (ObjIt.start m) s

/-! ### Operator `in` -/

/-- What `in` reads of containers besides the elements. -/
structure InMem extends Mem where
  elems : Word → List Stk
  fields : Word → Fields

/-- `StringScriptObjectZs_contains(.., zs_int)`, `StringScriptObjectZs.cpp` 21-24: `strchr` looks for the low byte of its
argument and also finds the terminator. -/
def hasChar (t : List UInt8) (ch : Word) : Bool :=
  let c : UInt8 := UInt8.ofNat (ch.toNat % 256)
  c == 0 || t.any (· == c)

/-- `vm_perform_in_operator`, `vm_iterator.cpp` 126-222, for built-in containers: `none` = nothing is pushed. `a` and `b`
are the operands as they are on the stack. A left operand that is an object but no string is read as a string when
the right one is an object. Metamethods are not described (`err`). -/
def inOp (m : InMem) (a b : Stk) : Out (Option Bool) :=
  let a' := unwrap m.toMem a
  let b' := unwrap m.toMem b
  if has b'.props P_OBJECT then
    let t := (m.obj b'.value).typeId
    if t = T_STRING_SO then
      if has a.props P_INT then .ok (some (hasChar (m.obj b'.value).text a.value))
      else if isStr m.toMem a' then
        (Str.contains (Str.ofChars (m.obj b'.value).text) (Str.ofChars (m.obj a'.value).text)).map some
      else .err
    else if t = T_ARRAY_SO then .ok (some (arrContains m.toMem a' (m.elems b'.value)))
    else if t = T_OBJECT_SO then
      if has a.props P_OBJECT then
        if isStr m.toMem a' then (Map.exist (m.fields b'.value) (m.obj a'.value).text).map some else .ub
      else .ok none
    else .err
  else .err

end Verif.Vm.Iter
