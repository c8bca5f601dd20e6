import Verif.Vm.Store
import Verif.Base.Vector
import Verif.Base.Map
/-
Arrays and plain objects of the script language: element access (`vm_load_vector_item`,
`src/vm/vm_container.cpp` 534-662), `ArrayScriptObject`, `ObjectScriptObject` and their script interface
(`ArrayScriptObjectZs.cpp`, `ObjectScriptObjectZs.cpp`).

Simplifications: an array is a `Vec Stk`, an object a `MapString` of `Stk`: the separately allocated `StackElement`
each entry points to is replaced by its content. Reference counts are the subject of `Verif.Vm.Share`.
-/
namespace Verif.Vm
open Verif

/-- Conversion of a `zs_int` argument to `int` (implementation defined; all supported compilers keep the low
32 bits). -/
def toInt32 (w : Word) : Int := (w.setWidth 32).toInt

/-- The integer part of a float (C conversion `(int)f`, rounding towards zero); `none` for NaN and infinities. -/
def Ieee.trunc (w : Word) : Option Int :=
  if Ieee.isNaN w || Ieee.isInf w then none else some ((Ieee.scaled w).tdiv (2 ^ 1074))

/-- The `int` index computed from an index operand, `vm_container.cpp` 577-583. Converting a float that does
not fit in an `int` is undefined. -/
def arrayIndexArg (idx : Stk) : Out Int :=
  if has idx.props P_INT then .ok (toInt32 idx.value)
  else if has idx.props P_FLOAT then
    match Ieee.trunc idx.value with
    | some t => if -(2 ^ 31) ≤ t ∧ t < 2 ^ 31 then .ok t else .ub
    | none => .ub
  else .err

/-- The position accessed by `a[idx]` in an array of length `len`, `vm_container.cpp` 574-591. -/
def arrayIndex (len : Nat) (idx : Stk) : Out Nat :=
  (arrayIndexArg idx).bind fun i =>
    if i ≥ (len : Int) ∨ i < 0 then .err else .ok i.toNat

/-- `s[idx]` for a string, `vm_container.cpp` 635-645: the character (a signed `char` widened to `zs_int`) at
the index in the NUL-terminated text `t`; there is no bounds check. -/
def stringLoad (t : List UInt8) (idx : Stk) : Out Stk :=
  if has idx.props P_INT = false then .err
  else
    let i := idx.value.toInt
    if i < 0 then .ub
    else match (t ++ [0])[i.toNat]? with
      | some c => .ok ⟨(c.toBitVec).signExtend 64, P_INT⟩
      | none => .ub

/-! ## `ArrayScriptObject` -/

/-- The calls available to scripts, `ScriptTypesFactory.cpp` 318-329. Positions are `zs_int`. -/
inductive AOp (α : Type u) where
  | push (x : α)
  | pop
  | insertAt (i : Word) (x : α)
  | eraseAt (i : Word)
  | clear
  | length

/-- What the script sees of a call. -/
inductive AObs (α : Type u) where
  | none
  | val (x : α)
  | int (n : Int)
  | err
  deriving DecidableEq, Repr

/-- `ArrayScriptObject::eraseElementAt`, `ArrayScriptObject.cpp` 71-87. An index that is too large only
records an error and goes on: below the capacity it then frees whatever the stale cell points to (undefined),
otherwise `get` throws. -/
def arrErase {α : Type u} (v : Vector.Vec α) (i : Int) : Out (Vector.Vec α) :=
  if i ≥ v.count then
    if Vector.outOfCap v i then .err else .ub
  else (Vector.get v i).bind fun _ => Vector.erase v i

/-- One call: `.err` = undefined behaviour is not reached but the call throws (the array is unchanged). -/
def arrStep {α : Type u} (v : Vector.Vec α) : AOp α → Out (Vector.Vec α × AObs α)
  -- ArrayScriptObject.cpp 96-105
  | .push x => (Vector.push v x).map fun v => (v, .none)
  -- 111-122
  | .pop => (Vector.get v (v.count - 1)).bind fun x => (arrErase v (v.count - 1)).map fun v => (v, .val x)
  -- ArrayScriptObjectZs.cpp 24-31
  | .insertAt i x => (Vector.insert v (toInt32 i) x).map fun v => (v, .none)
  -- ArrayScriptObjectZs.cpp 33-36
  | .eraseAt i => (arrErase v (toInt32 i)).map fun v => (v, .none)
  -- ArrayScriptObject.cpp 89-94
  | .clear => .ok (Vector.clear v, .none)
  | .length => .ok (v, .int v.count)

/-- A history: a thrown error leaves the array as it was and is observed as `err`. -/
def arrRun {α : Type u} (v : Vector.Vec α) : List (AOp α) → Out (Vector.Vec α × List (AObs α))
  | [] => .ok (v, [])
  | op :: ops =>
    match arrStep v op with
    | .ok (v', o) => (arrRun v' ops).map fun r => (r.1, o :: r.2)
    | .err => (arrRun v ops).map fun r => (r.1, .err :: r.2)
    | .ub => .ub

/-- `ScriptEngine::stackElementAssign`, `ScriptEngine.cpp` 464-497: copy an element into a container. `konst`
= the string object is a literal of the program (`SCRIPT_OBJECT_PROPERTY_CONSTANT`), `new` = the string object
allocated for a copy. -/
def elementAssign (w : World) (konst : Word → Bool) (new : Word) (src : Stk) : World × Stk :=
  let d := if has src.props P_PTR_STK then w.stk src.value else src
  let d := { d with props := d.props &&& ~~~P_READ_ONLY }
  if has d.props P_OBJECT then
    if (w.obj d.value).typeId = T_STRING_SO && konst d.value then
      (w.setText new (setTextOf (w.obj d.value).text), ⟨new, P_OBJECT⟩)
    else (w, ⟨d.value, P_OBJECT⟩)
  else (w, d)

/-- `ArrayScriptObject::concat(ArrayScriptObject *_v)`, `ArrayScriptObject.cpp` 124-128, where `_v` is another
array with the elements `src` (and the addresses the allocator would give). -/
def arrConcat (w : World) (konst : Word → Bool) (v : Vector.Vec Stk) : List (Word × Stk) → Out (World × Vector.Vec Stk)
  | [] => .ok (w, v)
  | (new, x) :: rest =>
    let (w', d) := elementAssign w konst new x
    (Vector.push v d).bind fun v' => arrConcat w' konst v' rest

/-- `ArrayScriptObject::concat(engine,v1,v2)` (`a + b` and `Array::concat`), `ArrayScriptObject.cpp` 16-28: a
new array receives the elements of both. -/
def arrPlus (w : World) (konst : Word → Bool) (a b : List (Word × Stk)) : Out (World × Vector.Vec Stk) :=
  (arrConcat w konst Vector.Vec.empty a).bind fun r => arrConcat r.1 konst r.2 b

/-- `a.extend(a)`: the loop of `ArrayScriptObject::concat` when both arrays are the same, so that the bound
grows with every round. `none` = still running after `fuel` rounds; `konst` strings cannot occur in an array. -/
def arrExtendSelf (fuel : Nat) (v : Vector.Vec Stk) (i : Int) : Option (Out (Vector.Vec Stk)) :=
  match fuel with
  | 0 => none
  | fuel + 1 =>
    if i < v.count then
      match (Vector.get v i).bind (fun x => Vector.push v x) with
      | .ok v' => arrExtendSelf fuel v' (i + 1)
      | .err => some .err
      | .ub => some .ub
    else some (.ok v)

/-- `a += b` for two arrays, `vm_call_metamethod.cpp` 288-295: the array is cast to `ObjectScriptObject *` and its
non-existing field map is read. -/
def arrPlusAssign (_v _w : Vector.Vec Stk) : Out (Vector.Vec Stk) := .ub

/-- The comparison of two elements in `ArrayScriptObjectZs_equal`, `ArrayScriptObjectZs.cpp` 123-149. -/
def elemEqual (F : FloatOps) (m : Mem) (a b : Stk) : Bool :=
  let p := a.props ||| b.props
  if p = P_INT ∨ p = P_FLOAT ∨ p = P_BOOL then a.value == b.value
  else if p = P_INT ||| P_FLOAT then
    if has a.props P_INT && has b.props P_FLOAT then F.eq (F.ofInt a.value.toInt) b.value
    else F.eq a.value (F.ofInt b.value.toInt)
  else if p = P_OBJECT then
    if isStr m a && isStr m b then (m.obj a.value).text == (m.obj b.value).text
    else a.value == b.value
  else false

/-- The loop of `ArrayScriptObjectZs_equal`, 118-152: stops at the first difference. -/
def equalLoop (F : FloatOps) (m : Mem) : List Stk → List Stk → Bool
  | a :: as, b :: bs => if elemEqual F m a b then equalLoop F m as bs else false
  | _, _ => true

/-- `ArrayScriptObjectZs_equal`, 107-154 (`==` on arrays). -/
def arrEqual (F : FloatOps) (m : Mem) (a b : List Stk) : Bool :=
  if a.length ≠ b.length then false else equalLoop F m a b

/-- One element in `ArrayScriptObjectZs_contains`, 83-102. -/
def elemMatches (m : Mem) (x e : Stk) : Bool :=
  let p := x.props &&& e.props
  if p = P_BOOL ∨ p = P_INT ∨ p = P_FLOAT then e.value == x.value
  else if p = P_OBJECT then
    if (m.obj x.value).typeId = (m.obj e.value).typeId then
      if (m.obj x.value).typeId = T_STRING_SO then (m.obj x.value).text == (m.obj e.value).text else false
    else false
  else false

/-- The loop of `ArrayScriptObjectZs_contains`, 76-105: stops when found. -/
def arrContains (m : Mem) (x : Stk) : List Stk → Bool
  | [] => false
  | e :: rest => if elemMatches m x e then true else arrContains m x rest

/-! ## `ObjectScriptObject` -/

/-- `ObjectScriptObject::setStackElementByKeyName` for each field of a list, the loops of `concat`/`append`,
`ObjectScriptObject.cpp` 17-44 and 56-86. Plain objects have no built-in fields (`ScriptTypesFactory.cpp`
342-350), so the check of line 63 never fires. A throwing call ends the loop. Simplification: the values
are not constants, so `stackElementAssign` copies them unchanged (`elementAssign_held`). -/
def objSetAll (m : Map.MapS (List UInt8) Stk) : List (List UInt8 × Stk) → Out (Map.MapS (List UInt8) Stk)
  | [] => .ok m
  | (k, x) :: rest => (Map.set 16 m k x).bind fun r => r.2.bind fun _ => objSetAll r.1 rest

/-- `ObjectScriptObject::concat` (`o1 + o2`), `ObjectScriptObject.cpp` 17-33: the iterated fields of both go into a new
object. -/
def objPlus (fields1 fields2 : List (List UInt8 × Stk)) : Out (Map.MapS (List UInt8) Stk) :=
  (objSetAll Map.MapS.empty fields1).bind fun m => objSetAll m fields2

/-- `ObjectScriptObject::append` (`Object::extend`), 35-44, with two different objects. -/
def objExtend (m1 : Map.MapS (List UInt8) Stk) (fields2 : List (List UInt8 × Stk)) : Out (Map.MapS (List UInt8) Stk) :=
  objSetAll m1 fields2

end Verif.Vm
