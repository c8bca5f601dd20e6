import Verif.Vm.Bridge
/-
Model of script objects in the hands of the host: `ObjectScriptObject::get`, `set`, `exists`, `length`, `getKeys`, `erase`
and `eraseAll` (`src/core/object/ObjectScriptObject.tcc`, `ObjectScriptObject.cpp`), on top of `Verif.Vm.Bridge`.

Simplified: `map_fields` is a list of keys and elements in the order of insertion, which C01 and C02 prove of `MapString`
(below its limit of entries); the type of plain objects has no member properties (`ScriptTypesFactory.cpp` registers none), so
the map of built-in fields is empty; what a freed object had inside is not freed with it.
-/
namespace Verif.Vm.Bridge
open Verif Verif.Vm.Native

/-- Keys are bytes. -/
abbrev Key := List UInt8

/-- `map_fields`, `ObjectScriptObject.h`: the slots in the order of insertion. -/
abbrev Fields := List (Key × Stk)

/-- What `MapString` sees of a `String` (`toConstChar` in `ObjectScriptObject.cpp` 63-75, 92-95, 106, 127-133; `strcmp` and
`strcpy` in `MapString.cpp`): the characters up to the first zero. -/
def cKey (k : Key) : Key := k.takeWhile (· ≠ 0)

/-- `MapString::get`, `MapString.cpp` 168-186. -/
def lookup : Fields → Key → Option Stk
  | [], _ => none
  | f :: fs, k => if f.1 = k then some f.2 else lookup fs k

/-- The element of a slot that exists is overwritten in its place, `ObjectScriptObject.cpp` 79-83. -/
def overwrite : Fields → Key → Stk → Fields
  | [], _, _ => []
  | f :: fs, k, s => if f.1 = k then (k, s) :: fs else f :: overwrite fs k s

/-- `MapString::erase`. -/
def remove : Fields → Key → Fields
  | [], _ => []
  | f :: fs, k => if f.1 = k then fs else f :: remove fs k

/-- `ScriptObject::unrefStackElementContainer`, `ScriptObject.cpp` 46-74, with `vm_unref_shared_object` without a block
(`vm_share_manager.cpp` 91-119): an object that the slot holds ends, unless it is the object itself (`self`). The only share of
an object that the host put is that of its slot. -/
def unref (σ : St) (self : Word) (s : Stk) : St :=
  if s.props = P_OBJECT ∧ s.value ≠ self ∧ s.value ≠ 0 then
    { σ with obj := fun b => if b = s.value then none else σ.obj b }
  else σ

/-- `ObjectScriptObject::set<T>`, `ObjectScriptObject.tcc` 30-42, with `setStackElementByKeyName`,
`ObjectScriptObject.cpp` 56-86. -/
def objSet (σ : St) (self : Word) (fs : Fields) (a c tmp : Word) (k : Key) (v : HVal) : Out (St × Fields) :=
  (giveShared σ a tmp v).bind fun r =>
    match lookup fs (cKey k) with
    | some old => (assign (unref r.2 self old) c r.1).bind fun q => .ok (q.2, overwrite fs (cKey k) q.1)
    | none => (assign r.2 c r.1).bind fun q => .ok (q.2, fs ++ [(cKey k, q.1)])

/-- `ObjectScriptObject::get<T>`, `ObjectScriptObject.tcc` 20-28. -/
def objGet (σ : St) (fs : Fields) (k : Key) (t : Nat) : Out Seen :=
  match lookup fs (cKey k) with
  | none => .err
  | some s => takeWith σ false s t

/-- `ObjectScriptObject::exists`, `ObjectScriptObject.cpp` 102-107. -/
def objExists (fs : Fields) (k : Key) : Bool := (lookup fs (cKey k)).isSome

/-- `ObjectScriptObject::length`, `ObjectScriptObject.cpp` 113-115. -/
def objLength (fs : Fields) : Nat := fs.length

/-- `ObjectScriptObject::getKeys`, `ObjectScriptObject.cpp` 117-123. -/
def objKeys (fs : Fields) : List Key := fs.map (·.1)

/-- `ObjectScriptObject::erase`, `ObjectScriptObject.cpp` 125-137: whether there was such a field. (For a field that is not
there it also sets the error of the machine, which the next run of a script resets.) -/
def objErase (σ : St) (self : Word) (fs : Fields) (k : Key) : Bool × St × Fields :=
  match lookup fs (cKey k) with
  | none => (false, σ, fs)
  | some s => (true, unref σ self s, remove fs (cKey k))

/-- `ObjectScriptObject::eraseAll`, `ObjectScriptObject.cpp` 139-146. -/
def objEraseAll (σ : St) (self : Word) (fs : Fields) : St × Fields :=
  (fs.foldl (fun σ f => unref σ self f.2) σ, [])

/-- What the host does: change its own memory, or change the object. -/
inductive MOp where
  | host (p : Word) (c : Option Cell)
  | set (a c tmp : Word) (k : Key) (v : HVal)
  | erase (k : Key)
  | eraseAll
  deriving Repr

/-- One thing the host does. An error is an exception that the host catches: the object is as before. -/
def objStep (σ : St) (self : Word) (fs : Fields) : MOp → Out (St × Fields)
  | .host p c => .ok (σ.setHost p c, fs)
  | .set a c tmp k v => match objSet σ self fs a c tmp k v with | .err => .ok (σ, fs) | r => r
  | .erase k => .ok (objErase σ self fs k).2
  | .eraseAll => .ok (objEraseAll σ self fs)

/-- A history. -/
def objRun (σ : St) (self : Word) (fs : Fields) : List MOp → Out (St × Fields)
  | [] => .ok (σ, fs)
  | o :: os => (objStep σ self fs o).bind fun r => objRun r.1 self r.2 os

end Verif.Vm.Bridge
