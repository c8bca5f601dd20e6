import Verif.Vm.Bridge
/-
What C104, C105 and C106 say, in terms of what the host and the script have in hand.
-/
namespace Verif.Vm.Bridge
open Verif

/-- What a value of the host is to the host: pointers are followed, a null pointer is nothing; `none` for a pointer to
something that is not there. -/
def hostSees (h : Word → Option Cell) : HVal → Option Seen
  | .int w => some (.int w)
  | .intPtr p => if p = 0 then some .nothing else match h p with | some (.int w) => some (.int w) | _ => none
  | .float w => some (.float w)
  | .floatPtr p => if p = 0 then some .nothing else match h p with | some (.float w) => some (.float w) | _ => none
  | .bool b => some (.truth b)
  | .boolPtr p => if p = 0 then some .nothing else match h p with | some (.bool b) => some (.truth b) | _ => none
  | .chars p => if p = 0 then some .nothing else match h p with | some (.chars t) => some (.text t) | _ => none
  | .string t => some (.text t)
  | .stringPtr p => if p = 0 then some .nothing else match h p with | some (.str t) => some (.text t) | _ => none
  | .elem p => if p = 0 then some .nothing else match h p with | some (.elem s) => some (.elem s) | _ => none
  | .script _ p => if p = 0 then some .nothing else some (.object p)
  | .native _ p => if p = 0 then some .nothing else some (.object p)
  | .other _ p => if p = 0 then some .nothing else some (.object p)

/-- A pointer is of its type: a script object of a built-in type (string 20, iterators 21 to 23, array 24, object 25, or any
class object for 26) that is alive, an object of a registered class (27 and up), or another registered type. -/
def Typed (σ : St) : HVal → Prop
  | .script t p =>
    20 ≤ t ∧ t ≤ 26 ∧ (p ≠ 0 → ∃ o, σ.obj p = some o ∧ if t = 26 then 26 < o.typeId else o.typeId = t)
  | .native t _ => 27 ≤ t
  | .other t _ => t ∈ [6, 14, 16, 17, 18, 19]
  | _ => True

/-- The ways in that take a value of this C++ type: no `String` for `toStackElement`, no plain `zs_float`, `bool` or `String`
for the parameters of a bound function. -/
def EntryTakes : Entry → HVal → Prop
  | .element, .string _ => False
  | .argument, .float _ => False
  | .argument, .bool _ => False
  | .argument, .string _ => False
  | _, _ => True

/-- The ways out that give a value of this C++ type: a bound function returns no `String *` and no `const char *`, a native
function has no plain `zs_float`, `bool` or `String` parameter. -/
def ExitTakes : Exit → HVal → Prop
  | .bound, .stringPtr _ => False
  | .bound, .chars _ => False
  | .parameter, .float _ => False
  | .parameter, .bool _ => False
  | .parameter, .string _ => False
  | _, _ => True

/-- The script has a value in hand: the number, truth value or text, undefined or null for nothing, the script object, or
the object that stands for the host's object. -/
inductive Has (σ : St) : Stk → Seen → Prop where
  | int (w : Word) : Has σ ⟨w, 0x004⟩ (.int w)
  | float (w : Word) : Has σ ⟨w, 0x008⟩ (.float w)
  | truth (b : Bool) : Has σ ⟨if b then 1 else 0, 0x010⟩ (.truth b)
  | undefined : Has σ ⟨0, 0x000⟩ .nothing
  | null : Has σ ⟨0, 0x001⟩ .nothing
  | text (a : Word) (o : Obj) (t : List UInt8) (alive : σ.obj a = some o) (str : o.typeId = 20) (own : o.strPtr = none)
      (txt : o.text = t) : Has σ ⟨a, 0x200⟩ (.text t)
  | shared (a p : Word) (o : Obj) (t : List UInt8) (alive : σ.obj a = some o) (str : o.typeId = 20)
      (ref : o.strPtr = some p) (txt : σ.host p = some (.str t)) : Has σ ⟨a, 0x200⟩ (.text t)
  | script (a : Word) (o : Obj) (alive : σ.obj a = some o) : Has σ ⟨a, 0x200⟩ (.object a)
  | native (a p : Word) (o : Obj) (alive : σ.obj a = some o) (cls : 27 ≤ o.typeId) (obj : o.cObject = p) :
      Has σ ⟨a, 0x200⟩ (.object p)
  | elem (s : Stk) : Has σ s (.elem s)

/-- C104: every value that the host can give by one way and take by another arrives at the script and comes back. -/
def RoundTrips : Prop :=
  ∀ (σ : St) (F : FloatOps) (a tmp : Word) (e : Entry) (x : Exit) (v : HVal) (w : Seen),
    a ≠ 0 → σ.obj a = none → tmp ≠ 0 → hostSees σ.host v = some w → Typed σ v → EntryTakes e v → ExitTakes x v →
    ∃ s σ', give σ a tmp e v = .ok (s, σ') ∧ Has σ' s w ∧ take σ' F x s v.type = .ok w

/-- The part of C104 that holds: texts by value have no backslash; null pointers are of registered classes or other
registered types; pointers to numbers, truth values and elements are taken where the element stays (not by value and not
as the result of a bound function), an element that is given is no reference; and nothing but null of other types. -/
def Plain (h : Word → Option Cell) (x : Exit) : HVal → Prop
  | .int _ => True
  | .float _ => True
  | .bool _ => True
  | .intPtr p => p ≠ 0 ∧ (x = .pointer ∨ x = .parameter)
  | .floatPtr p => p ≠ 0 ∧ (x = .pointer ∨ x = .parameter)
  | .boolPtr p => p ≠ 0 ∧ (x = .pointer ∨ x = .parameter)
  | .chars p => p ≠ 0 ∧ ∀ t, h p = some (.chars t) → (92 : UInt8) ∉ t
  | .string t => (92 : UInt8) ∉ t
  | .stringPtr p => p ≠ 0
  | .elem p => p ≠ 0 ∧ (x = .pointer ∨ x = .parameter) ∧ ∀ s, h p = some (.elem s) → s.props &&& 0x1000 = 0
  | .script _ p => p ≠ 0
  | .native _ _ => True
  | .other _ p => p = 0

/-- C105: what the script was given stays what it was, whatever the host does with its own memory afterwards. -/
def Stays : Prop :=
  ∀ (σ : St) (a tmp : Word) (e : Entry) (v : HVal) (w : Seen) (s : Stk) (σ' : St),
    a ≠ 0 → σ.obj a = none → tmp ≠ 0 → hostSees σ.host v = some w → Typed σ v → give σ a tmp e v = .ok (s, σ') →
    Has σ' s w → ∀ h : Word → Option Cell, Has { σ' with host := h } s w

/-! ### Arrays -/

/-- What an array holds after the host's history, as a plain list: for each element the C++ type it was put as, and what it
was to the host at that moment. `none` if a pointer that was put led nowhere. -/
def holds (h : Word → Option Cell) (l : List (Nat × Seen)) : List Op → Option (List (Nat × Seen))
  | [] => some l
  | .host p c :: os => holds (fun q => if q = p then c else h q) l os
  | .push _ _ _ v :: os => (hostSees h v).bind fun w => holds h (l ++ [(v.type, w)]) os
  | .set _ _ _ i v :: os =>
    (hostSees h v).bind fun w =>
      if 0 ≤ i ∧ i < l.length then holds h (l.set i.toNat (v.type, w)) os else holds h l os

/-- The values that the host puts into the array. -/
def puts : List Op → List HVal
  | [] => []
  | .host _ _ :: os => puts os
  | .push _ _ _ v :: os => v :: puts os
  | .set _ _ _ _ v :: os => v :: puts os

/-- The addresses of the new objects, and of temporaries. -/
def news : List Op → List Word
  | [] => []
  | .host _ _ :: os => news os
  | .push a _ _ _ :: os => a :: news os
  | .set a _ _ _ _ :: os => a :: news os

/-- Temporaries. -/
def temps : List Op → List Word
  | [] => []
  | .host _ _ :: os => temps os
  | .push _ _ t _ :: os => t :: temps os
  | .set _ _ t _ _ :: os => t :: temps os

/-- New objects get addresses of their own. -/
def Fresh (σ : St) (os : List Op) : Prop :=
  (news os).Nodup ∧ (∀ a ∈ news os, a ≠ 0 ∧ σ.obj a = none) ∧ ∀ t ∈ temps os, t ≠ 0

/-- The array reads as the list. -/
def Reads (σ : St) (arr : List Stk) (l : List (Nat × Seen)) : Prop :=
  arr.length = l.length ∧
  (∀ (i : Nat) (t : Nat) (w : Seen), l[i]? = some (t, w) → get σ arr i t = .ok w) ∧
  ∀ (i : Int) (t : Nat), i < 0 ∨ i ≥ l.length → get σ arr i t = .err

/-- C106: after every history of puts, the array reads as the list of what was put. -/
def ArrayHolds : Prop :=
  ∀ (σ : St) (os : List Op) (l : List (Nat × Seen)),
    Fresh σ os → (∀ v ∈ puts os, Typed σ v ∧ EntryTakes .element v) → holds σ.host [] os = some l →
    ∃ σ' arr, run σ [] os = .ok (σ', arr) ∧ Reads σ' arr l

/-- The script objects among the values. -/
def scripts : List HVal → List Word
  | [] => []
  | .script _ p :: vs => p :: scripts vs
  | _ :: vs => scripts vs

/-- What the host may put for the part of C106 that holds: numbers, truth values, texts by characters, registered class
objects, and script objects that no script and no container has yet. -/
def Storable (σ : St) : HVal → Prop
  | .int _ => True
  | .float _ => True
  | .bool _ => True
  | .intPtr p => p ≠ 0
  | .floatPtr p => p ≠ 0
  | .boolPtr p => p ≠ 0
  | .chars p => p ≠ 0
  | .script _ p => p ≠ 0 ∧ ∀ o, σ.obj p = some o → o.shared = false ∧ o.konst = false
  | .native _ _ => True
  | .other _ p => p = 0
  | _ => False

/-- Every text that is in the host's memory, now or later, has no backslash. -/
def NoBackslash (h : Word → Option Cell) (os : List Op) : Prop :=
  (∀ p t, h p = some (.chars t) → (92 : UInt8) ∉ t) ∧ ∀ p t, Op.host p (some (.chars t)) ∈ os → (92 : UInt8) ∉ t

end Verif.Vm.Bridge
