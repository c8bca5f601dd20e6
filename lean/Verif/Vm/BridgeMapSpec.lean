import Verif.Vm.BridgeMap
import Verif.Vm.BridgeSpec
/-
Specification of C125: a script object in the hands of the host is a map from keys to values that remembers the order in which
its keys came.
-/
namespace Verif.Vm.Bridge
open Verif Verif.Vm.Native

/-- A map with ordered keys. A value: the C++ type it was put as, and what it was to the host at that moment. -/
structure Dict where
  keys : List Key
  val : Key → Option (Nat × Seen)

/-- No keys. -/
def Dict.none : Dict := ⟨[], fun _ => Option.none⟩

/-- A new key comes last, a known key stays where it is. -/
def Dict.put (m : Dict) (k : Key) (x : Nat × Seen) : Dict :=
  ⟨if k ∈ m.keys then m.keys else m.keys ++ [k], fun j => if j = k then some x else m.val j⟩

/-- The key is gone. -/
def Dict.drop (m : Dict) (k : Key) : Dict :=
  ⟨m.keys.filter (· ≠ k), fun j => if j = k then Option.none else m.val j⟩

/-- What the map is after the host's history. `none` if a pointer that was put led nowhere. -/
def dictAfter (h : Word → Option Cell) (m : Dict) : List MOp → Option Dict
  | [] => some m
  | .host p c :: os => dictAfter (fun q => if q = p then c else h q) m os
  | .set _ _ _ k v :: os => (hostSees h v).bind fun w => dictAfter h (m.put k (v.type, w)) os
  | .erase k :: os => dictAfter h (m.drop k) os
  | .eraseAll :: os => dictAfter h Dict.none os

/-- The object reads as the map, by all that the host can ask. -/
def ReadsAs (σ : St) (self : Word) (fs : Fields) (m : Dict) : Prop :=
  objLength fs = m.keys.length ∧
  objKeys fs = m.keys ∧
  ∀ k, (∀ t w, m.val k = some (t, w) →
      objGet σ fs k t = .ok w ∧ objExists fs k = true ∧ (objErase σ self fs k).1 = true) ∧
    (m.val k = none →
      (∀ t, objGet σ fs k t = .err) ∧ objExists fs k = false ∧ objErase σ self fs k = (false, σ, fs))

/-- The values that the host puts. -/
def mputs : List MOp → List HVal
  | [] => []
  | .set _ _ _ _ v :: os => v :: mputs os
  | _ :: os => mputs os

/-- The addresses of the new objects. -/
def mnews : List MOp → List Word
  | [] => []
  | .set a _ _ _ _ :: os => a :: mnews os
  | _ :: os => mnews os

/-- Temporaries. -/
def mtemps : List MOp → List Word
  | [] => []
  | .set _ _ t _ _ :: os => t :: mtemps os
  | _ :: os => mtemps os

/-- The keys that are used. -/
def mkeys : List MOp → List Key
  | [] => []
  | .set _ _ _ k _ :: os => k :: mkeys os
  | .erase k :: os => k :: mkeys os
  | _ :: os => mkeys os

/-- New objects get addresses of their own. -/
def MFresh (σ : St) (os : List MOp) : Prop :=
  (mnews os).Nodup ∧ (∀ a ∈ mnews os, a ≠ 0 ∧ σ.obj a = none) ∧ ∀ t ∈ mtemps os, t ≠ 0

/-- C125: after every history, the object reads as the map of what was put and erased. -/
def ObjectIsMap : Prop :=
  ∀ (σ : St) (self : Word) (os : List MOp) (m : Dict),
    MFresh σ os → (∀ v ∈ mputs os, Typed σ v ∧ EntryTakes .element v) → dictAfter σ.host Dict.none os = some m →
    ∃ σ' fs, objRun σ self [] os = .ok (σ', fs) ∧ ReadsAs σ' self fs m

/-- Every text that is in the host's memory, now or later, has no backslash. -/
def MNoBackslash (h : Word → Option Cell) (os : List MOp) : Prop :=
  (∀ p t, h p = some (.chars t) → (92 : UInt8) ∉ t) ∧ ∀ p t, MOp.host p (some (.chars t)) ∈ os → (92 : UInt8) ∉ t

/-- The object reads as the map, for keys without zero bytes. -/
def ReadsAsC (σ : St) (self : Word) (fs : Fields) (m : Dict) : Prop :=
  objLength fs = m.keys.length ∧
  objKeys fs = m.keys ∧
  ∀ k, (0 : UInt8) ∉ k → (∀ t w, m.val k = some (t, w) →
      objGet σ fs k t = .ok w ∧ objExists fs k = true ∧ (objErase σ self fs k).1 = true) ∧
    (m.val k = none →
      (∀ t, objGet σ fs k t = .err) ∧ objExists fs k = false ∧ objErase σ self fs k = (false, σ, fs))

end Verif.Vm.Bridge
