import Verif.Vm.BindPath
import Verif.Core.GlobalsProof
/-
What a user expects of `bindScriptFunction("a.b.f")`: that it binds what a script calls with `a.b.f(...)`.
The values of the globals are those of the specification `Env` of C62, which counts assignments only.
-/
namespace Verif.Vm.BindPath

open Verif.Core

/-- The path with the given names: `a.b.f`. -/
def dotted : List (List UInt8) → List UInt8
  | [] => []
  | [n] => n
  | n :: r => n ++ [46] ++ dotted r

/-- No dot in a name. -/
def Names (ns : List (List UInt8)) : Prop := ∀ n ∈ ns, (46 : UInt8) ∉ n

/-- The object a value stands for in a script. Without `deep` only those a variable or field holds itself. -/
def IsObj (deep : Bool) (v : Val) (a : Nat) : Prop := v = .obj a ∨ (deep = true ∧ v = .slot a)

/-- The object a script reaches with the names `ns`: the value of a global, then fields. `vals` are the values of the
globals, in the order of `w.eng.vars`. -/
inductive Reaches (w : World) (vals : List (Option Val)) (deep : Bool) : List (List UInt8) → Nat → Prop
  | var {k s a : Nat} {n : List UInt8} {v : Val} (h1 : w.eng.vars[k]? = some s) (h2 : w.name s = n)
      (h3 : vals[k]? = some (some v)) (h4 : IsObj deep v a) : Reaches w vals deep [n] a
  | field {ns : List (List UInt8)} {a b : Nat} {n : List UInt8} {v : Val} (h1 : Reaches w vals deep ns a)
      (h2 : ((w.obj a).fields.find? (fun p => p.1 = n)).map (·.2) = some v) (h3 : IsObj deep v b) :
      Reaches w vals deep (ns ++ [n]) b

/-- `m` is the function `n` of the class of `o`: the last one with the name, so that a class hides what it inherits. -/
def ClassFn (o : Obj) (n : List UInt8) (m : Meth) : Prop :=
  m.name = n ∧ ∃ before after, o.meths = before ++ m :: after ∧ ∀ x ∈ after, x.name ≠ n

/-- What a script calls with `….n(...)` on the object `a`: a function of its class that is not static, or else
a function in the field (`vm_container.cpp` 100–162). -/
def Calls (w : World) (a : Nat) (n : List UInt8) (f : Nat) : Prop :=
  (∃ m, ClassFn (w.obj a) n m ∧ m.member = true ∧ m.fn = f) ∨
  ((∀ m ∈ (w.obj a).meths, m.name ≠ n) ∧ ((w.obj a).fields.find? (fun p => p.1 = n)).map (·.2) = some (.fn f))

/-- What a script calls with the names `ns`: the function and the object it is called on. -/
def ScriptCalls (w : World) (vals : List (Option Val)) (ns : List (List UInt8)) (a f : Nat) : Prop :=
  ∃ front last, ns = front ++ [last] ∧ Reaches w vals true front a ∧ Calls w a last f

/-- The engine after the history `os`; globals have different names (C44). -/
def WorldOf (w : World) (os : List (Globals.Op Val)) : Prop :=
  Globals.run {} os = .ok w.eng ∧ (w.eng.vars.map w.name).Nodup

/-- The full property: a path of several names is bound to the function a script calls by that path, on the same
object, and refused if a script cannot call it. -/
def BindsWhatScriptsCall : Prop :=
  ∀ (w : World) (os : List (Globals.Op Val)), WorldOf w os →
    ∀ ns : List (List UInt8), 2 ≤ ns.length → Names ns → ∀ a f : Nat,
      bind w (dotted ns) = .ok ⟨f, some a⟩ ↔ ScriptCalls w (Globals.Env.run {} os).vals ns a f

end Verif.Vm.BindPath
