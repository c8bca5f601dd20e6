import Verif.Vm.Weak
/-
Specification for stored methods. Every object has an identity that is never used again; a stored method knows the identity of the object
it was taken from, and is called on that object as long as it lives; afterwards calling it is an error.
-/
namespace Verif.Vm.Weak
open Verif

/-- An object: its identity and what it holds. -/
structure Obj where
  id : Nat
  data : Nat
  deriving DecidableEq, Repr

/-- What lives at an address, the object each stored method was taken from, what the host has bound, which identities have ended, and
the next identity. -/
structure Spec where
  objs : Nat → Option Obj
  from_ : Nat → Option Obj
  bound : Nat → Option Obj
  dead : Nat → Bool
  cnt : Nat

def Spec.init : Spec :=
  { objs := fun _ => none, from_ := fun _ => none, bound := fun _ => none, dead := fun _ => false, cnt := 0 }

/-- Calling on an object: what it holds, or an error if it has ended. -/
def Spec.callOn (S : Spec) : Option Obj → Out Nat
  | some o => if S.dead o.id then .err else .ok o.data
  | none => .err

/-- A new object. -/
def Spec.add (S : Spec) (a d : Nat) : Spec :=
  { S with objs := upd S.objs a (some ⟨S.cnt, d⟩), from_ := upd S.from_ a none, cnt := S.cnt + 1 }

/-- What should happen, and what a call should return. Printing has always a result. -/
def Spec.step (S : Spec) : Op → Spec × Out Nat
  | .new a d => (S.add a d, .ok 0)
  | .method r a d => ({ S.add r d with from_ := upd S.from_ r (S.objs a) }, .ok 0)
  | .destroy a =>
    match S.objs a with
    | some o => ({ S with objs := upd S.objs a none, from_ := upd S.from_ a none, dead := upd S.dead o.id true }, .ok 0)
    | none => (S, .ok 0)
  | .call r => (S, S.callOn (S.from_ r))
  | .print _ => (S, .ok 0)
  | .bind b r => ({ S with bound := upd S.bound b (S.from_ r) }, .ok 0)
  | .callBound b => (S, S.callOn (S.bound b))

def Spec.run (S : Spec) : List Op → List (Out Nat)
  | [] => []
  | op :: ops => (S.step op).2 :: Spec.run (S.step op).1 ops

/-- The operation makes sense: new objects at free addresses, and everything else with objects that exist and are of the right kind. -/
def Spec.Can (S : Spec) : Op → Prop
  | .new a _ => S.objs a = none
  | .method r a _ => S.objs r = none ∧ (S.objs a).isSome
  | .destroy a => (S.objs a).isSome
  | .call r => (S.from_ r).isSome
  | .print r => (S.from_ r).isSome
  | .bind _ r => (S.from_ r).isSome
  | .callBound b => (S.bound b).isSome

/-- All operations make sense. -/
def Spec.CanAll (S : Spec) : List Op → Prop
  | [] => True
  | op :: ops => S.Can op ∧ Spec.CanAll (S.step op).1 ops

/-- The object has not ended. -/
def Spec.Lives (S : Spec) (o : Option Obj) : Prop := ∀ x, o = some x → S.dead x.id = false

/-- What the code gets wrong is left out: printing a stored method whose object has ended, and calling a bound function whose object has
ended. -/
def Spec.Fine (S : Spec) : Op → Prop
  | .print r => S.Lives (S.from_ r)
  | .callBound b => S.Lives (S.bound b)
  | _ => True

def Spec.FineAll (S : Spec) : List Op → Prop
  | [] => True
  | op :: ops => S.Fine op ∧ Spec.FineAll (S.step op).1 ops

end Verif.Vm.Weak
