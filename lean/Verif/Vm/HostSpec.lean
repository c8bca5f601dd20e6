import Verif.Vm.HostSyntax
/-
What a host may expect of objects it gets from scripts, without any counting: variables refer to objects, and the host has a list
of the objects it was given. Nothing of `Verif/Vm/Host.lean` is used here.
-/
namespace Verif.HostSpec
open Verif.Host (Src Stmt Op Obs)

/-- The variables of the main function, the objects the host was given and has not given back (with repetitions), and the number of
the next object. -/
structure World where
  glob : List (Option Nat)
  held : List Nat
  next : Nat
  deriving DecidableEq, Repr

def World.init : World := ⟨[], [], 0⟩

/-- The value of `e` where the function's variables are `loc`; `none` if there is no such variable. -/
def World.eval (w : World) (loc : List (Option Nat)) : Src → Option (Option Nat × World)
  | .undef => some (none, w)
  | .new => some (some w.next, { w with next := w.next + 1 })
  | .glob g => w.glob[g]?.map fun v => (v, w)
  | .loc l => loc[l]?.map fun v => (v, w)

/-- What a statement does; `none` if it is an error. -/
def World.stmt (w : World) (loc : List (Option Nat)) : Stmt → Option (World × List (Option Nat))
  | .setG g e => if g < w.glob.length then (w.eval loc e).map fun r => ({ r.2 with glob := r.2.glob.set g r.1 }, loc) else none
  | .setL l e => if l < loc.length then (w.eval loc e).map fun r => (r.2, loc.set l r.1) else none
  | .delG g => if g < w.glob.length then some ({ w with glob := w.glob.set g none }, loc) else none
  | .delL l => if l < loc.length then some (w, loc.set l none) else none
  | .fail => none

/-- Statements up to the first error; `true` if there was none. -/
def World.body (w : World) (loc : List (Option Nat)) : List Stmt → World × List (Option Nat) × Bool
  | [] => (w, loc, true)
  | c :: cs => match w.stmt loc c with
    | none => (w, loc, false)
    | some r => r.1.body r.2 cs

/-- The values of `return`, `none` if one is an error. -/
def World.rets (w : World) (loc : List (Option Nat)) : List Src → World × Option (List (Option Nat))
  | [] => (w, some [])
  | e :: es => match w.eval loc e with
    | none => (w, none)
    | some r => let q := r.2.rets loc es; (q.1, q.2.map (r.1 :: ·))

/-- A script or function runs: the host is given the first value. An error is an exception. -/
def World.exec (w : World) (loc : List (Option Nat)) (cs : List Stmt) (es : List Src) : World × Obs :=
  let r := w.body loc cs
  if r.2.2 then
    let q := r.1.rets r.2.1 es
    match q.2 with
    | none => (q.1, .exc)
    | some [] => (q.1, .val none)
    | some (none :: _) => (q.1, .val none)
    | some (some o :: _) => ({ q.1 with held := q.1.held ++ [o] }, .val (some o))
  else (r.1, .exc)

/-- What the host does. -/
def World.step (w : World) : Op → World × Obs
  | .run n cs es => ({ w with glob := w.glob ++ List.replicate n none } : World).exec [] cs es
  | .call as n cs es => w.exec (as ++ List.replicate n none) cs es
  | .unref o => ({ w with held := w.held.erase o }, .val none)

def World.steps (w : World) : List Op → World × List Obs
  | [] => (w, [])
  | op :: ops => let r := w.step op; let q := r.1.steps ops; (q.1, r.2 :: q.2)

/-- The host uses only what it has: arguments are objects it was given or variables refer to, it gives back what it was given. -/
def World.Uses (w : World) : Op → Prop
  | .run _ _ _ => True
  | .call as _ _ _ => ∀ o, some o ∈ as → o ∈ w.held ∨ some o ∈ w.glob
  | .unref o => o ∈ w.held

def World.UsesAll (w : World) : List Op → Prop
  | [] => True
  | op :: ops => w.Uses op ∧ (w.step op).1.UsesAll ops

/-- Something refers to the object. -/
def World.Has (w : World) (loc : List (Option Nat)) (o : Nat) : Prop := o ∈ w.held ∨ some o ∈ w.glob ∨ some o ∈ loc

/-- `delete` is not used on the last variable that refers to an object. -/
def World.Deletes (w : World) (loc : List (Option Nat)) : List Stmt → Prop
  | [] => True
  | c :: cs => match w.stmt loc c with
    | none => True
    | some r => (match c with
        | .delG g => ∀ o, w.glob[g]? = some (some o) → r.1.Has r.2 o
        | .delL l => ∀ o, loc[l]? = some (some o) → r.1.Has r.2 o
        | _ => True) ∧ r.1.Deletes r.2 cs

/-- At most one value is returned, which is no object of a variable of the main function. -/
def World.Returns (w : World) (loc : List (Option Nat)) (cs : List Stmt) (es : List Src) : Prop :=
  es.length ≤ 1 ∧ ∀ g o, Src.glob g ∈ es → (w.body loc cs).1.glob[g]? ≠ some (some o)

/-- What the code is right about: arguments are objects that variables of the main function refer to, what is returned is one new
object or that of a variable of the function, and nothing is freed by `delete`. -/
def World.Fine (w : World) : Op → Prop
  | .run n cs es => let w : World := { w with glob := w.glob ++ List.replicate n none }
    w.Returns [] cs es ∧ w.Deletes [] cs
  | .call as n cs es => (∀ o, some o ∈ as → some o ∈ w.glob) ∧ w.Returns (as ++ List.replicate n none) cs es ∧
    w.Deletes (as ++ List.replicate n none) cs
  | .unref _ => True

def World.FineAll (w : World) : List Op → Prop
  | [] => True
  | op :: ops => w.Fine op ∧ (w.step op).1.FineAll ops

end Verif.HostSpec
