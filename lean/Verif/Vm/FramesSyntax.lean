import Verif.Common
/-
Programs of functions that call each other, as far as the variables of calls are concerned (C120, C121).
-/
namespace Verif.Frames
open Verif

/-- Values without memory of their own. -/
inductive Val where
  | undef
  | int (n : Int)
  | bool (b : Bool)
  deriving DecidableEq, Repr

/-- Expressions: literals, variables of the function (parameters first), global variables, two operators, a call of a script
function, and a call of a native function that calls a script function back with the arguments it is given and gives the
result on. -/
inductive Ex where
  | lit (v : Val)
  | loc (i : Nat)
  | glob (i : Nat)
  | add (a b : Ex)
  | lt (a b : Ex)
  | call (f : Nat) (as : List Ex)
  | apply (f : Nat) (as : List Ex)
  deriving Repr

/-- Statements. -/
inductive St where
  | skip
  | ex (e : Ex)
  | setLoc (i : Nat) (e : Ex)
  | setGlob (i : Nat) (e : Ex)
  | seq (s t : St)
  | ite (e : Ex) (s t : St)
  | loop (e : Ex) (s : St)
  | ret (e : Option Ex)
  deriving Repr

/-- A function: the default values of its parameters (`undef` if it has none), the number of its other variables, its body. -/
structure Fn where
  params : List Val
  vars : Nat
  body : St

/-- All variables of a function. -/
def Fn.all (F : Fn) : Nat := F.params.length + F.vars

/-- What the host does: a script that declares some global variables, or a call of a script function. -/
inductive Op where
  | run (vars : Nat) (s : St)
  | call (f : Nat) (as : List Val)

/-- Outcomes: the allowed number of steps is used up, a script error, a result. -/
inductive R (α : Type) where
  | late
  | err
  | ok (a : α)
  deriving DecidableEq, Repr

def R.bind {α β : Type} (x : R α) (f : α → R β) : R β :=
  match x with
  | .late => .late
  | .err => .err
  | .ok a => f a

/-- `+` and `<` of values: other kinds than integers are a script error here. -/
def Val.plus : Val → Val → R Val
  | .int a, .int b => .ok (.int (a + b))
  | _, _ => .err

def Val.less : Val → Val → R Val
  | .int a, .int b => .ok (.bool (decide (a < b)))
  | _, _ => .err

def Val.test : Val → R Bool
  | .bool b => .ok b
  | _ => .err

end Verif.Frames
