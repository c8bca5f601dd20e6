import Verif.Common
/-
Scripts that define functions, for C122 and C123: what the model (`Redef.lean`) and the specification (`RedefSpec.lean`) both speak of.
-/
namespace Verif.Redef

/-- Values. -/
inductive V where
  | undef
  | int (i : Int)
  | text (s : String)
  deriving DecidableEq, Repr

/-- Expressions: literals, parameters of the function, sums, choices, calls of script functions by name, calls of native functions by name. -/
inductive Ex where
  | lit (v : V)
  | par (i : Nat)
  | add (a b : Ex)
  /-- `c ? a : b` -/
  | ite (c a b : Ex)
  | call (f : String) (as : List Ex)
  | native (f : String) (as : List Ex)
  deriving Repr

/-- `function name(..){ return body; }`. -/
structure Def where
  name : String
  body : Ex
  deriving Repr

/-- What a script consists of. -/
inductive Item where
  /-- a function -/
  | fn (d : Def)
  /-- a statement, of which the value is shown -/
  | stm (e : Ex)
  /-- a function of this name with a syntax error in its body -/
  | cut (name : String)
  /-- any other syntax error -/
  | bad
  deriving Repr

/-- The native functions of which there are several of a name (the others are called without a search). -/
structure Lib where
  /-- the name of each function -/
  owner : Nat → String
  /-- the function of a name for these arguments, as a search over all functions of the name finds it (C39, C83) -/
  find : String → List V → Option Nat
  /-- whether the arguments can be converted to the parameters of a function -/
  fits : Nat → List V → Bool
  /-- what a function gives -/
  run : Nat → List V → V

/-- How the evaluation of an expression ends: it needs more steps than given (`late`), a script error, undefined behaviour, or a value. -/
inductive R (α : Type) where
  | late
  | err
  | ub
  | ok (a : α)
  deriving DecidableEq, Repr

def R.bind {α β : Type} (r : R α) (f : α → R β) : R β :=
  match r with
  | .late => .late
  | .err => .err
  | .ub => .ub
  | .ok a => f a

/-- Sums of numbers; anything else is a script error. -/
def V.plus : V → V → R V
  | .int a, .int b => .ok (.int (a + b))
  | _, _ => .err

/-- Whether a condition is met: a number other than 0. -/
def V.test : V → Bool
  | .int i => i != 0
  | _ => false

/-- What the host sees of a script: it is refused, or it ran and showed these values, and then ended, with an error or not. -/
inductive Seen where
  | refused
  | ran (shown : List V) (ended : R Unit)
  deriving DecidableEq, Repr

end Verif.Redef
