/-
What a host does with scripts and objects: syntax shared by the model (`Verif/Vm/Host.lean`) and its specification
(`Verif/Vm/HostSpec.lean`).
-/
namespace Verif.Host

/-- Right side of an assignment, or a value to return: `undefined`, a new object, a variable of the main function, a variable
of the function (parameters first). -/
inductive Src where
  | undef
  | new
  | glob (g : Nat)
  | loc (l : Nat)
  deriving DecidableEq, Repr

/-- A statement: an assignment, `delete x`, or one that is a script error. -/
inductive Stmt where
  | setG (g : Nat) (e : Src)
  | setL (l : Nat) (e : Src)
  | delG (g : Nat)
  | delL (l : Nat)
  | fail
  deriving DecidableEq, Repr

/-- What the host does: it runs a script that declares `vars` more variables; it calls a script function with the given arguments
(an object, or a value without memory), which has `vars` variables beside its parameters; it gives an object back
(`unrefLifetimeObject`). Scripts and functions end with `return rets`, or without it if that is empty. -/
inductive Op where
  | run (vars : Nat) (body : List Stmt) (rets : List Src)
  | call (args : List (Option Nat)) (vars : Nat) (body : List Stmt) (rets : List Src)
  | unref (o : Nat)
  deriving DecidableEq, Repr

/-- What the host sees of it: the value it gets, or an exception. -/
inductive Obs where
  | val (v : Option Nat)
  | exc
  deriving DecidableEq, Repr

end Verif.Host
