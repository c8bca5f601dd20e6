import Verif.Vm.Abort
/-
Specification of what is left of a run: which runs end well, what global variables hold afterwards, and which errors the code does not
clean up after.
-/
namespace Verif.Vm.Abort
open Verif

/-- Whether what happens at a call depth of `d` comes to its end without an error. -/
def ends (d : Nat) : Act → Bool
  | .skip => true
  | .seq a b => ends d a && ends d b
  | .hold _ => true
  | .block a => ends d a
  | .call _ left dflt fits body => (!left || (decide (d < 100) && ends (d + 1) dflt)) && decide (d < 100) && fits && ends (d + 1) body
  | .construct _ _ fits body => decide (d < 100) && fits && ends (d + 1) body
  | .native _ _ fits body => decide (d < 100) && fits && ends (d + 1) body
  | .guarded a b => decide (d < 100) && (ends (d + 1) a || ends (d + 1) b)
  | .eval _ compiles fits body => compiles && decide (d < 100) && fits && ends (d + 1) body
  | .fail _ => false
  | .raise => false

/-- The objects that global variables get, at depth `d` of the main function outside of blocks, as far as it comes. -/
def keeps (d : Nat) : Act → List Nat
  | .seq a b => keeps d a ++ (if ends d a then keeps d b else [])
  | .hold o => [o]
  | _ => []

/-- All errors that come up are reported by the virtual machine itself: no instruction throws, and no function of the host catches an
exception of a function that it has called. -/
def Reported (d : Nat) : Act → Prop
  | .skip => True
  | .seq a b => Reported d a ∧ (ends d a = true → Reported d b)
  | .hold _ => True
  | .block a => Reported d a
  | .call _ left dflt _ body => (left = true → Reported (d + 1) dflt) ∧ Reported (d + 1) body
  | .construct _ _ _ body => Reported (d + 1) body
  | .native _ _ _ body => Reported (d + 1) body
  | .guarded _ _ => False
  | .eval _ _ _ body => Reported (d + 1) body
  | .fail _ => True
  | .raise => False

/-- The same for what the host does. -/
def Run.Reported : Run → Prop
  | .main a => Abort.Reported 1 a
  | .host _ _ _ a => Abort.Reported 2 a

/-- What the code cleans up after. Left out: exceptions thrown by instructions, functions of the host that catch exceptions, errors in
constructors, and, for calls with objects as arguments, errors before the function has begun. -/
def Clean (d : Nat) : Act → Prop
  | .skip => True
  | .seq a b => Clean d a ∧ (ends d a = true → Clean d b)
  | .hold _ => True
  | .block a => Clean d a
  | .call args left dflt fits body =>
    (args = [] ∨ ((left = true → ends (d + 1) dflt = true) ∧ d < 100 ∧ fits = true)) ∧ (left = true → Clean (d + 1) dflt) ∧
      Clean (d + 1) body
  | .construct _ _ fits body => (d < 100 ∧ fits = true ∧ ends (d + 1) body = true) ∧ Clean (d + 1) body
  | .native tmp args fits body =>
    (tmp = [] ∨ (d < 100 ∧ fits = true ∧ ends (d + 1) body = true)) ∧ (args = [] ∨ (d < 100 ∧ fits = true)) ∧ Clean (d + 1) body
  | .guarded _ _ => False
  | .eval args compiles fits body => (args = [] ∨ (compiles = true ∧ d < 100 ∧ fits = true)) ∧ Clean (d + 1) body
  | .fail _ => True
  | .raise => False

/-- The same for what the host does. -/
def Run.Clean : Run → Prop
  | .main a => Abort.Clean 1 a
  | .host tmp args fits a => (tmp = [] ∨ (fits = true ∧ ends 2 a = true)) ∧ (args = [] ∨ fits = true) ∧ Abort.Clean 2 a

/-- What the host should get: the end of the function, or an exception that reports a script error. -/
def Run.expected : Run → Res
  | .main a => if ends 1 a then .done else .failed
  | .host _ _ fits a => if fits && ends 2 a then .done else .failed

/-- What global variables hold after it. -/
def Run.keeps : Run → List Nat
  | .main a => Abort.keeps 1 a
  | .host .. => []

/-- What one would expect of any history: the host gets what it should, the machine is ready for the next run, and objects have exactly
the shares of the global variables that hold them. -/
def LeavesNothing (rs : List Run) : Prop :=
  (runAll St.init rs).2 = rs.map Run.expected ∧ (runAll St.init rs).1.cur = 0 ∧
    ∀ o, (runAll St.init rs).1.shares o = occ o (rs.flatMap Run.keeps)

end Verif.Vm.Abort
