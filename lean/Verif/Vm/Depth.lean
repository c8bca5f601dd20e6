import Verif.Common
/-
Model of the table of call frames and of the bounds of the operand stack: entry and exit of script functions
(`src/vm/vm_script_function.cpp` 45-103 and 680-699), the pushing of default arguments (`src/vm/vm_call.cpp` 389-428), and
calls from the host (`src/vm/vm.cpp` 31-49 and 249-415).

Simplifications: what the functions compute is not modelled; a run of the machine is the history of its calls, returns,
errors and writes to the operand stack. Every access to the frame table and every write to the operand stack is recorded
(as an index), so that "outside the table" can be stated. Native functions are not frames of the machine; a script
function called by one is an ordinary `enter`, provided the native function does not hold back an exception.
Exceptions thrown by instructions are in `Verif.Vm.Abort`.
-/
namespace Verif.Vm.Depth
open Verif

/-- What entry and exit look at of a script function: the number of parameters, of local variables (parameters
included), and `min_code_stack_needed`. -/
structure Fn where
  params : Nat
  locals : Nat
  need : Nat
  deriving DecidableEq, Repr

/-- `ZS_VM_FUNCTION_CALL_MAX`, `src/vm/vm.h` 14. -/
def callMax : Int := 100

/-- The machine. `cur` = `vm_current_scope_function - vm_scope_function`; `live` = the script functions being executed,
innermost first, with the index of their first variable; `fromHost` = `first_script_call_from_c`. -/
structure Vm where
  size : Nat
  cur : Int := 0
  live : List (Nat × Fn) := []
  fromHost : Bool := false
  err : Bool := false
  frames : List Int := []
  writes : List Nat := []
  deriving DecidableEq, Repr

/-- What may happen. -/
inductive Event where
  /-- The host runs the main function `f`. -/
  | main (f : Fn)
  /-- The host calls the script function `f` with `n` arguments; `globals` = the number of variables of the main function. -/
  | host (globals n : Nat) (f : Fn)
  /-- The running function calls `f`; `given` arguments were pushed from index `start` on. -/
  | enter (start given : Nat) (f : Fn)
  /-- The running function ends, by `return` or at its end. -/
  | leave
  /-- The running function writes the element at an index of the operand stack. -/
  | write (i : Nat)
  /-- A script error in the running function; `exits` = it goes through `lbl_exit_function` (`ZS_VM_STOP_EXECUTE`). -/
  | fail (exits : Bool)
  deriving DecidableEq, Repr

/-- `vm_script_function.cpp` 687-695: the scopes of frame `cur - 1` are popped, then `--vm_current_scope_function`. -/
def pop (v : Vm) : Vm := { v with frames := (v.cur - 1) :: v.frames, cur := v.cur - 1 }

/-- Indices `a, …, b - 1`. -/
def upTo (a b : Nat) : List Nat := (List.range (b - a)).map (a + ·)

/-- Entry of a script function, `vm_script_function.cpp` 68-98. -/
def enterFn (v : Vm) (start : Nat) (f : Fn) (isMain : Bool) : Vm :=
  if callMax ≤ v.cur then { v with err := true }
  else if v.size ≤ start + f.locals + f.need then
    -- `goto lbl_exit_function`: 682 writes the element at `stk_start`, then a frame is popped
    { pop { v with writes := (start + f.locals) :: v.writes } with err := true }
  else
    { v with
      frames := v.cur :: v.frames
      cur := v.cur + 1
      live := (start, f) :: v.live
      writes := (if isMain then [] else upTo (start + f.params) (start + f.locals)) ++ v.writes }

/-- `vm_do_stack_dump`, `vm.cpp` 31-49. -/
def dumpFrom (v : Vm) : Nat → Vm
  | 0 => v
  | n + 1 => dumpFrom (pop v) n

/-- After the outermost function has stopped, `vm.cpp` 351-411: the stack dump after an error; the frame index of a host
call is reset. -/
def finish (v : Vm) : Vm :=
  if v.err then { dumpFrom v v.cur.toNat with cur := 0, live := [], fromHost := false }
  else if v.live = [] ∧ v.fromHost then { v with cur := 0, fromHost := false }
  else v

/-- One event. Events that cannot happen (a call of the host into a running machine, anything else in an idle one) change
nothing. `vm_execute` clears the error state of the previous run (`vm.cpp` 273-275). -/
def step (v : Vm) : Event → Vm
  | .main f => if v.live = [] then finish (enterFn { v with err := false } 0 f true) else v
  | .host globals n f =>
    if v.live = [] then
      finish (enterFn { v with err := false, cur := 1, fromHost := true, writes := upTo globals (globals + n) ++ v.writes } globals f false)
    else v
  | .enter start given f =>
    if v.live = [] then v
    else finish (enterFn { v with writes := upTo (start + given) (start + f.params) ++ v.writes } start f false)
  | .leave => match v.live with
    | [] => v
    | _ :: rest => finish { pop v with live := rest }
  | .write i => if v.live = [] then v else { v with writes := i :: v.writes }
  | .fail exits => match v.live with
    | [] => v
    | _ :: _ => finish { (if exits then pop v else v) with err := true }

/-- A history, from a new machine. -/
def run (size : Nat) (es : List Event) : Vm := es.foldl step { size := size }

end Verif.Vm.Depth
