import Verif.Common
import Verif.Module.EvalSyntax
/-
`System::eval` and how its values reach the expression that called it.

Simplified: values are numbers and `undefined` (shares of objects are not modelled); a call made by the evaluated code has no effect
on its variables; the evaluated code has no script errors. The text of the code is not modelled, only the instructions that it is
compiled to.
-/
namespace Verif.Eval
open Verif

/-- The instructions that the evaluated code is compiled to. `store` and `call` have the property `RESET_STACK`. -/
inductive Instr where
  | load (e : Src)
  | push (i : Nat)
  | store
  | call
  | reset
  | jnt (k : Nat)
  | undef
  | ret
  | stop
  deriving DecidableEq, Repr

/-- Code of a simple statement: expressions (`compiler_expression.cpp` 443-497: all values, then `RESET_STACK`), an assignment (its
value, its target, `STORE`), a call (its arguments, `CALL`), `return` (`compiler_keyword_function.cpp` 606-677). -/
def simple : Simple → List Instr
  | .expr e es => .load e :: es.map .load ++ [.reset]
  | .set i e => [.load e, .push i, .store]
  | .call es => es.map .load ++ [.call]
  | .ret es => es.map .load ++ [.ret]

/-- Code of a statement; `if`: `compiler_keyword_conditional.cpp` 32-88 (a block without variables has no code of its own). -/
def stmt : Stmt → List Instr
  | .one s => simple s
  | .ite c body => .load c :: .jnt (body.flatMap simple).length :: body.flatMap simple

/-- The instructions of the function that `eval` makes, without the ending one. -/
def code (ss : List Stmt) : List Instr := ss.flatMap stmt

/-- What `eval` makes of them (`SystemModule.cpp` 133-152): code of at least two instructions that does not end with `RET` gets
`LOAD_UNDEFINED` and `RET`; an ending `RESET_STACK` is overwritten. The buffer is filled with zeros (`END_FUNCTION`) behind that. -/
def patch (is : List Instr) : List Instr :=
  if is.length + 1 > 2 then
    match is.getLast? with
    | some .ret => is ++ [.stop]
    | some .reset => is.dropLast ++ [.undef, .ret, .stop, .stop]
    | _ => is ++ [.undef, .ret, .stop]
  else is ++ [.stop]

/-- The target of a store, as `push` leaves it on the stack. -/
inductive Cell where
  | val (v : Val)
  | addr (i : Nat)
  deriving DecidableEq, Repr

/-- The value in an element of the stack (a target as a value does not occur). -/
def Cell.get : Cell → Val
  | .val v => v
  | .addr _ => .undef

/-- `vm_execute_script_function` for these instructions: the values on the operand stack at `RET`, or `none` if the end was reached
(`vm_script_function.cpp` 360-398, 673-685). The first argument bounds the number of instructions executed; jumps only go forward. -/
def exec : Nat → List Instr → List Val → List Cell → Option (List Val)
  | 0, _, _, _ => none
  | _ + 1, [], _, _ => none
  | m + 1, .load e :: is, vars, st => exec m is vars (st ++ [.val (e.val vars)])
  | m + 1, .push i :: is, vars, st => exec m is vars (st ++ [.addr i])
  | m + 1, .store :: is, vars, st =>
    match st.reverse with
    | .addr i :: v :: _ => exec m is (vars.set i v.get) []
    | _ => exec m is vars []
  | m + 1, .call :: is, vars, _ => exec m is vars []
  | m + 1, .reset :: is, vars, _ => exec m is vars []
  | m + 1, .jnt k :: is, vars, st =>
    match st.reverse with
    | c :: rest => if c.get.true? then exec m is vars rest.reverse else exec m (is.drop k) vars rest.reverse
    | [] => none
  | m + 1, .undef :: is, vars, st => exec m is vars (st ++ [.val .undef])
  | _ + 1, .ret :: _, _, st => some (st.map Cell.get)
  | _ + 1, .stop :: _, _, _ => none

/-- The stack of the machine and `vm_stk_current`. -/
structure St where
  mem : Nat → Val
  cur : Nat

/-- Reversing `n` elements in place (`SystemModule.cpp` 202-206, `vm_native_function.cpp` 942-946, `vm_call.cpp` 621-625). -/
def rev (mem : Nat → Val) (at' n : Nat) : Nat → Val := fun j =>
  if at' ≤ j ∧ j < at' + n then mem (at' + (n - 1 - (j - at'))) else mem j

/-- Setting `n` elements to `undefined`. -/
def clear (mem : Nat → Val) (at' n : Nat) : Nat → Val := fun j => if at' ≤ j ∧ j < at' + n then .undef else mem j

/-- `SystemModule_eval` from running the function on (`SystemModule.cpp` 154-209). `start` is `vm_stk_current` at the call, behind the
arguments of `eval`; `np` parameters and `nl` further variables of the evaluated code are there, `undefined` when it has ended, and
the returned values `r` behind them; without `return`, `vm_stk_current` is back at `start`. The number of values is counted from the
end of the parameters, so it is negative then. -/
def evalEnd (mem : Nat → Val) (start np nl : Nat) (r : Option (List Val)) : Out St :=
  let vars := clear mem start (np + nl)
  match r with
  | some vs =>
    let top : Nat → Val := fun j => if start + np + nl ≤ j ∧ j < start + np + nl + vs.length
      then (vs[j - (start + np + nl)]?).getD .undef else vars j
    let n := nl + vs.length
    let down : Nat → Val := fun j => if start ≤ j ∧ j < start + n then top (j + np) else top j
    .ok ⟨rev down start n, start + n⟩
  | none => if start < np then .ub else .ok ⟨vars, start - np⟩

/-- The end of `vm_execute_native_function` (`vm_native_function.cpp` 932-947) for a function without result: `undefined` is pushed, and
what lies behind the arguments is reversed. -/
def nativeEnd (s : St) (start : Nat) : St :=
  ⟨rev (clear s.mem s.cur 1) start (s.cur + 1 - start), s.cur + 1⟩

/-- The end of `vm_call` (`vm_call.cpp` 604-638) for a call that expects `m` values: `undefined` is pushed until there are `m`, what
lies behind the arguments is reversed, and the first `m` are moved to where the arguments began. -/
def callEnd (s : St) (start nargs m : Nat) : St :=
  let pad := start + m - s.cur
  let mem := clear s.mem s.cur pad
  let mem := rev mem start (s.cur + pad - start)
  ⟨fun j => if start - nargs ≤ j ∧ j < start - nargs + m then mem (j + nargs) else mem j, start - nargs + m⟩

/-- A call of `System::eval` with `nargs` arguments (1, or 2 if there are parameters) that expects `m` values, when the stack of the
machine is `mem` and the arguments end at `start`. -/
def evalCall (mem : Nat → Val) (start nargs : Nat) (params : List Val) (nl : Nat) (ss : List Stmt) (m : Nat) : Out St :=
  let is := patch (code ss)
  let r := exec is.length is (params ++ List.replicate nl .undef) []
  (evalEnd mem start params.length nl r).map fun s => callEnd (nativeEnd s start) start nargs m

end Verif.Eval
