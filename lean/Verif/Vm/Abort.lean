import Verif.Common
/-
Model of how the machine stops when something goes wrong, and of what is released then: script errors (`vm_error`), exceptions thrown
inside instructions and inside native functions, native functions that call back into scripts, `System::eval`, constructors, and calls
of the host (`src/vm/vm.cpp` 31-49 and 249-415, `src/vm/vm_script_function.cpp` 45-103 and 680-699, `src/vm/vm_call.cpp` 288-645,
`src/vm/vm.tcc` 33-76, `src/module/SystemModule.cpp` 24-205).

A run is given by what happens in it (`Act`). Simplifications: objects are numbers; of their counts only what variables, arguments and
calls add is modelled (`n_shares`, never negative here, so an `Int`); objects waiting with no share are `Verif.Vm.Share`'s. Global
variables keep what they get. A function of the main script that does not fit in the stack at all is `Verif.Vm.Depth`'s
(`frame_table_violated`). The values of functions are not modelled.
-/
namespace Verif.Vm.Abort
open Verif

/-- What happens in a function. -/
inductive Act where
  | skip
  | seq (a b : Act)
  /-- a variable declared in the innermost open block gets object `o` -/
  | hold (o : Nat)
  /-- a block -/
  | block (a : Act)
  /-- a call of a script function with the objects `args`; `left`: a parameter is left out, and `dflt` is what happens in the function
  that gives its default value; `fits`: the stack has room -/
  | call (args : List Nat) (left : Bool) (dflt : Act) (fits : Bool) (body : Act)
  /-- `new`: the same for the constructor of `this` -/
  | construct (this : Nat) (args : List Nat) (fits : Bool) (body : Act)
  /-- a native function that calls a script function back with `args`, of which `tmp` are new objects, and lets exceptions through -/
  | native (tmp args : List Nat) (fits : Bool) (body : Act)
  /-- the same, but a function of the host that catches the exception and calls a second script function in that case -/
  | guarded (first second : Act)
  /-- `System::eval` -/
  | eval (args : List Nat) (compiles fits : Bool) (body : Act)
  /-- a script error; `exits`: reported by `ZS_VM_STOP_EXECUTE` in `vm_execute_script_function` itself, otherwise in a function that it
  calls, or by a native function -/
  | fail (exits : Bool)
  /-- an instruction throws a C++ exception -/
  | raise
  deriving DecidableEq, Repr

/-- `cur` = `vm_current_scope_function - vm_scope_function`; for each entry of the table the objects of the variables of its open
blocks, innermost first; `n_shares`; what global variables hold; `vm_error`. -/
structure St where
  cur : Nat
  frames : Nat → List (List Nat)
  shares : Nat → Int
  globals : Nat → Int
  err : Bool

def St.init : St := { cur := 0, frames := fun _ => [], shares := fun _ => 0, globals := fun _ => 0, err := false }

/-- How a part of a run ends: well, with `vm_error` set and functions returning, with an exception on its way, or with memory outside
the table having been used. -/
inductive Sig where
  | ok
  | stopped
  | thrown
  | ub
  deriving DecidableEq, Repr

/-- How often `o` is in a list. -/
def occ (o : Nat) (l : List Nat) : Int := (l.count o : Int)

/-- `vm_share_object` for all of a list. -/
def share (σ : St) (l : List Nat) : St := { σ with shares := fun o => σ.shares o + occ o l }

/-- `vm_unref_shared_object` for all of a list. -/
def unshare (σ : St) (l : List Nat) : St := { σ with shares := fun o => σ.shares o - occ o l }

/-- `frames` changed at one entry. -/
def setFrame (σ : St) (i : Nat) (bs : List (List Nat)) : St := { σ with frames := fun j => if j = i then bs else σ.frames j }

/-- All open blocks of the entry `cur - 1` are popped (`vm_pop_scope`), then `--vm_current_scope_function`:
`vm_script_function.cpp` 691-697. For `cur ≠ 0`. -/
def popFrame (σ : St) : St :=
  let σ1 := setFrame (unshare σ (σ.frames (σ.cur - 1)).flatten) (σ.cur - 1) []
  { σ1 with cur := σ.cur - 1 }

/-- The same down to entry `k`: `SystemModule.cpp` 176-185, and `vm_do_stack_dump`, `vm.cpp` 36-47, for `k = 0`. -/
def popTo (σ : St) (k : Nat) : (n : Nat) → St
  | 0 => σ
  | n + 1 => if k < σ.cur then popTo (popFrame σ) k n else σ

/-- `vm_do_stack_dump`. -/
def dump (σ : St) : St := popTo σ 0 σ.cur

/-- `ZS_VM_FUNCTION_CALL_MAX`, `src/vm/vm.h` 14. -/
def callMax : Nat := 100

/-- `vm_execute_script_function` with a function other than the main one, whose body is `run`: entry 68-98, exit 680-697. Its arguments
have been shared and are variables of its outermost block. -/
def enter (σ : St) (args : List Nat) (fits : Bool) (run : St → St × Sig) : St × Sig :=
  if callMax ≤ σ.cur then ({ σ with err := true }, .stopped)
  else if fits then
    let σ1 := { setFrame σ σ.cur [args] with cur := σ.cur + 1 }
    match run σ1 with
    | (σ2, .ok) => if σ2.cur = 0 then (σ2, .ub) else (popFrame σ2, .ok)
    | r => r
  else if σ.cur = 0 then (σ, .ub)
  else ({ popFrame σ with err := true }, .stopped)

/-- A script function called by a native one, `vm_execute`, `vm.cpp` 287-411: with temporary objects shared once more until it has ended,
with a clean-up of the whole table after an error, which is then thrown. -/
def callBack (σ : St) (tmp args : List Nat) (fits : Bool) (run : St → St × Sig) : St × Sig :=
  if σ.cur = 0 then
    let σ1 := { σ with err := false, cur := 1 }
    match enter (share (share σ1 tmp) args) args fits run with
    | (σ2, .ok) => ({ unshare σ2 tmp with cur := 0 }, .ok)
    | (σ2, .stopped) => (dump σ2, .thrown)
    | r => r
  else
    match enter (share (share σ tmp) args) args fits run with
    | (σ2, .ok) => (unshare σ2 tmp, .ok)
    | (σ2, .stopped) => (dump σ2, .thrown)
    | r => r

/-- A native function called by a script, `vm_call.cpp` 536-552: exceptions become script errors. -/
def caught : St × Sig → St × Sig
  | (σ, .thrown) => ({ σ with err := true }, .stopped)
  | (σ, .ok) => if σ.err then (σ, .stopped) else (σ, .ok)
  | r => r

/-- What happens, in a running function. -/
def exec : Act → St → St × Sig
  | .skip, σ => (σ, .ok)
  | .seq a b, σ =>
    match exec a σ with
    | (σ1, .ok) => exec b σ1
    | r => r
  | .hold o, σ =>
    if σ.cur = 0 then (σ, .ub)
    else
      match σ.frames (σ.cur - 1) with
      | [] => ({ share σ [o] with globals := fun p => σ.globals p + occ p [o] }, .ok)
      | b :: bs => (setFrame (share σ [o]) (σ.cur - 1) ((o :: b) :: bs), .ok)
  | .block a, σ =>
    if σ.cur = 0 then (σ, .ub)
    else
      match exec a (setFrame σ (σ.cur - 1) ([] :: σ.frames (σ.cur - 1))) with
      | (σ1, .ok) =>
        if σ1.cur = 0 then (σ1, .ub)
        else
          match σ1.frames (σ1.cur - 1) with
          | b :: bs => (setFrame (unshare σ1 b) (σ1.cur - 1) bs, .ok)
          | [] => (σ1, .ub)
      | r => r
  | .call args left dflt fits body, σ =>
    -- vm_call.cpp 297-446
    match (if left then enter (share σ args) [] true (exec dflt) else (share σ args, .ok)) with
    | (σ1, .ok) => enter σ1 args fits (exec body)
    | r => r
  | .construct this args fits body, σ =>
    -- 430-456
    match enter (share (share σ args) [this]) args fits (exec body) with
    | (σ1, .ok) => (unshare σ1 [this], .ok)
    | r => r
  | .native tmp args fits body, σ => caught (callBack σ tmp args fits (exec body))
  | .guarded a b, σ =>
    match callBack σ [] [] true (exec a) with
    | (σ1, .thrown) => caught (callBack σ1 [] [] true (exec b))
    | r => caught r
  | .eval args compiles fits body, σ =>
    -- SystemModule.cpp 64-67, 119-131, 160-185
    let σ1 := share σ args
    if compiles then
      match enter σ1 args fits (exec body) with
      | (σ2, .stopped) => (popTo σ2 σ.cur σ2.cur, .stopped)
      | r => caught r
    else ({ σ1 with err := true }, .stopped)
  | .fail exits, σ =>
    if exits then
      if σ.cur = 0 then (σ, .ub) else ({ popFrame σ with err := true }, .stopped)
    else ({ σ with err := true }, .stopped)
  | .raise, σ => (σ, .thrown)

/-- What the host does: runs the main function, or calls a script function. -/
inductive Run where
  | main (a : Act)
  | host (tmp args : List Nat) (fits : Bool) (a : Act)
  deriving DecidableEq, Repr

/-- What the host gets: the function has ended, an exception that reports a script error, another exception, or none of these. -/
inductive Res where
  | done
  | failed
  | escaped
  | refused
  | ub
  deriving DecidableEq, Repr

/-- `vm_execute` called by the host, `vm.cpp` 249-415. -/
def runStep (σ : St) : Run → St × Res
  | .main a =>
    if σ.cur = 0 then
      let σ1 := { setFrame σ 0 [] with err := false, cur := 1 }
      match exec a σ1 with
      | (σ2, .ok) => if σ2.cur = 0 then (σ2, .ub) else (popFrame σ2, .done)
      | (σ2, .stopped) => (dump σ2, .failed)
      | (σ2, .thrown) => (σ2, .escaped)
      | (σ2, .ub) => (σ2, .ub)
    else (σ, .refused)
  | .host tmp args fits a =>
    match callBack σ tmp args fits (exec a) with
    | (σ1, .ok) => (σ1, .done)
    | (σ1, .thrown) => (σ1, if σ1.err then .failed else .escaped)
    | (σ1, .stopped) => (σ1, .failed)
    | (σ1, .ub) => (σ1, .ub)

/-- A history, with what the host gets each time. -/
def runAll (σ : St) : List Run → St × List Res
  | [] => (σ, [])
  | r :: rs =>
    let (σ1, x) := runStep σ r
    let (σ2, xs) := runAll σ1 rs
    (σ2, x :: xs)

end Verif.Vm.Abort
