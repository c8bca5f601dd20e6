import Verif.Common
import Verif.Vm.FramesSyntax
/-
Model of the frames of calls on the one stack of the virtual machine: `vm_execute` (src/vm/vm.cpp 248-415), `vm_call`
(src/vm/vm_call.cpp 288-647), `vm_execute_script_function` (src/vm/vm_script_function.cpp 43-99, 351-398, 678-699) and
`vm_execute_native_function` (src/vm/vm_native_function.cpp 340-948) as far as they move values on the stack.

Simplified: values have no memory of their own (objects: `Verif/Vm/Host.lean`, `Verif/Vm/Share.lean`); the stack has no end and calls
can be nested at will (C58, C75); expressions push their operands one after the other (the compiler joins some loads with the
operation, C26); `int`s do not overflow; functions have one block and are all declared before; defaults are literals.
-/
namespace Verif.Frames
open Verif

/-- `vm_stack`, and `vm_stk_current` as an index into it. -/
structure M where
  mem : Nat → Val
  sp : Nat

def M.set (m : M) (i : Nat) (v : Val) : M := { m with mem := fun j => if j = i then v else m.mem j }

/-- `*data->vm_stk_current++=…`. -/
def M.push (m : M) (v : Val) : M := { m.set m.sp v with sp := m.sp + 1 }

def M.pushAll (m : M) : List Val → M
  | [] => m
  | v :: vs => (m.push v).pushAll vs

/-- The cells from `i` on, `n` of them, are set to `undefined`. -/
def M.clear (m : M) (i n : Nat) : M := { m with mem := fun j => if i ≤ j ∧ j < i + n then .undef else m.mem j }

/-- Copies of `n` cells, from `src` to `dst`. -/
def M.copy (m : M) (src dst n : Nat) : M :=
  { m with mem := fun j => if dst ≤ j ∧ j < dst + n then m.mem (src + (j - dst)) else m.mem j }

/-- Where a function has its variables (`_stk_local_var`) and where its operands begin (`stk_start`). -/
structure Fr where
  base : Nat
  top : Nat

/-- `vm_execute_script_function` up to the first instruction, vm_script_function.cpp 66-99: the variables that are no parameters
are `undefined`. -/
def enter (F : Fn) (start : Nat) (m : M) : M :=
  { m.clear (start + F.params.length) F.vars with sp := start + F.all }

/-- The end of a function, vm_script_function.cpp 678-684: without `return` the operands are dropped. -/
def stop (start : Nat) (m : M) (returned : Bool) : M :=
  if returned then m else { m.set m.sp .undef with sp := start }

/-- vm_script_function.cpp 686-699 and vm.tcc 32-74: the variables are `undefined` again. -/
def leave (F : Fn) (start : Nat) (m : M) (returned : Bool) : M := (stop start m returned).clear start F.all

/-- The hand-over of one value, vm_call.cpp 604-638: missing values are pushed, their order is reversed, and the first is put where
the arguments began. -/
def handOver (start n : Nat) (m : M) : M :=
  let m1 := m.pushAll (List.replicate (start + n + 1 - m.sp) .undef)
  { m1 with sp := start }.push (m1.mem (m1.sp - 1))

/-- The first returned value of a function with `n` variables in `vm_execute`, vm.cpp 365-397, 408; the cells of all of them are set
to `undefined`. -/
def firstValue (n start : Nat) (m : M) : Val × M :=
  if start + n < m.sp then (m.mem (start + n), { m.clear (start + n) (m.sp - (start + n)) with sp := start })
  else (.undef, { m with sp := start })

/-- `INSTRUCTION_GET_PARAMETER_COUNT`, Instruction.h 41. -/
def count (n : Nat) : Nat := n % 16

mutual
/-- An expression: its value is pushed. -/
def exM (P : List Fn) : Nat → Fr → Ex → M → R M
  | 0, _, _, _ => .late
  | _ + 1, _, .lit v, m => .ok (m.push v)
  -- vm_script_function.cpp 113-115, 110-112
  | _ + 1, fr, .loc i, m => .ok (m.push (m.mem (fr.base + i)))
  | _ + 1, _, .glob i, m => .ok (m.push (m.mem i))
  -- two operands are popped, the result is pushed
  | n + 1, fr, .add a b, m =>
    (exM P n fr a m).bind fun m => (exM P n fr b m).bind fun m =>
      ((m.mem (m.sp - 2)).plus (m.mem (m.sp - 1))).bind fun v => .ok ({ m with sp := m.sp - 2 }.push v)
  | n + 1, fr, .lt a b, m =>
    (exM P n fr a m).bind fun m => (exM P n fr b m).bind fun m =>
      ((m.mem (m.sp - 2)).less (m.mem (m.sp - 1))).bind fun v => .ok ({ m with sp := m.sp - 2 }.push v)
  -- vm_call.cpp 288-447, 604-638: the arguments that are on the stack become the first variables of the function; defaults are
  -- pushed for those that are missing
  | n + 1, fr, .call f as, m =>
    (asM P n fr as m).bind fun m =>
      match P[f]? with
      | none => .err
      | some F =>
        let start := m.sp - count as.length
        (stM P n ⟨start, start + F.all⟩ F.body (enter F start (m.pushAll (F.params.drop (count as.length))))).bind fun r =>
          .ok (handOver start F.all (leave F start r.1 r.2))
  -- vm_native_function.cpp 340-420, 929-947, and `vm_execute` from within it, vm.cpp 289-397: the arguments are copied behind the
  -- operands; nothing is done for those that are missing
  | n + 1, fr, .apply f as, m =>
    (asM P n fr as m).bind fun m =>
      if count as.length ≥ 10 then .err
      else match P[f]? with
        | none => .err
        | some F =>
          let k := count as.length
          (stM P n ⟨m.sp, m.sp + F.all⟩ F.body (enter F m.sp (m.copy (m.sp - k) m.sp k))).bind fun r =>
            let g := firstValue F.all m.sp (leave F m.sp r.1 r.2)
            .ok (handOver (m.sp - k) k (g.2.push g.1))
/-- The arguments of a call, from the first to the last. -/
def asM (P : List Fn) : Nat → Fr → List Ex → M → R M
  | 0, _, _, _ => .late
  | _ + 1, _, [], m => .ok m
  | n + 1, fr, a :: as, m => (exM P n fr a m).bind fun m => asM P n fr as m
/-- A statement: the state, and whether the function has returned. At the end of each expression the operands are dropped
(`INSTRUCTION_PROPERTY_RESET_STACK`, vm_script_function.cpp 472-475, 497-500, 557-559). -/
def stM (P : List Fn) : Nat → Fr → St → M → R (M × Bool)
  | 0, _, _, _ => .late
  | _ + 1, _, .skip, m => .ok (m, false)
  | n + 1, fr, .ex e, m => (exM P n fr e m).bind fun m => .ok ({ m with sp := fr.top }, false)
  | n + 1, fr, .setLoc i e, m =>
    (exM P n fr e m).bind fun m => .ok ({ m.set (fr.base + i) (m.mem (m.sp - 1)) with sp := fr.top }, false)
  | n + 1, fr, .setGlob i e, m =>
    (exM P n fr e m).bind fun m => .ok ({ m.set i (m.mem (m.sp - 1)) with sp := fr.top }, false)
  | n + 1, fr, .seq s t, m =>
    (stM P n fr s m).bind fun r => if r.2 then .ok r else stM P n fr t r.1
  | n + 1, fr, .ite e s t, m =>
    (exM P n fr e m).bind fun m => (m.mem (m.sp - 1)).test.bind fun b =>
      stM P n fr (if b then s else t) { m with sp := m.sp - 1 }
  | n + 1, fr, .loop e s, m =>
    (exM P n fr e m).bind fun m => (m.mem (m.sp - 1)).test.bind fun b =>
      if b then
        (stM P n fr s { m with sp := m.sp - 1 }).bind fun r => if r.2 then .ok r else stM P n fr (.loop e s) r.1
      else .ok ({ m with sp := m.sp - 1 }, false)
  -- vm_script_function.cpp 360-398
  | _ + 1, _, .ret none, m => .ok (m, true)
  | n + 1, fr, .ret (some e), m => (exM P n fr e m).bind fun m => .ok (m, true)
end

/-- The engine between calls: the number of variables of the main function, and the stack. -/
structure E where
  vars : Nat
  mem : Nat → Val

/-- `ScriptEngine::compileAndRun`: each new variable is set to `undefined` when it is declared (ScriptFunction.cpp 602-607), then
`vm_execute` with the main function, vm.cpp 278-287, 339-412. -/
def runM (P : List Fn) (n : Nat) (e : E) (vars : Nat) (s : St) : R (Val × E) :=
  let top := e.vars + vars
  (stM P n ⟨0, top⟩ s ({ mem := e.mem, sp := top : M }.clear e.vars vars)).bind fun r =>
    let g := firstValue top 0 (stop 0 r.1 r.2)
    .ok (g.1, ⟨top, g.2.mem⟩)

/-- A function bound by `ScriptEngine::bindScriptFunction` and called by the host, ScriptEngine.tcc 160-1600, vm.cpp 289-412. -/
def callM (P : List Fn) (n : Nat) (e : E) (f : Nat) (as : List Val) : R (Val × E) :=
  match P[f]? with
  | none => .err
  | some F =>
    let start := e.vars
    let m := { mem := e.mem, sp := start : M }.pushAll as
    (stM P n ⟨start, start + F.all⟩ F.body (enter F start m)).bind fun r =>
      let g := firstValue F.all start (leave F start r.1 r.2)
      .ok (g.1, ⟨e.vars, g.2.mem⟩)

def opM (P : List Fn) (n : Nat) (e : E) : Op → R (Val × E)
  | .run vars s => runM P n e vars s
  | .call f as => callM P n e f as

/-- A history: the values that the host gets, up to the first error. -/
def opsM (P : List Fn) (n : Nat) : E → List Op → R (List Val)
  | _, [] => .ok []
  | e, o :: os => (opM P n e o).bind fun r => (opsM P n r.2 os).bind fun vs => .ok (r.1 :: vs)

end Verif.Frames
