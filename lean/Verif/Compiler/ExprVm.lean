import Verif.Compiler.Expr
/-
The instruction set of `Expr.lean` on the stack elements and operations of `Vm/Operation.lean`.
-/
namespace Verif.Comp
open Verif Verif.Vm

/-- What the operators leave to the rest of the machine. -/
structure Host where
  /-- floating point unit -/
  F : FloatOps
  /-- objects the operators look at -/
  m : Mem
  /-- `Integer::toString` / `Float::toString` -/
  num : V → List UInt8
  /-- address of the constant string with this text -/
  intern : List UInt8 → Word
  /-- creation of strings, arrays and objects, calls of metamethods -/
  heap : Eff → (Nat → Stk) → Out (Stk × (Nat → Stk))
  /-- calls, element and member access -/
  call : Nat → List Stk → (Nat → Stk) → Out (Stk × (Nat → Stk))
  /-- loads of other variables -/
  load : Nat → (Nat → Stk) → Out (Stk × (Nat → Stk))
  /-- `scriptTypeInheritsFrom` -/
  inherits : Nat → Nat → Bool

/-- Result of an operation on the stack. -/
def Host.run (h : Host) (e : Eff) (s : Nat → Stk) : Out (Stk × (Nat → Stk)) :=
  match e with
  | .val v => .ok (v, s)
  | .err => .err
  | .ub => .ub
  | e => h.heap e s

/-- Constant loads: `LOAD_INT`, `LOAD_FLOAT`, `LOAD_BOOL`, `LOAD_STRING` (`vm_script_function.cpp`; a constant string is a
read-only object). -/
def litStk : Const → Stk
  | .str a => held true (.obj a)
  | k => enc k.asV

/-- `INSTANCEOF`, `vm_script_function.cpp` 248-277. -/
def instOf (h : Host) (t : Nat) (v : Stk) : Stk :=
  if t = T_INT then mkBool (has v.props P_INT)
  else if t = T_FLOAT then mkBool (has v.props P_FLOAT)
  else if t = T_BOOL then mkBool (has v.props P_BOOL)
  else if t = T_SCRIPT_FUNCTION then mkBool (has v.props P_FUNCTION)
  else if has v.props P_OBJECT then mkBool (h.inherits (h.m.obj v.value).typeId t)
  else mkBool false

/-- The folded constant. -/
def foldConst (h : Host) (op : BOp) (a b : Const) : Option Const :=
  match fold h.F h.m h.num op a b with
  | .ok (.val (.int w)) => some (.int w)
  | .ok (.val (.flt w)) => some (.flt w)
  | .ok (.val (.bool b)) => some (.bool b)
  | .ok (.text t) => some (.str (h.intern t))
  | _ => none

/-- The virtual machine; the state is the table of local variables. `JNT` / `JT` test the boolean flag and compare the word
with 0 (`vm_script_function.cpp` 281-303). -/
def vmSem (h : Host) : Sem Empty where
  Val := Stk
  St := Nat → Stk
  lit := litStk
  reg := fun r s => s r
  glb := h.load
  ty := fun t => mkType (BitVec.ofNat 64 t)
  bin := fun op a b s => h.run (runBin h.F h.m op a b) s
  un := fun u a s => h.run (match u with | .neg => opNeg h.F a | .not => opNot a | .bwc => opBwc a) s
  inst := fun t v s => .ok (instOf h t v, s)
  app := h.call
  truth := fun v => if has v.props P_BOOL then some (toBool v) else none
  truth_bool := by intro b; cases b <;> decide
  fold := foldConst h
  ext := fun x => x.elim

end Verif.Comp
