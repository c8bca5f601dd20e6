import Verif.Common
/-
Accesses and calls in a row, `o.a[i].f(x)(y)`: code generation (`src/compiler/compiler_expression_token_symbol.cpp` 370-680) and what the
instructions do to the operand stack (`src/vm/vm_call.cpp` 106-240 and 605-638, `src/vm/vm_container.cpp` 38-335).

Simplifications
* all parameters are by value, and a call gives one value (the default, `INSTRUCTION_SET_VALUE_OP1_RETURN_AND_PARAMETER_COUNT(1,..)`);
* operators are `op o`; the peephole optimiser is in `Expr.lean`;
* `CALL`, `INDIRECT_LOCAL_CALL`, `INDIRECT_GLOBAL_CALL` are one instruction `call x`: what the name means is up to `World.var`; in the same way
  `THIS_CALL` and `INDIRECT_THIS_CALL` are `thisCall`;
* `.m.x` with a method `m` is an error at run time (`vm_container.cpp` 105-116); here `.x` is looked up in the bound function `o.m`;
* getters and the function remembered at an instruction are left out (C42).
-/
namespace Verif.Comp.Acc
open Verif

/-! ### Syntax -/

mutual
/-- Expressions; `V` = values of literals. -/
inductive E (V : Type) where
  | lit (v : V)
  /-- `x++` -/
  | post (x : Nat)
  | bin (o : Nat) (a b : E V)
  /-- `x` and accesses -/
  | var (x : Nat) (as : Accs V)
  /-- `this.k` and accesses -/
  | this (k : Nat) (as : Accs V)
  /-- `super(args)` and accesses -/
  | super (args : Args V) (as : Accs V)
/-- Accesses in a row. -/
inductive Accs (V : Type) where
  | nil
  /-- `.n` -/
  | fld (n : Nat) (rest : Accs V)
  /-- `[e]` -/
  | idx (e : E V) (rest : Accs V)
  /-- `(args)` -/
  | call (args : Args V) (rest : Accs V)
inductive Args (V : Type) where
  | nil
  | cons (e : E V) (rest : Args V)
end

def Args.length {V : Type} : Args V → Nat
  | .nil => 0
  | .cons _ rest => rest.length + 1

/-! ### Code -/

inductive I (V : Type) where
  | lit (v : V)
  /-- `LOAD_LOCAL`, `LOAD_GLOBAL` -/
  | load (x : Nat)
  /-- `PUSH_STK_LOCAL`, `PUSH_STK_GLOBAL` -/
  | ptr (x : Nat)
  /-- `LOAD_THIS_VARIABLE` -/
  | loadThis (k : Nat)
  /-- what `super` starts with -/
  | loadSuper
  | post (x : Nat)
  | op (o : Nat)
  /-- `LOAD_ARRAY_ITEM` -/
  | item
  /-- `LOAD_OBJECT_ITEM`; `calling` = `INSTRUCTION_PROPERTY_CALLING_FUNCTION` -/
  | field (n : Nat) (calling : Bool)
  | call (x n : Nat)
  | thisCall (k n : Nat)
  | superCall (n : Nat)
  | stackCall (n : Nat)
  | memberCall (n : Nat)
  deriving DecidableEq, Repr

/-- `INSTRUCTION_SET_VALUE_OP1_RETURN_AND_PARAMETER_COUNT` (`src/core/Instruction.h`): four bits for the number of arguments. -/
def count (n : Nat) : Nat := n % 16

/-- The access before: the name the chain starts with (`it_accessor_token==0`), `this.k` (`last_instruction_token` is
`LOAD_THIS_VARIABLE`), a name, or an index or call (`last_accessor_value==""`). -/
inductive Last where
  | start (x : Nat)
  | this (k : Nat)
  | name
  | other

/-- `last_instruction_token->vm_instruction.properties|=INSTRUCTION_PROPERTY_CALLING_FUNCTION`, line 496. -/
def mark {V : Type} (code : List (I V)) : List (I V) :=
  match code.getLast? with
  | some (.field n _) => code.dropLast ++ [.field n true]
  | _ => code

/-- An argument whose code is one instruction that loads a variable pushes a pointer to the variable, 450-463. -/
def pointer {V : Type} : List (I V) → List (I V)
  | [.load x] => [.ptr x]
  | code => code

section Gen
variable {V : Type}

mutual
def compE : E V → List (I V)
  | .lit v => [.lit v]
  | .post x => [.post x]
  | .bin o a b => compE a ++ compE b ++ [.op o]
  | .var x as => compAccs false as [.load x] (.start x)
  | .this k as => compAccs false as [.loadThis k] (.this k)
  | .super args as => compAccs true as (([I.loadSuper] ++ compArgs args ++ [I.superCall (count args.length)]).tail) .other
/-- The loop of lines 382-678. `sup` = the chain starts with `super`: every `(` in it becomes `SUPER_CALL` (477-478). `CALL`, `THIS_CALL` and
`SUPER_CALL` take the place of the first instruction, which is erased (608-633). -/
def compAccs (sup : Bool) : Accs V → List (I V) → Last → List (I V)
  | .nil, code, _ => code
  | .fld n rest, code, _ => compAccs sup rest (code ++ [.field n false]) .name
  | .idx e rest, code, _ => compAccs sup rest (code ++ compE e ++ [.item]) .other
  | .call args rest, code, last =>
    if sup then compAccs sup rest ((code ++ compArgs args ++ [I.superCall (count args.length)]).tail) .other
    else match last with
      | .start x => compAccs sup rest ((code ++ compArgs args ++ [I.call x (count args.length)]).tail) .other
      | .this k => compAccs sup rest ((code ++ compArgs args ++ [I.thisCall k (count args.length)]).tail) .other
      | .name => compAccs sup rest (mark code ++ compArgs args ++ [.memberCall (count args.length)]) .other
      | .other => compAccs sup rest (code ++ compArgs args ++ [.stackCall (count args.length)]) .other
/-- Arguments, 412-475. -/
def compArgs : Args V → List (I V)
  | .nil => []
  | .cons e rest => pointer (compE e) ++ compArgs rest
end
end Gen

/-! ### Machine -/

/-- What a member of an object is. -/
inductive Member (V M : Type) where
  | method (m : M)
  | data (v : V)
  | missing

/-- Values and operations; a call may change the state. -/
structure World where
  V : Type
  St : Type
  /-- methods -/
  M : Type
  undef : V
  var : Nat → St → V
  /-- `this.k`, not called -/
  this : Nat → St → Out (V × St)
  post : Nat → St → Out (V × St)
  bin : Nat → V → V → St → Out (V × St)
  index : V → V → St → Out (V × St)
  /-- `none`: not an object -/
  member : V → Nat → St → Option (Member V M)
  /-- the bound function `o.m` -/
  bind : V → M → St → V × St
  isFun : V → Bool
  /-- an error if the value is no function -/
  callFun : V → List V → St → Out (V × St)
  callMeth : M → V → List V → St → Out (V × St)
  callThis : Nat → List V → St → Out (V × St)
  callSuper : List V → St → Out (V × St)

section Run
variable (W : World)

/-- Elements of the operand stack. -/
inductive Elem (V M : Type) where
  | val (v : V)
  | ptr (x : Nat)
  | meth (m : M)

abbrev World.Elem := Acc.Elem W.V W.M

/-- Operand stack (top first) and state. -/
abbrev World.Cfg := List W.Elem × W.St

/-- The value an argument is passed as: pointers are followed when the call is made, `vm_call.cpp` 334-337. -/
def argOf (s : W.St) : W.Elem → Out W.V
  | .val v => .ok v
  | .ptr x => .ok (W.var x s)
  | .meth _ => .ub

def argsOf (s : W.St) : List W.Elem → Out (List W.V)
  | [] => .ok []
  | e :: rest => (argOf W s e).bind fun v => (argsOf s rest).map fun vs => v :: vs

/-- The result is written in place of what was above `stk`, `vm_call.cpp` 631-637. -/
def result (stk : List W.Elem) (o : Out (W.V × W.St)) : Out W.Cfg := o.map fun p => (.val p.1 :: stk, p.2)

/-- The element called: `vm_call.cpp` 215-285. `obj` = the value found below it. -/
def callElem (f : W.Elem) (obj : Option W.Elem) (vs : List W.V) (s : W.St) : Out (W.V × W.St) :=
  match f, obj with
  | .meth m, some (.val o) => W.callMeth m o vs s
  | .val v, _ => W.callFun v vs s
  | _, _ => .ub

/-- One instruction. Taking more elements than there are on the operand stack is `ub`: the memory below belongs to the local variables. -/
def exec : I W.V → W.Cfg → Out W.Cfg
  | .lit v, c => .ok (.val v :: c.1, c.2)
  | .load x, c => .ok (.val (W.var x c.2) :: c.1, c.2)
  | .ptr x, c => .ok (.ptr x :: c.1, c.2)
  | .loadThis k, c => result W c.1 (W.this k c.2)
  | .loadSuper, _ => .err
  | .post x, c => result W c.1 (W.post x c.2)
  | .op o, c =>
    match c.1 with
    | .val b :: .val a :: stk => result W stk (W.bin o a b c.2)
    | _ => .ub
  | .item, c =>
    match c.1 with
    | .val i :: .val a :: stk => result W stk (W.index a i c.2)
    | _ => .ub
  | .field n calling, c =>
    match c.1 with
    | .val o :: stk =>
      match W.member o n c.2 with
      | none => .err
      | some (.method m) => if calling then .ok (.meth m :: .val o :: stk, c.2) else .ok (.val (W.bind o m c.2).1 :: stk, (W.bind o m c.2).2)
      | some (.data v) => if calling && !W.isFun v then .err else .ok (.val v :: stk, c.2)
      | some .missing => if calling then .err else .ok (.val W.undef :: stk, c.2)
    | _ => .ub
  | .call x n, c =>
    if c.1.length < n then .ub else (argsOf W c.2 (c.1.take n).reverse).bind fun vs => result W (c.1.drop n) (W.callFun (W.var x c.2) vs c.2)
  | .thisCall k n, c =>
    if c.1.length < n then .ub else (argsOf W c.2 (c.1.take n).reverse).bind fun vs => result W (c.1.drop n) (W.callThis k vs c.2)
  | .superCall n, c =>
    if c.1.length < n then .ub else (argsOf W c.2 (c.1.take n).reverse).bind fun vs => result W (c.1.drop n) (W.callSuper vs c.2)
  | .stackCall n, c =>        -- `vm_call.cpp` 189-195: `sf_call_stk_start_function_object=0`
    match c.1.drop n with
    | f :: stk => (argsOf W c.2 (c.1.take n).reverse).bind fun vs => result W (f :: stk) (callElem W f none vs c.2)
    | [] => .ub
  | .memberCall n, c =>       -- `vm_call.cpp` 208-217: `sf_call_stk_start_function_object=2`
    match c.1.drop n with
    | f :: o :: stk => (argsOf W c.2 (c.1.take n).reverse).bind fun vs => result W stk (callElem W f (some o) vs c.2)
    | _ => .ub

def run : List (I W.V) → W.Cfg → Out W.Cfg
  | [], c => .ok c
  | i :: rest, c => (exec W i c).bind (run rest)

end Run
end Verif.Comp.Acc
