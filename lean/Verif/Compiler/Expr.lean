import Verif.Compiler.Fold
/-
Code generation for expressions and the instructions it uses:
`src/compiler/compiler_expression_byte_code.cpp`, `compiler_expression_optimize.cpp` 395-568,
`compiler_expression_token_symbol.cpp` (operands), and their execution `src/vm/vm_script_function.cpp` 104-,
`src/vm/vm_pop_stk.h`.

Not modelled: reading a member variable through `this` without a prefix, reference parameters, assignments inside
expressions (see `Vm/Store.lean` for the store instruction).
-/
namespace Verif.Comp
open Verif Verif.Vm

/-- Prefix operators compiled to an instruction (`compiler_expression_token_symbol.cpp`: `NEG`, `NOT`, `BWC`). -/
inductive UOp where | neg | not | bwc
  deriving DecidableEq, Repr

/-- Instructions. `X` = instructions outside this file. -/
inductive Ins (X : Type) where
  /-- `LOAD_INT`, `LOAD_FLOAT`, `LOAD_BOOL`, `LOAD_STRING` -/
  | loadK (k : Const)
  /-- `LOAD_LOCAL` -/
  | loadR (r : Nat)
  /-- any other load of a variable, `undefined`, `null`, ... -/
  | loadG (x : Nat)
  /-- `LOAD_TYPE` -/
  | loadT (t : Nat)
  /-- operator on the two topmost stack elements -/
  | op (o : BOp)
  /-- operator, `ILOAD_R`: second operand is the local variable `value_op1` -/
  | opR (o : BOp) (v1 : Nat)
  /-- `ILOAD_RR`: first operand local `value_op1`, second one packed in bits 16-23 of `value_op2` -/
  | opRR (o : BOp) (v1 v2 : Nat)
  /-- `ILOAD_RK` -/
  | opRK (o : BOp) (v1 : Nat) (k : Const)
  /-- `ILOAD_KR` -/
  | opKR (o : BOp) (v1 : Nat) (k : Const)
  /-- `INSTANCEOF` with the type id in `value_op2` -/
  | inst (t : Nat)
  | un (u : UOp)
  | jmp (off : Int)
  | jnt (off : Int)
  | jt (off : Int)
  /-- `JNT` with `value_op1 = JNT_LOGIC_NEXT_OR`: offset not yet known -/
  | markAnd
  /-- `JT` with `value_op1 = JT_LOGIC_OK`: offset not yet known -/
  | markOr
  /-- call, element access or member access consuming `n` values -/
  | app (f n : Nat)
  | ext (x : X)
  deriving Repr

namespace Ins
variable {X : Type}

/-- `Instruction::isConstant`, `Instruction.cpp` 66-68, `ByteCode.h` 20-26. -/
def const? : Ins X → Option Const
  | loadK k => some k
  | _ => none

/-- `compiler_expression_get_register`, `compiler_expression_optimize.cpp` 129-190, for local variables:
`ZS_MAX_REGISTER_LENGTH` = 128. -/
def reg? : Ins X → Option Nat
  | loadR r => if r < 128 then some r else none
  | _ => none

/-- `value_op2` of the load that follows `instanceof` (418-421): the type id if it is a type. -/
def typeArg : Ins X → Nat
  | loadT t => t
  | loadK k => k.bits.toNat
  | loadR r => r
  | _ => 0

def isConst (i : Ins X) : Bool := i.const?.isSome

def isMarkOr : Ins X → Bool
  | markOr => true
  | _ => false

def isMarkAnd : Ins X → Bool
  | markAnd => true
  | _ => false

end Ins

/-- `value_op1` is a `uint8_t`. -/
def low8 (r : Nat) : Nat := r % 256

/-- `((load_value_op2_2 & 0xff) << 16)`, `compiler_expression_optimize.cpp` 458. -/
def pack (r : Nat) : Nat := (r % 256) * 65536

/-- `((instruction->value_op2&0xff0000)>>16)`, `vm_pop_stk.h` 68. -/
def unpack (v : Nat) : Nat := v / 65536 % 256

/-- `compiler_expression_optimize`, `compiler_expression_optimize.cpp` 414-567, followed by pushing the returned or the plain
instruction (`compiler_expression_byte_code.cpp` 178-192). The vector is `pre ++ [i1, i2]`. In the case where only the
second operand is constant (499-511) the kind is taken from the first instruction, so the optimisation never applies.
`none` = compile error. -/
def optimize {X : Type} (fold : BOp → Const → Const → Option Const) (op : BOp) (pre : List (Ins X)) (i1 i2 : Ins X) :
    Option (List (Ins X)) :=
  if op = .inst then some (pre ++ [i1, .inst i2.typeArg])
  else match i1.const?, i2.const?, i1.reg?, i2.reg? with
    | some k1, some k2, _, _ => (fold op k1 k2).map fun k => pre ++ [.loadK k]
    | _, _, some r1, some r2 => some (pre ++ [.opRR op (low8 r1) (pack r2)])
    | _, some k2, some r1, _ => some (pre ++ [.opRK op (low8 r1) k2])
    | some k1, _, _, some r2 => some (pre ++ [.opKR op (low8 r2) k1])
    | _, some _, _, _ => some (pre ++ [i1, i2, .op op])
    | _, _, _, some r2 => some (pre ++ [i1, .opR op (low8 r2)])
    | _, _, _, _ => some (pre ++ [i1, i2, .op op])

/-- The operator instruction at the end of the vector. -/
def emitOp {X : Type} (fold : BOp → Const → Const → Option Const) (op : BOp) (code : List (Ins X)) : Option (List (Ins X)) :=
  match code.reverse with
  | i2 :: i1 :: pre => optimize fold op pre.reverse i1 i2
  | _ => some (code ++ [.op op])

/-- `compiler_two_last_instruction_are_constants`, `compiler_expression_byte_code.cpp` 55-68. -/
def twoLastConst {X : Type} (code : List (Ins X)) : Bool :=
  match code.reverse with
  | i2 :: i1 :: _ => i1.isConst && i2.isConst
  | _ => false

/-- `compiler_expression_tokens_to_byte_code`, `compiler_expression_byte_code.cpp` 71-205, along the tree given by its splits
(`parse`); `code` = the vector `compiler_instructions` so far. -/
def genTree {X : Type} (fold : BOp → Const → Const → Option Const) : Tree (List (Ins X)) → List (Ins X) → Option (List (Ins X))
  | .leaf c, code => some (code ++ c)
  | .node op l r, code =>
    (genTree fold l code).bind fun code1 =>
      if op = .land ∧ twoLastConst code1 = false then genTree fold r (code1 ++ [.markAnd])
      else if op = .lor ∧ twoLastConst code1 = false then genTree fold r (code1 ++ [.markOr])
      else (genTree fold r code1).bind fun code2 => emitOp fold op code2

/-- The tail that loads the value of a logical expression, `compiler_expression_byte_code.cpp` 339-397. -/
def logicTail {X : Type} (hasAnd hasOr : Bool) : List (Ins X) :=
  if hasAnd && hasOr then [.jmp 4, .loadK (.bool true), .jmp 2, .loadK (.bool false)]
  else if hasOr then [.jmp 2, .loadK (.bool true)]
  else if hasAnd then [.jmp 2, .loadK (.bool false)]
  else []

/-- The loop that gives the logical jumps their offsets, 399-430, on the instructions from position `i` to the end of the
vector. The load of `false` is the last instruction; the load of `true` is the last one, or the third from the end if both
are present. -/
def link {X : Type} (hasAnd : Bool) : List (Ins X) → List (Ins X)
  | [] => []
  | .markAnd :: rest =>
    (match rest.findIdx? Ins.isMarkOr with
      | some j => .jnt ((j : Int) + 2)
      | none => .jnt rest.length) :: link hasAnd rest
  | .markOr :: rest => .jt (if hasAnd then (rest.length : Int) - 2 else rest.length) :: link hasAnd rest
  | i :: rest => i :: link hasAnd rest

/-- `compiler_expression_to_byte_code` 317-430 for the instructions `own` generated from the tokens. -/
def finish {X : Type} (own : List (Ins X)) : List (Ins X) :=
  let hasAnd := own.any Ins.isMarkAnd
  let hasOr := own.any Ins.isMarkOr
  link hasAnd (own ++ logicTail hasAnd hasOr)

/-! ### Expressions

`Ex` is an expression whose operators are already grouped; the compiler sees the sequence of its operands and operators
(`flatten`). -/
mutual
inductive Ex where
  | opd (o : Opd)
  | bin (op : BOp) (l r : Ex)
inductive Opd where
  /-- literal -/
  | lit (k : Const)
  /-- local variable -/
  | reg (r : Nat)
  /-- global variable, `undefined`, `null`, function, ... -/
  | glb (x : Nat)
  /-- type name -/
  | ty (t : Nat)
  /-- call / element access / member access on the values of sub-expressions -/
  | app (f : Nat) (args : Args)
  /-- parentheses with an optional prefix operator -/
  | par (u : Option UOp) (s : Sub)
inductive Sub where
  | plain (e : Ex)
  /-- `c ? a : b` -/
  | tern (c : Ex) (a b : Sub)
inductive Args where
  | nil
  | cons (s : Sub) (rest : Args)
end

def Args.length : Args → Nat
  | .nil => 0
  | .cons _ rest => rest.length + 1

/-- From the grouped tree to the tokens and back through the compiler's splits. -/
def resplit {α : Type u} (t : Tree α) : Tree α := parse (flattenTokens t).1 (flattenTokens t).2
where
  /-- the token sequence of a tree -/
  flattenTokens : Tree α → α × List (BOp × α)
    | .leaf x => (x, [])
    | .node op l r => ((flattenTokens l).1, (flattenTokens l).2 ++ (op, (flattenTokens r).1) :: (flattenTokens r).2)

section Compile
variable {X : Type} (fold : BOp → Const → Const → Option Const)

mutual
/-- The operand tokens with their instructions (`compiler_expression_token_symbol.cpp`: parentheses 80-140, literals and
identifiers, calls and accesses), and the operators between them. -/
def treeOf : Ex → Option (Tree (List (Ins X)))
  | .opd o => (compOpd o).map Tree.leaf
  | .bin op l r => (treeOf l).bind fun tl => (treeOf r).bind fun tr => some (.node op tl tr)
/-- Instructions of one operand token. A parenthesised expression and every argument are compiled into a vector of their
own. -/
def compOpd : Opd → Option (List (Ins X))
  | .lit k => some [.loadK k]
  | .reg r => some [.loadR r]
  | .glb x => some [.loadG x]
  | .ty t => some [.loadT t]
  | .app f args => (compArgs args).map fun c => c ++ [.app f args.length]
  | .par u s => (compSub s []).map fun c => match u with | none => c | some u => c ++ [.un u]
/-- `compiler_sub_expression`, `compiler_expression.cpp` 26-210, and `compiler_expression_to_byte_code`,
`compiler_expression_byte_code.cpp` 215-560: tokens, logical jumps, then the ternary part (433-527) into the same vector. -/
def compSub : Sub → List (Ins X) → Option (List (Ins X))
  | .plain e, code =>
    (treeOf e).bind fun t => (genTree fold (resplit t) code).map fun c => code ++ finish (c.drop code.length)
  | .tern c a b, code =>
    (treeOf c).bind fun t => (genTree fold (resplit t) code).bind fun c =>
      let code0 := code ++ finish (c.drop code.length)
      (compSub a (code0 ++ [.jnt 0])).bind fun code1 =>
      (compSub b (code1 ++ [.jmp 0])).bind fun code2 =>
        -- offsets are filled in at the end (524-525)
        some ((code2.set code0.length (.jnt ((code1.length + 1 - code0.length : Nat) : Int))).set code1.length
          (.jmp ((code2.length - code1.length : Nat) : Int)))
def compArgs : Args → Option (List (Ins X))
  | .nil => some []
  | .cons s rest => (compSub s []).bind fun c => (compArgs rest).map fun d => c ++ d
end
end Compile

/-! ### Execution -/

/-- Instruction pointer, operand stack (top first), the rest of the machine. -/
structure Cfg (V S : Type) where
  pc : Nat
  stk : List V
  st : S

/-- What an instruction set needs from the rest of the machine. -/
structure Sem (X : Type) where
  Val : Type
  St : Type
  /-- constant loads -/
  lit : Const → Val
  /-- local variable -/
  reg : Nat → St → Val
  glb : Nat → St → Out (Val × St)
  ty : Nat → Val
  bin : BOp → Val → Val → St → Out (Val × St)
  un : UOp → Val → St → Out (Val × St)
  inst : Nat → Val → St → Out (Val × St)
  app : Nat → List Val → St → Out (Val × St)
  /-- the test of `JNT` and `JT`: `none` if the value is not a boolean -/
  truth : Val → Option Bool
  truth_bool : ∀ b, truth (lit (.bool b)) = some b
  fold : BOp → Const → Const → Option Const
  ext : X → Cfg Val St → Out (Cfg Val St)

section Exec
variable {X : Type} (S : Sem X)

/-- Push the result of an operation and go to the next instruction. -/
def pushRes (c : Cfg S.Val S.St) (stk : List S.Val) (r : Out (S.Val × S.St)) : Out (Cfg S.Val S.St) :=
  r.map fun p => ⟨c.pc + 1, p.1 :: stk, p.2⟩

/-- `instruction+instruction->value_op2`. -/
def jump (c : Cfg S.Val S.St) (stk : List S.Val) (off : Int) : Cfg S.Val S.St := ⟨((c.pc : Int) + off).toNat, stk, c.st⟩

/-- One instruction, `vm_script_function.cpp` 128-330 and `vm_pop_stk.h` 39-70. `ub` = stack underflow (or an instruction
that is not executable). -/
def exec (i : Ins X) (c : Cfg S.Val S.St) : Out (Cfg S.Val S.St) :=
  match i, c.stk with
  | .loadK k, stk => pushRes S c stk (.ok (S.lit k, c.st))
  | .loadR r, stk => pushRes S c stk (.ok (S.reg r c.st, c.st))
  | .loadG x, stk => pushRes S c stk (S.glb x c.st)
  | .loadT t, stk => pushRes S c stk (.ok (S.ty t, c.st))
  | .op o, b :: a :: stk => pushRes S c stk (S.bin o a b c.st)
  | .opR o v1, a :: stk => pushRes S c stk (S.bin o a (S.reg v1 c.st) c.st)
  | .opRR o v1 v2, stk => pushRes S c stk (S.bin o (S.reg v1 c.st) (S.reg (unpack v2) c.st) c.st)
  | .opRK o v1 k, stk => pushRes S c stk (S.bin o (S.reg v1 c.st) (S.lit k) c.st)
  | .opKR o v1 k, stk => pushRes S c stk (S.bin o (S.lit k) (S.reg v1 c.st) c.st)
  | .inst t, a :: stk => pushRes S c stk (S.inst t a c.st)
  | .un u, a :: stk => pushRes S c stk (S.un u a c.st)
  | .jmp off, stk => .ok (jump S c stk off)
  | .jnt off, a :: stk =>
    match S.truth a with
    | none => .err
    | some b => .ok (if b then ⟨c.pc + 1, stk, c.st⟩ else jump S c stk off)
  | .jt off, a :: stk =>
    match S.truth a with
    | none => .err
    | some b => .ok (if b then jump S c stk off else ⟨c.pc + 1, stk, c.st⟩)
  | .app f n, stk => if stk.length < n then .ub else pushRes S c (stk.drop n) (S.app f (stk.take n).reverse c.st)
  | .ext x, _ => S.ext x c
  | _, _ => .ub

/-- The machine runs from `c` to `c'`. -/
inductive Steps (P : List (Ins X)) : Cfg S.Val S.St → Cfg S.Val S.St → Prop
  | refl (c) : Steps P c c
  | step {c i c' c''} (h : P[c.pc]? = some i) (e : exec S i c = .ok c') (rest : Steps P c' c'') : Steps P c c''

/-- The machine runs from `c` to a configuration, or stops with an error / undefined behaviour. -/
def Does (P : List (Ins X)) (c : Cfg S.Val S.St) : Out (Cfg S.Val S.St) → Prop
  | .ok c' => Steps S P c c'
  | .err => ∃ c' i, Steps S P c c' ∧ P[c'.pc]? = some i ∧ exec S i c' = .err
  | .ub => ∃ c' i, Steps S P c c' ∧ P[c'.pc]? = some i ∧ exec S i c' = .ub

end Exec
end Verif.Comp
