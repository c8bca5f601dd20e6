import Verif.Compiler.Stmt
/-
The operand stack a function asks for: `compiler_pop_and_compile_function`, `src/compiler/compiler.cpp` 543-755, and
`instruction_num_required_stack`, `src/core/Instruction.cpp` 90-250. The sum is compared once, when the function is entered,
with the room left on the stack (`src/vm/vm_script_function.cpp` 77-80); the pushes themselves are not checked.

Simplifications
* calls, element and member accesses are `app f n`; what the C++ function answers for them is given by `w`;
* the weights of instructions outside the model (`STORE_CONST`, `NEW_ARRAY`, ...) are left out, as is the case of two
  variables accessed through `this` (102-108).
-/
namespace Verif.Comp
open Verif Verif.Vm

/-- `instruction_num_required_stack` for the instructions of statements. -/
def needExt (w : Nat → Nat → Int) : SIns → Int
  | .addr _ => 1                -- PUSH_STK_LOCAL, 204-212
  | .store _ _ => -1            -- STORE 202-203 with one value; ADD_ASSIGN, ... 137-149
  | .storeN n => -(n : Int)     -- STORE 202-203
  | .step _ _ => 0              -- 164-172
  | .callR f n => w f n
  | .reset => 0                 -- 173
  | .push _ => 0                -- 162
  | .pop => 0                   -- 161
  | .jeCase _ => -1             -- 151-154
  | .jmpCase _ => 0             -- 159
  | .brk => 0                   -- JMP
  | .cont => 0                  -- JMP
  | .itInit => 0                -- 163
  | .member => 1                -- LOAD_OBJECT_ITEM with CALLING_FUNCTION, 176-180
  | .itEnd => 0                 -- MEMBER_CALL, one result, no parameter, 238-241
  | .itGet n => (n : Int) - 1   -- MEMBER_CALL, `n` results
  | .itNext => -1               -- MEMBER_CALL, no result
  | .ret => 0                   -- 157
  | .fin => 0                   -- END_FUNCTION comes behind the instructions that are counted, `compiler.cpp` 566-570

/-- `instruction_num_required_stack`, `Instruction.cpp` 90-250: how many elements more (or less) are on the stack after the
instruction. An operator with a variable or constant inside counts as one push (93-114). -/
def need (w : Nat → Nat → Int) : SI → Int
  | .loadK _ => 1
  | .loadR _ => 1
  | .loadG _ => 1
  | .loadT _ => 1
  | .op _ => -1
  | .opR _ _ => 1
  | .opRR _ _ _ => 1
  | .opRK _ _ _ => 1
  | .opKR _ _ _ => 1
  | .inst _ => 1
  | .un _ => 0
  | .jmp _ => 0
  | .jnt _ => -1
  | .jt _ => -1
  | .markAnd => -1
  | .markOr => -1
  | .app f n => w f n
  | .ext x => needExt w x

/-- The sum starts again: `RESET_STACK`, `RET` or the property `RESET_STACK`, `compiler.cpp` 655-661. -/
def restarts : SI → Bool
  | .ext (.store _ rst) => rst
  | .ext (.storeN _) => true
  | .ext (.step _ rst) => rst
  | .ext (.callR _ _) => true
  | .ext .reset => true
  | .ext .itInit => true
  | .ext .itNext => true
  | .ext .ret => true
  | _ => false

/-- The loop of `compiler.cpp` 577-705: `sum` = `sum_stk_load_stk`, `acc` = `max_acc_stk_load`; result: both at the end. -/
def needScan (w : Nat → Nat → Int) : Int → Int → List SI → Int × Int
  | sum, acc, [] => (sum, acc)
  | sum, acc, i :: rest =>
    let sum' := sum + need w i
    needScan w (if restarts i then 0 else sum') (max acc sum') rest

/-- `min_code_stack_needed`, `compiler.cpp` 705 and 747-751. -/
def reserve (w : Nat → Nat → Int) (code : List SI) : Int :=
  let p := needScan w 0 0 code
  if p.2 < p.1 then p.1 else p.2

/-- Kinds of `app`. -/
inductive AppKind where
  /-- `CALL`, `THIS_CALL`, `INDIRECT_*_CALL`, `SUPER_CALL`: the arguments are on the stack -/
  | call
  /-- `MEMBER_CALL`: object, function and arguments are on the stack -/
  | memberCall
  /-- `CONSTRUCTOR_CALL`: function and arguments -/
  | constructor
  /-- `LOAD_ARRAY_ITEM`: container and index -/
  | item
  /-- `LOAD_OBJECT_ITEM`: object -/
  | field
  deriving DecidableEq, Repr

/-- The weight of an `app` that takes `n` elements and leaves one (`Instruction.cpp` 176-241). -/
def AppKind.weight : AppKind → Nat → Int
  | .call, n => 1 - (n : Int)
  | .memberCall, n => 1 - ((n : Int) - 2 + 1)
  | .constructor, n => 1 - ((n : Int) - 1 + 1)
  | .item, _ => 1
  | .field, _ => 0

/-- The number of elements each kind takes. -/
def AppKind.Takes : AppKind → Nat → Prop
  | .call, _ => True
  | .memberCall, n => 2 ≤ n
  | .constructor, n => 1 ≤ n
  | .item, n => n = 2
  | .field, n => n = 1

end Verif.Comp
