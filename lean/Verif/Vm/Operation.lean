import Verif.Vm.Value
/-
Model of the operator macros of the virtual machine: `src/vm/vm_operation.h`, `vm_operation_assign.h`,
the unary byte codes of `vm_script_function.cpp` 192-247 and the dispatch part of
`vm_call_metamethod.cpp`.

An operation's effect is a value `Eff`. Calls of user-supplied metamethods (a script or native function
registered for the operand's type) are reported as `call` and not executed; the texts of error messages
are not modelled. Signed `zs_int` overflow and shifts by a count outside `[0,64)` are undefined behaviour
in C++ and reported as `ub`; `<<` of a negative number or into the sign bit keeps the low 64 bits (GCC and
C++20 define it so; C++11 does not).
-/
namespace Verif.Vm
open Verif

/-- Effect of an operation on the operand stack. -/
inductive Eff where
  /-- one stack element is pushed -/
  | val (s : Stk)
  /-- a new string object with the text of both operands is pushed (`vm_call_metamethod.cpp` 38-46) -/
  | strCat (a b : Stk)
  /-- a new array with the elements of both operands is pushed (47-58) -/
  | arrCat (a b : Word)
  /-- a new object merged from both operands is pushed (59-70) -/
  | objCat (a b : Word)
  /-- the metamethod of the type of object `self` is called -/
  | call (self : Word) (a b : Stk)
  /-- a script error is raised -/
  | err
  /-- undefined behaviour -/
  | ub
  deriving DecidableEq, Repr

/-- Operators `+ - *`. -/
inductive ArithOp where | add | sub | mul
  deriving DecidableEq, Repr

/-- Operators `& | ^ << >>`. -/
inductive BitOp where | and | or | xor | shl | shr
  deriving DecidableEq, Repr

/-- Operators `== != < <= > >=`. -/
inductive CmpOp where | eq | ne | lt | le | gt | ge
  deriving DecidableEq, Repr

/-- Operators `&& ||`. -/
inductive LogicOp where | and | or
  deriving DecidableEq, Repr

/-- `n` fits in `zs_int`. -/
def fits (n : Int) : Bool := -(2 ^ 63) ≤ n && n < 2 ^ 63

/-- Exact integer result. -/
def ArithOp.exact : ArithOp → Int → Int → Int
  | .add, a, b => a + b
  | .sub, a, b => a - b
  | .mul, a, b => a * b

/-- C++ `zs_int` arithmetic: undefined behaviour on overflow. -/
def intArith (op : ArithOp) (a b : Word) : Eff :=
  let r := op.exact a.toInt b.toInt
  if fits r then .val (mkInt (BitVec.ofInt 64 r)) else .ub

def fltArith (F : FloatOps) : ArithOp → Word → Word → Word
  | .add => F.add
  | .sub => F.sub
  | .mul => F.mul

/-- C++ `zs_int` bit operations. -/
def intBit (op : BitOp) (a b : Word) : Eff :=
  match op with
  | .and => .val (mkInt (a &&& b))
  | .or => .val (mkInt (a ||| b))
  | .xor => .val (mkInt (a ^^^ b))
  | .shl => if 0 ≤ b.toInt ∧ b.toInt < 64 then .val (mkInt (a <<< b.toNat)) else .ub
  | .shr => if 0 ≤ b.toInt ∧ b.toInt < 64 then .val (mkInt (a.sshiftRight b.toNat)) else .ub

/-- `vm_call_metamethod` with `_is_static`, `vm_call_metamethod.cpp` 6-260: built-in `+` on strings, arrays
and plain objects, else the metamethod of the first object operand; an error if no operand is an
object. -/
def metamethod (m : Mem) (isAdd : Bool) (a b : Stk) : Eff :=
  if isAdd && (isStr m a || isStr m b) then .strCat a b
  else if isAdd && (isArr m a && isArr m b) then .arrCat a.value b.value
  else if isAdd && (isDict m a && isDict m b) then .objCat a.value b.value
  else if has a.props P_OBJECT then .call a.value a b
  else if has b.props P_OBJECT then .call b.value a b
  else .err

/-- `ZS_VM_OPERATION_ADD` and `ZS_VM_OPERATION_ARITHMETIC`, `vm_operation.h` 99-155. -/
def arith (F : FloatOps) (m : Mem) (op : ArithOp) (a b : Stk) : Eff :=
  let pa := primitive a.props
  let pb := primitive b.props
  if pa = P_INT ∧ pb = P_INT then intArith op a.value b.value
  else if pa = P_INT ∧ pb = P_FLOAT then .val (mkFloat (fltArith F op (F.ofInt a.value.toInt) b.value))
  else if pa = P_FLOAT ∧ pb = P_INT then .val (mkFloat (fltArith F op a.value (F.ofInt b.value.toInt)))
  else if pa = P_FLOAT ∧ pb = P_FLOAT then .val (mkFloat (fltArith F op a.value b.value))
  else metamethod m (op == .add) a b

/-- `ZS_VM_OPERATION_DIV`, `vm_operation.h` 59-97. -/
def divide (F : FloatOps) (m : Mem) (a b : Stk) : Eff :=
  let pa := primitive a.props
  let pb := primitive b.props
  if pa = P_INT ∧ pb = P_INT then
    if b.value = 0 then .err else .val (mkFloat (F.div (F.ofInt a.value.toInt) (F.ofInt b.value.toInt)))
  else if pa = P_INT ∧ pb = P_FLOAT then
    if F.isZero b.value then .err else .val (mkFloat (F.div (F.ofInt a.value.toInt) b.value))
  else if pa = P_FLOAT ∧ pb = P_INT then
    if b.value = 0 then .err else .val (mkFloat (F.div a.value (F.ofInt b.value.toInt)))
  else if pa = P_FLOAT ∧ pb = P_FLOAT then
    if F.isZero b.value then .err else .val (mkFloat (F.div a.value b.value))
  else metamethod m false a b

/-- `ZS_VM_OPERATION_MOD`, `vm_operation.h` 226-264 (`fmod` converts integer operands to `double`). -/
def modulo (F : FloatOps) (m : Mem) (a b : Stk) : Eff :=
  let pa := primitive a.props
  let pb := primitive b.props
  if pa = P_INT ∧ pb = P_INT then
    if b.value = 0 then .err else .val (mkFloat (F.fmod (F.ofInt a.value.toInt) (F.ofInt b.value.toInt)))
  else if pa = P_INT ∧ pb = P_FLOAT then
    if F.isZero b.value then .err else .val (mkFloat (F.fmod (F.ofInt a.value.toInt) b.value))
  else if pa = P_FLOAT ∧ pb = P_INT then
    if b.value = 0 then .err else .val (mkFloat (F.fmod a.value (F.ofInt b.value.toInt)))
  else if pa = P_FLOAT ∧ pb = P_FLOAT then
    if F.isZero b.value then .err else .val (mkFloat (F.fmod a.value b.value))
  else metamethod m false a b

/-- C comparison of two `zs_int`. -/
def cmpInt : CmpOp → Int → Int → Bool
  | .eq, a, b => a = b
  | .ne, a, b => a ≠ b
  | .lt, a, b => a < b
  | .le, a, b => a ≤ b
  | .gt, a, b => b < a
  | .ge, a, b => b ≤ a

/-- C comparison of two `zs_float`. -/
def cmpFlt (F : FloatOps) : CmpOp → Word → Word → Bool
  | .eq, a, b => F.eq a b
  | .ne, a, b => !F.eq a b
  | .lt, a, b => F.lt a b
  | .le, a, b => F.le a b
  | .gt, a, b => F.lt b a
  | .ge, a, b => F.le b a

/-- C comparison of two `bool`. -/
def cmpBool (op : CmpOp) (a b : Bool) : Bool := cmpInt op a.toInt b.toInt

/-- `strcmp` as a sign: byte-wise, unsigned, a proper prefix is smaller. -/
def strcmp : List UInt8 → List UInt8 → Int
  | [], [] => 0
  | [], _ :: _ => -1
  | _ :: _, [] => 1
  | a :: as, b :: bs => if a < b then -1 else if b < a then 1 else strcmp as bs

/-- `vm_push_stk_boolean_equal_strings` for two string objects, `vm_script_function.cpp` 705-757. -/
def cmpStr (op : CmpOp) (a b : List UInt8) : Bool := cmpInt op (strcmp a b) 0

/-- `STK_VALUE_TO_BOOL`, `StackElement.h` 51. -/
def toBool (s : Stk) : Bool := s.value != 0

def CmpOp.isEquality : CmpOp → Bool
  | .eq => true
  | .ne => true
  | _ => false

/-- `ZS_VM_OPERATION_COMPARE`, `vm_operation.h` 157-224. In the branch for type values the source compares
`properties` of the first operand with the constant `SCRIPT_TYPE_ID_UNDEFINED` (lines 181-184). -/
def compare (F : FloatOps) (m : Mem) (op : CmpOp) (a b : Stk) : Eff :=
  let pa := primitive a.props
  let pb := primitive b.props
  if pa = P_INT ∧ pb = P_INT then .val (mkBool (cmpInt op a.value.toInt b.value.toInt))
  else if pa = P_BOOL ∧ pb = P_BOOL then .val (mkBool (cmpBool op (toBool a) (toBool b)))
  else if pa = P_INT ∧ pb = P_FLOAT then .val (mkBool (cmpFlt F op (F.ofInt a.value.toInt) b.value))
  else if pa = P_FLOAT ∧ pb = P_INT then .val (mkBool (cmpFlt F op a.value (F.ofInt b.value.toInt)))
  else if pa = P_FLOAT ∧ pb = P_FLOAT then .val (mkBool (cmpFlt F op a.value b.value))
  else if has a.props P_TYPE then
    if op.isEquality then
      if a.value = BitVec.ofNat 64 T_UNDEFINED ∧ a.props = BitVec.ofNat 16 T_UNDEFINED ∧ op = .eq then
        .val (mkBool true)
      else if a.value = BitVec.ofNat 64 T_UNDEFINED ∧ a.props ≠ BitVec.ofNat 16 T_UNDEFINED ∧ op = .ne then
        .val (mkBool true)
      else .val (mkBool (cmpInt op a.value.toInt b.value.toInt))
    else .val (mkBool false)
  else if isStr m a && isStr m b then .val (mkBool (cmpStr op (m.obj a.value).text (m.obj b.value).text))
  else if (a.props = P_UNDEFINED ∨ b.props = P_UNDEFINED) ∧ op.isEquality then
    if a.props = P_UNDEFINED ∧ b.props = P_UNDEFINED then .val (mkBool (op == .eq))
    else .val (mkBool (op != .eq))
  else if (a.props = P_NULL ∨ b.props = P_NULL) ∧ op.isEquality then
    if a.props = P_NULL ∧ b.props = P_NULL then .val (mkBool (op == .eq))
    else .val (mkBool (op != .eq))
  else metamethod m false a b

/-- `ZS_VM_OPERATION_LOGIC`, `vm_operation.h` 266-272. -/
def logic (op : LogicOp) (a b : Stk) : Eff :=
  if primitive (a.props &&& b.props) = P_BOOL then
    .val (mkBool (match op with | .and => toBool a && toBool b | .or => toBool a || toBool b))
  else .err

/-- `ZS_VM_OPERATION_BINARY`, `vm_operation.h` 275-289. -/
def bitwise (m : Mem) (op : BitOp) (a b : Stk) : Eff :=
  if primitive (a.props &&& b.props) = P_INT then intBit op a.value b.value
  else metamethod m false a b

/-- `BYTE_CODE_NOT`, `vm_script_function.cpp` 192-209. (`vm_call_metamethod` with `_is_static=false`: the
operand must be an object.) -/
def opNot (a : Stk) : Eff :=
  if has a.props P_BOOL then .val (mkBool (!toBool a))
  else if has a.props P_OBJECT then .call a.value a a else .err

/-- `BYTE_CODE_NEG`, `vm_script_function.cpp` 210-229. -/
def opNeg (F : FloatOps) (a : Stk) : Eff :=
  if has a.props P_INT then
    if fits (-a.value.toInt) then .val (mkInt (BitVec.ofInt 64 (-a.value.toInt))) else .ub
  else if has a.props P_FLOAT then .val (mkFloat (F.neg a.value))
  else if has a.props P_OBJECT then .call a.value a a else .err

/-- `BYTE_CODE_BWC`, `vm_script_function.cpp` 230-247. -/
def opBwc (a : Stk) : Eff :=
  if has a.props P_INT then .val (mkInt (~~~a.value))
  else if has a.props P_OBJECT then .call a.value a a else .err

/-! ### Compound assignment and increments -/

/-- Effect of `x op= e` / `x++` on the variable `x` (already located). -/
inductive AEff where
  /-- the variable becomes `dst` and `res` is pushed -/
  | set (dst res : Stk)
  /-- text of the operand is appended to the string object (`vm_call_metamethod.cpp` 284-290) -/
  | strAppend (a b : Stk)
  /-- `ObjectScriptObject::append(engine, op1, op1)` (`vm_call_metamethod.cpp` 291-298): the array is
  appended to itself, the right operand is not used -/
  | appendSelf (a : Word)
  /-- metamethod lookup on the object's type / member property -/
  | call (a b : Stk)
  | err
  | ub
  deriving DecidableEq, Repr

/-- The compound assignment operators. -/
inductive AssignOp where
  | arith (op : ArithOp)
  | div
  | mod
  | bit (op : BitOp)
  deriving DecidableEq, Repr

/-- `vm_call_metamethod_set`, `vm_call_metamethod.cpp` 262-405: built-in `+=` on strings and arrays, an
undefined or null right operand is an error, else the metamethod of a member property or object, else
an error (`ZS_LOAD_PROPERTIES`, `vm_operation.h` 35-57). -/
def metamethodSet (m : Mem) (isAdd : Bool) (a b : Stk) : AEff :=
  if isAdd && isStr m a then .strAppend a b
  else if isAdd && (isArr m a && isArr m b) then .appendSelf a.value
  else if b.props = 0 ∨ has b.props P_NULL then .err
  else if has a.props P_MEMBER_PROPERTY then .call a b
  else if has a.props P_OBJECT then .call a b
  else .err

/-- Store `r` through `zs_float_aux=(zs_float *)&stk_result_op1->value` and set the variable's properties
to `FLOAT` (`retag`) or leave them. -/
def setFloat (a : Stk) (retag : Bool) (r : Word) : AEff :=
  .set ⟨r, if retag then P_FLOAT else a.props⟩ (mkFloat r)

/-- The integer case `stk_result_op1->value op= stk_result_op2->value`: properties are left. -/
def setInt (a : Stk) : Eff → AEff
  | .val r => .set ⟨r.value, a.props⟩ r
  | _ => .ub

/-- `ZS_VM_OPERATION_ADD_ASSIGN`, `..._ARITHMETIC_ASSIGN`, `vm_operation_assign.h` 19-92. In the case
int variable, float operand the integer's bits are read through a `zs_float` pointer (25-27, 63-65). -/
def arithAssign (F : FloatOps) (m : Mem) (op : ArithOp) (a b : Stk) : AEff :=
  let pa := primitive a.props
  let pb := primitive b.props
  if pa = P_INT ∧ pb = P_INT then setInt a (intArith op a.value b.value)
  else if pa = P_INT ∧ pb = P_FLOAT then setFloat a true (fltArith F op a.value b.value)
  else if pa = P_FLOAT ∧ pb = P_INT then setFloat a false (fltArith F op a.value (F.ofInt b.value.toInt))
  else if pa = P_FLOAT ∧ pb = P_FLOAT then setFloat a false (fltArith F op a.value b.value)
  else metamethodSet m (op == .add) a b

/-- `ZS_VM_OPERATION_DIV_ASSIGN`, `vm_operation_assign.h` 94-140. -/
def divAssign (F : FloatOps) (m : Mem) (a b : Stk) : AEff :=
  let pa := primitive a.props
  let pb := primitive b.props
  if pa = P_INT ∧ pb = P_INT then
    if b.value = 0 then .err else setFloat a true (F.div (F.ofInt a.value.toInt) (F.ofInt b.value.toInt))
  else if pa = P_INT ∧ pb = P_FLOAT then
    if F.isZero b.value then .err else setFloat a true (F.div (F.ofInt a.value.toInt) b.value)
  else if pa = P_FLOAT ∧ pb = P_INT then
    if b.value = 0 then .err else setFloat a false (F.div a.value (F.ofInt b.value.toInt))
  else if pa = P_FLOAT ∧ pb = P_FLOAT then
    if F.isZero b.value then .err else setFloat a false (F.div a.value b.value)
  else metamethodSet m false a b

/-- `ZS_VM_OPERATION_MOD_ASSIGN`, `vm_operation_assign.h` 143-189. -/
def modAssign (F : FloatOps) (m : Mem) (a b : Stk) : AEff :=
  let pa := primitive a.props
  let pb := primitive b.props
  if pa = P_INT ∧ pb = P_INT then
    if b.value = 0 then .err else setFloat a true (F.fmod (F.ofInt a.value.toInt) (F.ofInt b.value.toInt))
  else if pa = P_INT ∧ pb = P_FLOAT then
    if F.isZero b.value then .err else setFloat a true (F.fmod (F.ofInt a.value.toInt) b.value)
  else if pa = P_FLOAT ∧ pb = P_INT then
    if b.value = 0 then .err else setFloat a false (F.fmod a.value (F.ofInt b.value.toInt))
  else if pa = P_FLOAT ∧ pb = P_FLOAT then
    if F.isZero b.value then .err else setFloat a false (F.fmod a.value b.value)
  else metamethodSet m false a b

/-- `ZS_VM_OPERATION_BINARY_ASSIGN`, `vm_operation_assign.h` 191-210. -/
def bitAssign (m : Mem) (op : BitOp) (a b : Stk) : AEff :=
  if primitive (a.props &&& b.props) = P_INT then setInt a (intBit op a.value b.value)
  else metamethodSet m false a b

/-- The compound assignment byte codes, `vm_script_function.cpp` 423-462, after the variable and the operand
have been located (`ZS_LOAD_OPERANDS_ASSIGN_OPERATION`, `vm_operation_assign.h` 8-17). No test of the
`READ_ONLY` flag is made. -/
def assignOp (F : FloatOps) (m : Mem) : AssignOp → Stk → Stk → AEff
  | .arith op => arithAssign F m op
  | .div => divAssign F m
  | .mod => modAssign F m
  | .bit op => bitAssign m op

/-- The corresponding binary operators. -/
def binOp (F : FloatOps) (m : Mem) : AssignOp → Stk → Stk → Eff
  | .arith op => arith F m op
  | .div => divide F m
  | .mod => modulo F m
  | .bit op => bitwise m op

/-- `x++ x-- ++x --x`. -/
inductive IncOp where | postInc | postDec | preInc | preDec
  deriving DecidableEq, Repr

def IncOp.isPost : IncOp → Bool
  | .postInc => true
  | .postDec => true
  | _ => false

def IncOp.dir : IncOp → ArithOp
  | .postInc => .add
  | .preInc => .add
  | .postDec => .sub
  | .preDec => .sub

/-- `VM_POST_OPERATION`, `VM_PRE_OPERATION`, `vm_operation.h` 291-349, after the variable has been located. -/
def incDec (F : FloatOps) (op : IncOp) (a : Stk) : AEff :=
  if primitive a.props = P_INT then
    match intArith op.dir a.value 1 with
    | .val r => .set ⟨r.value, a.props⟩ (if op.isPost then mkInt a.value else mkInt r.value)
    | _ => .ub
  else if primitive a.props = P_FLOAT then
    let r := fltArith F op.dir a.value (F.ofInt 1)
    .set ⟨r, a.props⟩ (if op.isPost then mkFloat a.value else mkFloat r)
  else if has a.props P_MEMBER_PROPERTY || has a.props P_OBJECT then .call a a
  else .err

end Verif.Vm
