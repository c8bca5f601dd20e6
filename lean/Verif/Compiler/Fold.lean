import Verif.Compiler.Precedence
import Verif.Vm.Operation
import Verif.Vm.Spec
import Verif.Base.Str
/-
Constant folding: `compiler_expression_perform_KK_operation`
(`src/compiler/compiler_expression_optimize.cpp` 6-97, 193-412), and the run-time operation it replaces.
-/
namespace Verif.Comp
open Verif Verif.Vm

/-- Operand of a constant load instruction: `LOAD_INT`, `LOAD_FLOAT`, `LOAD_BOOL` carry the value in `value_op2`,
`LOAD_STRING` the address of a constant string object (`Instruction.cpp` 27-88; the indirection through the stack
element that holds the object is left out). -/
inductive Const where
  | int (w : Word)
  | flt (w : Word)
  | bool (b : Bool)
  | str (a : Word)
  deriving DecidableEq, Repr

/-- The value a constant denotes. -/
def Const.asV : Const → V
  | .int w => .int w
  | .flt w => .flt w
  | .bool b => .bool b
  | .str a => .obj a

/-- `value_op2` of the load instruction. -/
def Const.bits : Const → Word
  | .int w => w
  | .flt w => w
  | .bool b => if b then 1 else 0
  | .str a => a

def Const.isStr : Const → Bool
  | .str _ => true
  | _ => false

/-- Result of an operation on values: a value, or a new string with this text. -/
inductive Res where
  | val (v : V)
  | text (t : List UInt8)
  deriving DecidableEq, Repr

/-- Text of a value in a string concatenation. `num` = `Integer::toString` / `Float::toString`, called both by the
compiler (`Instruction.cpp` 70-88) and at run time (`ScriptEngine.cpp` 389-440). -/
def valueText (m : Mem) (num : V → List UInt8) : V → List UInt8
  | .bool b => if b then [116, 114, 117, 101] else [102, 97, 108, 115, 101]
  | .obj a => (m.obj a).text
  | v => num v

/-- `getConstantValueOp2ToString()` of a string constant: the text between quotes (`Instruction.cpp` 79-82, default
argument `_str_with_quotes=true`, `Instruction.h` 112). -/
def quoted (t : List UInt8) : List UInt8 := 34 :: t ++ [34]

/-- `String::format("%s%s",...)`: `vsprintf` into a buffer of 4096 bytes (`String.cpp` 27-36, `Common.h` 44), then
`StringScriptObject::set`, which replaces escape sequences (`StringScriptObject.cpp`). -/
def formatCat (a b : List UInt8) : Out Res :=
  if (a ++ b).length < 4096 then .ok (.text (Str.unescapeChars (a ++ b))) else .ub

/-- Pushing the outcome of integer arithmetic of the C++ compiler into an instruction. -/
def effRes : Eff → Out Res
  | .val s => .ok (.val (.int s.value))
  | _ => .ub

/-- `ZS_EVAL_CONSTANT_ARITHMETIC_OPERATION`, 11-36. -/
def foldArith (F : FloatOps) (op : ArithOp) : Const → Const → Out Res
  | .int a, .int b => effRes (intArith op a b)
  | .int a, .flt b => .ok (.val (.flt (fltArith F op (F.ofInt a.toInt) b)))
  | .flt a, .int b => .ok (.val (.flt (fltArith F op a (F.ofInt b.toInt))))
  | .flt a, .flt b => .ok (.val (.flt (fltArith F op a b)))
  | _, _ => .err

/-- `BYTE_CODE_DIV` and `BYTE_CODE_MOD`, 234-299; `f` = `/` or `fmod`. The zero test is on the bits; the case int / float
is a copy of the case float / int: the first operand's bits are read as a float and the second operand's bits as an
integer (250-253, 283-286). -/
def foldDiv (F : FloatOps) (f : Word → Word → Word) (a b : Const) : Out Res :=
  if b.bits = 0 then .err
  else match a, b with
    | .int x, .int y => .ok (.val (.flt (f (F.ofInt x.toInt) (F.ofInt y.toInt))))
    | .flt x, .int y => .ok (.val (.flt (f x (F.ofInt y.toInt))))
    | .int x, .flt y => .ok (.val (.flt (f x (F.ofInt y.toInt))))
    | .flt x, .flt y => .ok (.val (.flt (f x y)))
    | _, _ => .err

/-- `ZS_EVAL_CONSTANT_BINARY_OPERATION`, 68-81. -/
def foldBit (op : BitOp) : Const → Const → Out Res
  | .int a, .int b => effRes (intBit op a b)
  | _, _ => .err

/-- `ZS_EVAL_CONSTANT_LOGIC_OPERATION`, 83-96. -/
def foldLogic (op : LogicOp) : Const → Const → Out Res
  | .bool a, .bool b => .ok (.val (.bool (match op with | .and => a && b | .or => a || b)))
  | _, _ => .err

/-- `ZS_EVAL_CONSTANT_COMPARE_OPERATION`, 38-66. In the case int / float the result is written to `result_op_float`, the
boolean result keeps its initial `false` (45-47). Strings are compared with their quotes (54-55). -/
def foldCmp (F : FloatOps) (m : Mem) (op : CmpOp) : Const → Const → Out Res
  | .int a, .int b => .ok (.val (.bool (cmpInt op a.toInt b.toInt)))
  | .bool a, .bool b => .ok (.val (.bool (cmpBool op a b)))
  | .int _, .flt _ => .ok (.val (.bool false))
  | .flt a, .int b => .ok (.val (.bool (cmpFlt F op a (F.ofInt b.toInt))))
  | .flt a, .flt b => .ok (.val (.bool (cmpFlt F op a b)))
  | .str a, .str b => .ok (.val (.bool (cmpStr op (quoted (m.obj a).text) (quoted (m.obj b).text))))
  | _, _ => .err

/-- C `strchr(s,ch) != NULL`: the low byte of `ch` occurs in the text or is the terminator. -/
def strchr (t : List UInt8) (ch : Word) : Bool := (t ++ [0]).contains (UInt8.ofNat ch.toNat)

/-- `String::contains` (`String.cpp` 393-407; `Str.contains_eq`: an empty text contains nothing). -/
def strContains (t d : List UInt8) : Bool := decide (t ≠ [] ∧ d <:+: t)

/-- `BYTE_CODE_IN`, 344-361. -/
def foldIn (m : Mem) : Const → Const → Out Res
  | .int a, .str b => .ok (.val (.bool (strchr (m.obj b).text a)))
  | .str a, .str b => .ok (.val (.bool (strContains (m.obj b).text (m.obj a).text)))
  | _, _ => .err

/-- `compiler_expression_perform_KK_operation`, 193-412. -/
def fold (F : FloatOps) (m : Mem) (num : V → List UInt8) (op : BOp) (a b : Const) : Out Res :=
  match op with
  | .add =>
    if a.isStr || b.isStr then formatCat (valueText m num a.asV) (valueText m num b.asV)
    else foldArith F .add a b
  | .sub => foldArith F .sub a b
  | .mul => foldArith F .mul a b
  | .div => foldDiv F F.div a b
  | .mod => foldDiv F F.fmod a b
  | .band => foldBit .and a b
  | .bor => foldBit .or a b
  | .xor => foldBit .xor a b
  | .shl => foldBit .shl a b
  | .shr => foldBit .shr a b
  | .land => foldLogic .and a b
  | .lor => foldLogic .or a b
  | .lt => foldCmp F m .lt a b
  | .gt => foldCmp F m .gt a b
  | .ge => foldCmp F m .ge a b
  | .le => foldCmp F m .le a b
  | .eq => foldCmp F m .eq a b
  | .ne => foldCmp F m .ne a b
  | .in_ => foldIn m a b
  | .inst => .err

/-- `vm_perform_in_operator`, `vm_iterator.cpp` 126-222, for a string as second operand (`StringScriptObjectZs_contains`,
`StringScriptObjectZs.cpp` 14-24); the other containers are in `Vm/Container.lean`. -/
def inString (m : Mem) (a b : Stk) : Eff :=
  if has (unwrap m b).props P_OBJECT then
    if has a.props P_INT then .val (mkBool (strchr (m.obj (unwrap m b).value).text a.value))
    else if isStr m (unwrap m a) then
      .val (mkBool (strContains (m.obj (unwrap m b).value).text (m.obj (unwrap m a).value).text))
    else .err
  else .err

/-- The run-time operation of a binary operator on two stack elements (the cases of the main loop,
`vm_script_function.cpp` 141-191, 300-). `instanceof` takes a type name, not a value. -/
def runBin (F : FloatOps) (m : Mem) (op : BOp) (a b : Stk) : Eff :=
  match op with
  | .add => arith F m .add a b
  | .sub => arith F m .sub a b
  | .mul => arith F m .mul a b
  | .div => divide F m a b
  | .mod => modulo F m a b
  | .band => bitwise m .and a b
  | .bor => bitwise m .or a b
  | .xor => bitwise m .xor a b
  | .shl => bitwise m .shl a b
  | .shr => bitwise m .shr a b
  | .land => logic .and a b
  | .lor => logic .or a b
  | .lt => compare F m .lt a b
  | .gt => compare F m .gt a b
  | .ge => compare F m .ge a b
  | .le => compare F m .le a b
  | .eq => compare F m .eq a b
  | .ne => compare F m .ne a b
  | .in_ => inString m a b
  | .inst => .err

end Verif.Comp
