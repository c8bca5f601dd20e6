import Verif.Vm.Value
/-
Language-level values (specification side): what a script sees, and how the virtual machine encodes it in
a stack element.
-/
namespace Verif.Vm
open Verif

/-- A script value. `int w` is the integer `w.toInt`, `flt w` the number with bit pattern `w`, `obj a` the
object at address `a`. -/
inductive V where
  | undef
  | null
  | int (w : Word)
  | flt (w : Word)
  | bool (b : Bool)
  | type (id : Word)
  | fn (f : Word)
  | obj (a : Word)
  deriving DecidableEq, Repr

/-- The stack element that encodes a value. -/
def enc : V → Stk
  | .undef => ⟨0, 0x0000⟩
  | .null => ⟨0, 0x0001⟩
  | .int w => ⟨w, 0x0004⟩
  | .flt w => ⟨w, 0x0008⟩
  | .bool b => ⟨if b then 1 else 0, 0x0010⟩
  | .type i => ⟨i, 0x0020⟩
  | .fn f => ⟨f, 0x0040⟩
  | .obj a => ⟨a, 0x0200⟩

/-- The content of a variable holding `v`; `const` = the variable was declared `const`. -/
def held (const : Bool) (v : V) : Stk :=
  if const then { enc v with props := (enc v).props ||| 0x2000 } else enc v

/-- The value is an integer or a float. -/
def V.isNum : V → Bool
  | .int _ => true
  | .flt _ => true
  | _ => false

/-- The value as a floating point number (integers are converted). -/
def V.asFlt (F : FloatOps) : V → Word
  | .int w => F.ofInt w.toInt
  | .flt w => w
  | _ => 0

/-- The value is an object of the given type id. -/
def V.isObjOf (m : Mem) (t : Nat) : V → Bool
  | .obj a => (m.obj a).typeId == t
  | _ => false

def V.isObj : V → Bool
  | .obj _ => true
  | _ => false

/-- Flags of the encoding of a value. -/
theorem held_props (c : Bool) (v : V) :
    (held c v).props = (if c then 0x2000 else 0) ||| (match v with
      | .undef => 0x0000 | .null => 0x0001 | .int _ => 0x0004 | .flt _ => 0x0008
      | .bool _ => 0x0010 | .type _ => 0x0020 | .fn _ => 0x0040 | .obj _ => (0x0200 : Props)) := by
  cases c <;> cases v <;> simp only [held, enc, if_true, if_false, Bool.false_eq_true] <;> decide

theorem held_value (c : Bool) (v : V) : (held c v).value = (enc v).value := by cases c <;> rfl

/-- `READ_ONLY` is not a primitive type flag. -/
theorem held_primitive (c : Bool) (v : V) : primitive (held c v).props = (match v with
      | .undef => 0x0000 | .null => 0x0001 | .int _ => 0x0004 | .flt _ => 0x0008
      | .bool _ => 0x0010 | .type _ => 0x0020 | .fn _ => 0x0000 | .obj _ => (0x0000 : Props)) := by
  rw [held_props]
  cases c <;> cases v <;> simp only [if_true, if_false, Bool.false_eq_true] <;> decide

theorem has_object_held (c : Bool) (v : V) : has (held c v).props P_OBJECT = v.isObj := by
  rw [held_props]
  cases c <;> cases v <;> simp only [if_true, if_false, Bool.false_eq_true, V.isObj] <;> decide

theorem has_object2_held (c : Bool) (v : V) :
    has (held c v).props (P_OBJECT ||| P_OBJECT_IN_CONTAINER) = v.isObj := by
  rw [held_props]
  cases c <;> cases v <;> simp only [if_true, if_false, Bool.false_eq_true, V.isObj] <;> decide

theorem isObjOf_held (m : Mem) (t : Nat) (c : Bool) (v : V) :
    isObjOf m t (held c v) = v.isObjOf m t := by
  rw [isObjOf, has_object2_held, held_value]
  cases v <;> simp only [V.isObj, V.isObjOf, enc, Bool.false_and, Bool.true_and]

/-- An empty memory, for examples. -/
def noMem : Mem := ⟨fun _ => ⟨0, []⟩, fun _ => ⟨0, 0⟩, fun _ => 0⟩

end Verif.Vm
