import Verif.Vm.OperationProps
/-
C16 and C18 on operands that are not numbers: bitwise operators, and compound assignment with every operator.
-/
namespace Verif.Vm
open Verif

/-- The value is an integer. -/
def V.isInt : V → Bool
  | .int _ => true
  | _ => false

theorem bit_flags (ca cb : Bool) (x y : V) (h : ¬ (x.isInt ∧ y.isInt)) :
    primitive ((held ca x).props &&& (held cb y).props) ≠ P_INT := by
  rw [held_props, held_props]
  cases x <;> cases y <;> cases ca <;> cases cb <;>
    simp only [if_true, if_false, Bool.false_eq_true] <;> first
    | exact absurd ⟨rfl, rfl⟩ h
    | decide

/-- Operators `& | ^ << >>` on operands that are not both integers: the metamethod of the first operand that is an object is
called, with no object operand it is a script error; texts, arrays and plain objects are treated like any other object. -/
theorem bitwise_non_numeric_exact (m : Mem) (op : BitOp) (ca cb : Bool) (x y : V) (h : ¬ (x.isInt ∧ y.isInt)) :
    bitwise m op (held ca x) (held cb y) = (match x, y with
      | .obj a, _ => .call a (held ca x) (held cb y)
      | _, .obj b => .call b (held ca x) (held cb y)
      | _, _ => .err) := by
  unfold bitwise
  rw [if_neg (bit_flags ca cb x y h), metamethod_held]
  unfold nonNumeric
  rw [if_neg (fun h => Bool.noConfusion h.1), if_neg (fun h => Bool.noConfusion h.1), if_neg (fun h => Bool.noConfusion h.1)]
  cases x <;> cases y <;> rfl

example : bitwise noMem .xor (enc (.int 3)) (enc (.flt 0)) = .err :=
  bitwise_non_numeric_exact noMem .xor false false (.int 3) (.flt 0) (by decide)

/-- What `x op= y` does when the operands are not numbers: `+=` on a text appends to it; `+=` on two arrays appends the left
array to itself; a right operand that is null, or undefined and not a constant, is a script error; otherwise the metamethod of the left operand is called
if that is an object, and it is a script error if not. -/
def nonNumericSet (m : Mem) (isAdd : Bool) (cb : Bool) (x y : V) (sx sy : Stk) : AEff :=
  if isAdd ∧ x.isObjOf m 20 then .strAppend sx sy
  else if isAdd ∧ x.isObjOf m 24 ∧ y.isObjOf m 24 then .appendSelf sx.value
  else if y = .null ∨ (y = .undef ∧ cb = false) then .err
  else match x with
    | .obj _ => .call sx sy
    | _ => .err

theorem metamethodSet_held (m : Mem) (i ca cb : Bool) (x y : V) :
    metamethodSet m i (held ca x) (held cb y) = nonNumericSet m i cb x y (held ca x) (held cb y) := by
  have h0 : ((held cb y).props = 0 ∨ has (held cb y).props P_NULL = true) ↔ (y = .null ∨ (y = .undef ∧ cb = false)) := by
    rw [held_props]
    cases y <;> cases cb <;> simp only [if_true, if_false, Bool.false_eq_true] <;> simp [P_NULL, has] <;> decide
  have hm : has (held ca x).props P_MEMBER_PROPERTY = false := by
    rw [held_props]
    cases x <;> cases ca <;> simp only [if_true, if_false, Bool.false_eq_true] <;> decide
  unfold metamethodSet nonNumericSet
  simp only [isStr, isArr, isObjOf_held, has_object_held, Bool.and_eq_true, T_STRING_SO, T_ARRAY_SO, h0, hm, Bool.false_eq_true,
    if_false]
  split
  · rfl
  · split
    · rfl
    · split
      · rfl
      · cases x <;> simp [V.isObj]

/-- Compound assignment, every operator, with operands that are not both numbers (for the bitwise ones: not both integers). -/
theorem compound_non_numeric_exact (F : FloatOps) (m : Mem) (op : AssignOp) (ca cb : Bool) (x y : V)
    (h : ¬ (x.isNum ∧ y.isNum) ∨ ((∃ o, op = .bit o) ∧ ¬ (x.isInt ∧ y.isInt))) :
    assignOp F m op (held ca x) (held cb y) =
      nonNumericSet m (op = .arith .add) cb x y (held ca x) (held cb y) := by
  have hi : ¬ (x.isNum ∧ y.isNum) → ¬ (x.isInt ∧ y.isInt) := by
    cases x <;> cases y <;> simp [V.isNum, V.isInt]
  cases op with
  | bit o =>
    have h' : ¬ (x.isInt ∧ y.isInt) := by
      rcases h with h | ⟨-, h⟩
      · exact hi h
      · exact h
    simp only [assignOp]
    unfold bitAssign
    rw [if_neg (bit_flags ca cb x y h'), metamethodSet_held]
    simp
  | arith o =>
    have h' : ¬ (x.isNum ∧ y.isNum) := by
      rcases h with h | ⟨⟨_, h⟩, -⟩
      · exact h
      · cases h
    have e : assignOp F m (.arith o) (held ca x) (held cb y) = metamethodSet m (o == .add) (held ca x) (held cb y) := by
      simp only [assignOp]
      unfold arithAssign
      simp only [held_primitive]
      cases x <;> cases y <;> simp [P_INT, P_FLOAT, V.isNum] at h' ⊢
    rw [e, metamethodSet_held]
    congr 1
    cases o <;> rfl
  | div =>
    have h' : ¬ (x.isNum ∧ y.isNum) := by
      rcases h with h | ⟨⟨_, h⟩, -⟩
      · exact h
      · cases h
    have e : assignOp F m .div (held ca x) (held cb y) = metamethodSet m false (held ca x) (held cb y) := by
      simp only [assignOp]
      unfold divAssign
      simp only [held_primitive]
      cases x <;> cases y <;> simp [P_INT, P_FLOAT, V.isNum] at h' ⊢
    rw [e, metamethodSet_held]
    simp
  | mod =>
    have h' : ¬ (x.isNum ∧ y.isNum) := by
      rcases h with h | ⟨⟨_, h⟩, -⟩
      · exact h
      · cases h
    have e : assignOp F m .mod (held ca x) (held cb y) = metamethodSet m false (held ca x) (held cb y) := by
      simp only [assignOp]
      unfold modAssign
      simp only [held_primitive]
      cases x <;> cases y <;> simp [P_INT, P_FLOAT, V.isNum] at h' ⊢
    rw [e, metamethodSet_held]
    simp

/-- A memory in which the objects at 7 and 8 are arrays, for examples. -/
def twoArrays : Mem := { noMem with obj := fun a => if a = 7 ∨ a = 8 then ⟨24, []⟩ else ⟨0, []⟩ }

/-- The property in full for arrays: what `a += b` does to the array `a` depends on the array `b`. -/
def ArrayAppendUsesRight : Prop := ∀ (F : FloatOps) (m : Mem) (a b c : Word),
  V.isObjOf m 24 (.obj a) → V.isObjOf m 24 (.obj b) → V.isObjOf m 24 (.obj c) → b ≠ c →
  assignOp F m (.arith .add) (enc (.obj a)) (enc (.obj b)) ≠ assignOp F m (.arith .add) (enc (.obj a)) (enc (.obj c))

/-- `a += b` on arrays does not look at `b`: it appends `a` to itself. -/
theorem array_append_violated : ¬ ArrayAppendUsesRight := by
  intro h
  have := h ieee twoArrays 7 7 8 (by decide) (by decide) (by decide) (by decide)
  revert this
  decide +kernel

example : assignOp ieee twoArrays (.arith .add) (enc (.obj 7)) (enc (.obj 8)) = .appendSelf 7 := by decide +kernel
example : assignOp ieee twoArrays (.arith .sub) (enc (.obj 7)) (enc (.obj 8)) = .call (enc (.obj 7)) (enc (.obj 8)) := by decide +kernel
example : assignOp ieee twoArrays (.bit .or) (enc (.obj 7)) (enc .null) = .err := by decide +kernel

end Verif.Vm
