import Verif.Vm.Operation
import Verif.Vm.Spec
/-
C16 (arithmetic result kinds, zero divisors) and C18 (compound assignment), C54 (increments).
-/
namespace Verif.Vm
open Verif

/-! ## C16 -/

/-- Integer `+ - *` give the exact integer whenever it fits in 64 bits, whatever the operands' `const`ness. -/
theorem int_arith_exact_partial (F : FloatOps) (m : Mem) (ca cb : Bool) (a b : Word) :
    (-(2:Int)^63 ≤ a.toInt + b.toInt ∧ a.toInt + b.toInt < 2^63 →
      ∃ r : Word, r.toInt = a.toInt + b.toInt ∧
        arith F m .add (held ca (.int a)) (held cb (.int b)) = .val (enc (.int r))) ∧
    (-(2:Int)^63 ≤ a.toInt - b.toInt ∧ a.toInt - b.toInt < 2^63 →
      ∃ r : Word, r.toInt = a.toInt - b.toInt ∧
        arith F m .sub (held ca (.int a)) (held cb (.int b)) = .val (enc (.int r))) ∧
    (-(2:Int)^63 ≤ a.toInt * b.toInt ∧ a.toInt * b.toInt < 2^63 →
      ∃ r : Word, r.toInt = a.toInt * b.toInt ∧
        arith F m .mul (held ca (.int a)) (held cb (.int b)) = .val (enc (.int r))) := by
  have key : ∀ (op : ArithOp), (-(2:Int)^63 ≤ op.exact a.toInt b.toInt ∧ op.exact a.toInt b.toInt < 2^63 →
      ∃ r : Word, r.toInt = op.exact a.toInt b.toInt ∧
        arith F m op (held ca (.int a)) (held cb (.int b)) = .val (enc (.int r))) := by
    intro op h
    refine ⟨BitVec.ofInt 64 (op.exact a.toInt b.toInt), ?_, ?_⟩
    · rw [BitVec.toInt_ofInt_eq_self (by decide)]
      · exact h.1
      · exact h.2
    · have hf : fits (op.exact a.toInt b.toInt) = true := by
        simp only [fits, Bool.and_eq_true, decide_eq_true_eq]; exact h
      have e : arith F m op (held ca (.int a)) (held cb (.int b)) =
          intArith op (held ca (.int a)).value (held cb (.int b)).value := by
        unfold arith
        simp only [held_primitive]
        exact if_pos ⟨by decide, by decide⟩
      rw [e, held_value, held_value]
      exact if_pos hf
  exact ⟨key .add, key .sub, key .mul⟩

example : ∃ r : Word, r.toInt = -12 ∧
    arith ieee noMem .mul (held true (.int 3)) (held false (.int (-4))) =
      .val (enc (.int r)) :=
  (int_arith_exact_partial _ _ true false 3 (-4)).2.2 ⟨by decide, by decide⟩

/-- The full claim for integer `+`: two integers always have an integer sum. -/
def IntSumTotal : Prop := ∀ (F : FloatOps) (m : Mem) (a b : Word),
  ∃ r : Word, arith F m .add (enc (.int a)) (enc (.int b)) = .val (enc (.int r))

/-- It fails: adding 1 to the largest integer is undefined behaviour (signed overflow). -/
theorem int_sum_violated : ¬ IntSumTotal := by
  intro h
  obtain ⟨r, hr⟩ := h ieee noMem 0x7FFFFFFFFFFFFFFF 1
  have e : arith ieee noMem .add (enc (.int 0x7FFFFFFFFFFFFFFF))
      (enc (.int 1)) = .ub := by decide
  rw [e] at hr
  cases hr

/-- As soon as one of two numbers is a float, `+ - *` give a float: the floating point operation applied
to both operands converted to float. -/
theorem float_arith_exact (F : FloatOps) (m : Mem) (op : ArithOp) (ca cb : Bool) (x y : V)
    (hx : x.isNum) (hy : y.isNum) (hf : ¬ ∃ a b, x = .int a ∧ y = .int b) :
    arith F m op (held ca x) (held cb y) =
      .val (enc (.flt (match op with
        | .add => F.add (x.asFlt F) (y.asFlt F)
        | .sub => F.sub (x.asFlt F) (y.asFlt F)
        | .mul => F.mul (x.asFlt F) (y.asFlt F)))) := by
  cases x <;> cases hx <;> cases y <;> cases hy
  · exact absurd ⟨_, _, rfl, rfl⟩ hf
  all_goals
    unfold arith
    simp only [held_primitive, held_value]
    cases op <;> simp [P_INT, P_FLOAT, enc, fltArith, V.asFlt, mkFloat]

example : arith ieee noMem .add (held true (.int 1)) (enc (.flt 0x3FE0000000000000)) =
    .val (enc (.flt 0x3FF8000000000000)) := by decide +kernel

/-- The divisor is zero: the integer 0, or a float equal to 0 (`0.0` or `-0.0`). -/
def V.isZero (F : FloatOps) : V → Prop
  | .int w => w.toInt = 0
  | .flt w => F.eq w (F.ofInt 0) = true
  | _ => False

theorem toInt_zero_iff (w : Word) : w.toInt = 0 ↔ w = 0 := by
  constructor
  · intro h
    have := congrArg (BitVec.ofInt 64) h
    rw [BitVec.ofInt_toInt] at this
    rw [this]; rfl
  · intro h; rw [h]; rfl

/-- Dividing numbers: a zero divisor is a script error, any other divisor gives the floating point
quotient, also for two integers. -/
theorem divide_exact (F : FloatOps) (m : Mem) (ca cb : Bool) (x y : V) (hx : x.isNum) (hy : y.isNum) :
    (y.isZero F → divide F m (held ca x) (held cb y) = .err) ∧
    (¬ y.isZero F → divide F m (held ca x) (held cb y) =
      .val (enc (.flt (F.div (x.asFlt F) (y.asFlt F))))) := by
  have conv : ∀ w : Word, V.isZero F (.int w) ↔ w = 0 := fun w => toInt_zero_iff w
  cases x <;> cases hx <;> cases y <;> cases hy <;> constructor <;> intro h
  all_goals first
    | rw [conv] at h
    | simp only [V.isZero] at h
  all_goals (unfold divide; simp only [held_primitive, held_value])
  all_goals simp [enc, P_INT, P_FLOAT, FloatOps.isZero, h, V.asFlt, mkFloat]
  all_goals exact if_neg h

/-- The remainder follows the same rule with C's `fmod`. -/
theorem modulo_exact (F : FloatOps) (m : Mem) (ca cb : Bool) (x y : V) (hx : x.isNum) (hy : y.isNum) :
    (y.isZero F → modulo F m (held ca x) (held cb y) = .err) ∧
    (¬ y.isZero F → modulo F m (held ca x) (held cb y) =
      .val (enc (.flt (F.fmod (x.asFlt F) (y.asFlt F))))) := by
  have conv : ∀ w : Word, V.isZero F (.int w) ↔ w = 0 := fun w => toInt_zero_iff w
  cases x <;> cases hx <;> cases y <;> cases hy <;> constructor <;> intro h
  all_goals first
    | rw [conv] at h
    | simp only [V.isZero] at h
  all_goals (unfold modulo; simp only [held_primitive, held_value])
  all_goals simp [enc, P_INT, P_FLOAT, FloatOps.isZero, h, V.asFlt, mkFloat]
  all_goals exact if_neg h

theorem isZero_flt (F : FloatOps) (w : Word) : (V.flt w).isZero F ↔ F.eq w (F.ofInt 0) = true := Iff.rfl

example : (V.flt 0x8000000000000000).isZero ieee := by
  rw [isZero_flt]
  decide +kernel
example : ¬ (V.int 4).isZero ieee ∧ (V.int 4).isNum ∧ (V.int 7).isNum := by
  refine ⟨?_, rfl, rfl⟩
  show ¬ (4 : Word).toInt = 0
  decide

theorem metamethod_not_ub (m : Mem) (i : Bool) (a b : Stk) : metamethod m i a b ≠ .ub := by
  unfold metamethod
  repeat' split
  all_goals (intro h; cases h)

/-- `/` and `%` never reach undefined behaviour, whatever the two stack elements contain. -/
theorem div_mod_no_ub (F : FloatOps) (m : Mem) (a b : Stk) :
    divide F m a b ≠ .ub ∧ modulo F m a b ≠ .ub := by
  constructor
  · unfold divide
    simp only []
    repeat' split
    all_goals first
      | exact metamethod_not_ub m _ a b
      | (intro h; cases h)
  · unfold modulo
    simp only []
    repeat' split
    all_goals first
      | exact metamethod_not_ub m _ a b
      | (intro h; cases h)

/-- What an operator does when one operand is not a number: `+` concatenates if one operand is a string or
both are arrays or both are plain objects; otherwise the metamethod of the first operand that is an
object is called; with no object operand it is a script error. -/
def nonNumeric (m : Mem) (isAdd : Bool) (x y : V) (sx sy : Stk) : Eff :=
  if isAdd ∧ (x.isObjOf m 20 ∨ y.isObjOf m 20) then .strCat sx sy
  else if isAdd ∧ x.isObjOf m 24 ∧ y.isObjOf m 24 then .arrCat sx.value sy.value
  else if isAdd ∧ x.isObjOf m 25 ∧ y.isObjOf m 25 then .objCat sx.value sy.value
  else match x, y with
    | .obj a, _ => .call a sx sy
    | _, .obj b => .call b sx sy
    | _, _ => .err

theorem metamethod_held (m : Mem) (i ca cb : Bool) (x y : V) :
    metamethod m i (held ca x) (held cb y) = nonNumeric m i x y (held ca x) (held cb y) := by
  unfold metamethod nonNumeric
  simp only [isStr, isArr, isDict, isObjOf_held, has_object_held, Bool.and_eq_true, Bool.or_eq_true,
    T_STRING_SO, T_ARRAY_SO, T_OBJECT_SO]
  split
  · rfl
  · split
    · rfl
    · split
      · rfl
      · cases x <;> cases y <;> simp [V.isObj, held_value, enc]

/-- Operators `+ - * / %` on operands that are not both numbers. -/
theorem non_numeric_exact (F : FloatOps) (m : Mem) (ca cb : Bool) (x y : V) (h : ¬ (x.isNum ∧ y.isNum)) :
    (∀ op, arith F m op (held ca x) (held cb y) =
      nonNumeric m (op == .add) x y (held ca x) (held cb y)) ∧
    divide F m (held ca x) (held cb y) = nonNumeric m false x y (held ca x) (held cb y) ∧
    modulo F m (held ca x) (held cb y) = nonNumeric m false x y (held ca x) (held cb y) := by
  have hp : ∀ (c : Bool) (v : V), v.isNum = false →
      primitive (held c v).props ≠ P_INT ∧ primitive (held c v).props ≠ P_FLOAT := by
    intro c v hv
    rw [held_primitive]
    cases v <;> simp only [V.isNum] at hv ⊢ <;> first | exact ⟨by decide, by decide⟩ | cases hv
  have hcase : (primitive (held ca x).props ≠ P_INT ∧ primitive (held ca x).props ≠ P_FLOAT) ∨
      (primitive (held cb y).props ≠ P_INT ∧ primitive (held cb y).props ≠ P_FLOAT) := by
    cases hx : x.isNum
    · exact Or.inl (hp ca x hx)
    · cases hy : y.isNum
      · exact Or.inr (hp cb y hy)
      · exact absurd ⟨hx, hy⟩ h
  have hn : ∀ (P Q : Props), (P = P_INT ∨ P = P_FLOAT) → (Q = P_INT ∨ Q = P_FLOAT) →
      ¬ (primitive (held ca x).props = P ∧ primitive (held cb y).props = Q) := by
    intro P Q hP hQ hpq
    rcases hcase with hc | hc
    · rcases hP with rfl | rfl
      · exact hc.1 hpq.1
      · exact hc.2 hpq.1
    · rcases hQ with rfl | rfl
      · exact hc.1 hpq.2
      · exact hc.2 hpq.2
  refine ⟨?_, ?_, ?_⟩
  · intro op
    unfold arith
    simp only []
    rw [if_neg (hn _ _ (.inl rfl) (.inl rfl)), if_neg (hn _ _ (.inl rfl) (.inr rfl)),
      if_neg (hn _ _ (.inr rfl) (.inl rfl)), if_neg (hn _ _ (.inr rfl) (.inr rfl))]
    exact metamethod_held m _ ca cb x y
  · unfold divide
    simp only []
    rw [if_neg (hn _ _ (.inl rfl) (.inl rfl)), if_neg (hn _ _ (.inl rfl) (.inr rfl)),
      if_neg (hn _ _ (.inr rfl) (.inl rfl)), if_neg (hn _ _ (.inr rfl) (.inr rfl))]
    exact metamethod_held m _ ca cb x y
  · unfold modulo
    simp only []
    rw [if_neg (hn _ _ (.inl rfl) (.inl rfl)), if_neg (hn _ _ (.inl rfl) (.inr rfl)),
      if_neg (hn _ _ (.inr rfl) (.inl rfl)), if_neg (hn _ _ (.inr rfl) (.inr rfl))]
    exact metamethod_held m _ ca cb x y

example : divide ieee noMem (enc (.bool true)) (enc (.int 0)) = .err :=
  (non_numeric_exact ieee _ false false (.bool true) (.int 0) (by decide)).2.1

/-- Bitwise operators: two integers give the integer with the bitwise result (shift counts outside 0..63
excepted); logical operators: two booleans give their boolean combination; other operands never give a
value silently. -/
theorem bitwise_exact_partial (m : Mem) (ca cb : Bool) (a b : Word) :
    bitwise m .and (held ca (.int a)) (held cb (.int b)) = .val (enc (.int (a &&& b))) ∧
    bitwise m .or (held ca (.int a)) (held cb (.int b)) = .val (enc (.int (a ||| b))) ∧
    bitwise m .xor (held ca (.int a)) (held cb (.int b)) = .val (enc (.int (a ^^^ b))) ∧
    (b.toNat < 64 →
      bitwise m .shl (held ca (.int a)) (held cb (.int b)) = .val (enc (.int (a <<< b.toNat))) ∧
      ∃ r : Word, r.toInt = a.toInt / 2 ^ b.toNat ∧
        bitwise m .shr (held ca (.int a)) (held cb (.int b)) = .val (enc (.int r))) := by
  have e : ∀ op, bitwise m op (held ca (.int a)) (held cb (.int b)) = intBit op a b := by
    intro op
    unfold bitwise
    rw [held_value, held_value, held_props, held_props]
    cases ca <;> cases cb <;> simp only [if_true, if_false, Bool.false_eq_true] <;>
      exact if_pos (by decide)
  refine ⟨e .and, e .or, e .xor, ?_⟩
  intro hb
  have hi : b.toInt = (b.toNat : Int) := BitVec.toInt_eq_toNat_of_lt (by omega)
  have hr : 0 ≤ b.toInt ∧ b.toInt < 64 := by omega
  refine ⟨(e .shl).trans (if_pos hr), a.sshiftRight b.toNat, ?_, (e .shr).trans (if_pos hr)⟩
  rw [BitVec.toInt_sshiftRight, Int.shiftRight_eq_div_pow]
  simp

example : ∃ r : Word, r.toInt = (-9 : Word).toInt / 2 ^ (2 : Word).toNat ∧
    bitwise noMem .shr (held false (.int (-9))) (held false (.int 2)) =
      .val (enc (.int r)) := ((bitwise_exact_partial _ false false (-9) 2).2.2.2 (by decide)).2

/-- Shifting by 64 is undefined behaviour. -/
theorem shift_count_violated (m : Mem) : bitwise m .shl (enc (.int 1)) (enc (.int 64)) = .ub := rfl

/-- `&&`/`||` byte codes on two booleans; anything else is a script error. -/
theorem logic_exact (op : LogicOp) (ca cb : Bool) (x y : V) :
    logic op (held ca x) (held cb y) =
      match x, y with
      | .bool a, .bool b => .val (enc (.bool (match op with | .and => a && b | .or => a || b)))
      | _, _ => .err := by
  unfold logic
  rw [held_props, held_props]
  cases x <;> cases y <;> cases ca <;> cases cb <;>
    simp only [if_true, if_false, Bool.false_eq_true] <;> first
    | exact if_neg (by decide)
    | (rename_i a b; rw [if_pos (by decide)]; cases a <;> cases b <;> cases op <;> rfl)

/-- Unary minus, bitwise complement, logical not. -/
theorem unary_exact_partial (F : FloatOps) (c : Bool) :
    (∀ a : Word, -(2:Int)^63 < a.toInt →
      ∃ r : Word, r.toInt = - a.toInt ∧ opNeg F (held c (.int a)) = .val (enc (.int r))) ∧
    (∀ w : Word, opNeg F (held c (.flt w)) = .val (enc (.flt (F.neg w)))) ∧
    (∀ a : Word, opBwc (held c (.int a)) = .val (enc (.int (~~~a)))) ∧
    (∀ b : Bool, opNot (held c (.bool b)) = .val (enc (.bool (!b)))) ∧
    (∀ v : V, v.isObj = false →
      (v.isNum = false → opNeg F (held c v) = .err) ∧
      ((∀ w, v ≠ .int w) → opBwc (held c v) = .err) ∧
      ((∀ b, v ≠ .bool b) → opNot (held c v) = .err)) := by
  have hasInt : ∀ a : Word, has (held c (.int a)).props P_INT = true := by
    intro a
    rw [held_props]
    cases c <;> simp only [if_true, if_false, Bool.false_eq_true] <;> decide
  refine ⟨?_, ?_, ?_, ?_, ?_⟩
  · intro a ha
    have hlt : a.toInt < 2 ^ 63 := by have := BitVec.toInt_lt (x := a); simpa using this
    refine ⟨BitVec.ofInt 64 (-a.toInt), ?_, ?_⟩
    · rw [BitVec.toInt_ofInt_eq_self (by decide)] <;> simp at * <;> omega
    · have hf : fits (-a.toInt) = true := by
        simp only [fits, Bool.and_eq_true, decide_eq_true_eq]; omega
      unfold opNeg
      rw [held_value, hasInt, if_pos rfl]
      exact if_pos hf
  · intro w
    unfold opNeg
    rw [held_props, held_value]
    cases c <;> simp only [if_true, if_false, Bool.false_eq_true] <;>
      rw [if_neg (by decide), if_pos (by decide)] <;> rfl
  · intro w
    unfold opBwc
    rw [held_value, hasInt, if_pos rfl]; rfl
  · intro b
    unfold opNot toBool
    rw [held_props, held_value]
    cases c <;> simp only [if_true, if_false, Bool.false_eq_true] <;>
      rw [if_pos (by decide)] <;> cases b <;> rfl
  · intro v hv
    unfold opNeg opNot opBwc
    rw [has_object_held, hv, held_props]
    cases v <;> cases c <;> simp only [V.isObj, V.isNum, if_true, if_false, Bool.false_eq_true] at hv ⊢ <;>
      refine ⟨?_, ?_, ?_⟩ <;> intro h <;> first
      | (cases h; done)
      | (cases hv; done)
      | exact absurd rfl (h _)
      | (rw [if_neg (by decide), if_neg (by decide)]; done)
      | exact if_neg (by decide)

example : ∃ r : Word, r.toInt = 5 ∧ opNeg ieee (held true (.int (-5))) = .val (enc (.int r)) :=
  (unary_exact_partial ieee true).1 (-5) (by decide)

/-! ## C18: `x op= e` means `x = x op e` -/

/-- The full claim: for every variable content `x` (the variable may be `const` or not) and operand `y`: if
`x op y` yields a value, then `x op= y` leaves that word and kind in the variable and yields it. -/
def CompoundAssignAgrees : Prop :=
  ∀ (F : FloatOps) (m : Mem) (op : AssignOp) (ca cb : Bool) (x y : V) (r : Stk),
    binOp F m op (held ca x) (held cb y) = .val r →
      ∃ d : Stk, assignOp F m op (held ca x) (held cb y) = .set d r ∧ d.value = r.value ∧
        primitive d.props = primitive r.props

/-- It fails: with `x = 1`, `x += 0.5` leaves `0.5`, not `1.5`. -/
theorem compound_assign_violated : ¬ CompoundAssignAgrees := by
  intro h
  obtain ⟨d, h1, h2, _⟩ := h ieee noMem (.arith .add) false false
    (.int 1) (.flt 0x3FE0000000000000) (enc (.flt 0x3FF8000000000000)) (by decide +kernel)
  have e : assignOp ieee noMem (.arith .add) (held false (.int 1)) (held false (.flt 0x3FE0000000000000)) =
      .set (enc (.flt 0x3FE0000000000000)) (enc (.flt 0x3FE0000000000000)) := by decide +kernel
  rw [e] at h1
  cases h1

theorem prim_mkFloat (w : Word) : primitive (mkFloat w).props = 8 := by
  show primitive 8 = 8
  decide

theorem metamethod_not_val (m : Mem) (i : Bool) (a b r : Stk) : metamethod m i a b ≠ .val r := by
  unfold metamethod
  repeat' split
  all_goals (intro h; cases h)

theorem intArith_val (op : ArithOp) (a b : Word) (r : Stk) (h : intArith op a b = .val r) :
    r.props = P_INT := by
  unfold intArith at h
  simp only [] at h
  split at h
  · cases h; rfl
  · cases h

theorem intBit_val (op : BitOp) (a b : Word) (r : Stk) (h : intBit op a b = .val r) :
    r.props = P_INT := by
  unfold intBit at h
  cases op <;> simp only [] at h
  case and => cases h; rfl
  case or => cases h; rfl
  case xor => cases h; rfl
  all_goals
    split at h
    · cases h; rfl
    · cases h

/-- Everywhere else it holds: for every operator, every variable content and operand, except `+= -= *=` with
an integer variable and a float operand. Whenever `x op y` yields a value, `x op= y` stores and yields it. -/
theorem compound_assign_partial (F : FloatOps) (m : Mem) (op : AssignOp) (ca cb : Bool) (x y : V) (r : Stk)
    (hex : ¬ ((∃ o, op = .arith o) ∧ (∃ a, x = .int a) ∧ (∃ b, y = .flt b)))
    (hr : binOp F m op (held ca x) (held cb y) = .val r) :
      ∃ d : Stk, assignOp F m op (held ca x) (held cb y) = .set d r ∧ d.value = r.value ∧
        primitive d.props = primitive r.props := by
  have hbit : ∀ x y : V, primitive ((held ca x).props &&& (held cb y).props) = P_INT →
      (∃ a, x = .int a) ∧ (∃ b, y = .int b) := by
    intro x y h
    rw [held_props, held_props] at h
    cases x <;> cases y <;> cases ca <;> cases cb <;>
      simp only [if_true, if_false, Bool.false_eq_true] at h <;> first
      | exact absurd h (by decide)
      | exact ⟨⟨_, rfl⟩, ⟨_, rfl⟩⟩
  cases op with
  | bit o =>
    simp only [binOp, assignOp] at *
    unfold bitwise at hr
    unfold bitAssign
    by_cases hc : primitive ((held ca x).props &&& (held cb y).props) = P_INT
    · rw [if_pos hc] at hr
      rw [if_pos hc]
      obtain ⟨⟨a, rfl⟩, ⟨b, rfl⟩⟩ := hbit x y hc
      rw [hr]
      refine ⟨_, rfl, rfl, ?_⟩
      simp only []
      rw [held_primitive, intBit_val _ _ _ _ hr]
      rfl
    · rw [if_neg hc] at hr
      exact absurd hr (metamethod_not_val m _ _ _ _)
  | arith o =>
    simp only [binOp, assignOp] at *
    unfold arith at hr
    unfold arithAssign
    simp only [held_primitive] at hr ⊢
    cases x <;> cases y <;> simp [P_INT, P_FLOAT] at hr ⊢ <;> first
      | exact absurd hr (metamethod_not_val m _ _ _ _)
      | (subst hr
         exact ⟨_, rfl, rfl, by
           simp only [if_false, Bool.false_eq_true]; rw [held_primitive, prim_mkFloat]⟩)
      | skip
    · rw [hr]
      refine ⟨_, rfl, rfl, ?_⟩
      simp only []
      rw [held_primitive, intArith_val _ _ _ _ hr]
      rfl
    · exact absurd ⟨⟨_, rfl⟩, ⟨_, rfl⟩, ⟨_, rfl⟩⟩ hex
  | div =>
    simp only [binOp, assignOp] at *
    unfold divide at hr
    unfold divAssign
    simp only [held_primitive] at hr ⊢
    cases x <;> cases y <;> simp [P_INT, P_FLOAT] at hr ⊢ <;> first
      | exact absurd hr (metamethod_not_val m _ _ _ _)
      | (split at hr
         · cases hr
         · rename_i h0
           cases hr
           rw [if_neg h0]
           first
           | exact ⟨_, rfl, rfl, rfl⟩
           | exact ⟨_, rfl, rfl, by simp only [if_false, Bool.false_eq_true]; rw [held_primitive, prim_mkFloat]⟩)
  | mod =>
    simp only [binOp, assignOp] at *
    unfold modulo at hr
    unfold modAssign
    simp only [held_primitive] at hr ⊢
    cases x <;> cases y <;> simp [P_INT, P_FLOAT] at hr ⊢ <;> first
      | exact absurd hr (metamethod_not_val m _ _ _ _)
      | (split at hr
         · cases hr
         · rename_i h0
           cases hr
           rw [if_neg h0]
           first
           | exact ⟨_, rfl, rfl, rfl⟩
           | exact ⟨_, rfl, rfl, by simp only [if_false, Bool.false_eq_true]; rw [held_primitive, prim_mkFloat]⟩)

example : ¬ ((∃ o, (AssignOp.arith .mul) = .arith o) ∧ (∃ a, (V.flt 0x4000000000000000) = .int a) ∧ (∃ b, V.int 3 = .flt b)) ∧
    ∃ r, binOp ieee noMem (.arith .mul) (held true (.flt 0x4000000000000000)) (held false (.int 3)) = .val r :=
  ⟨(by rintro ⟨_, ⟨_, h⟩, _⟩; cases h), _, rfl⟩

/-- A zero divisor is a script error for `/=` and `%=` too, and nothing is stored. -/
theorem compound_zero_divisor (F : FloatOps) (m : Mem) (ca cb : Bool) (x y : V) (hx : x.isNum) (hy : y.isNum)
    (hz : y.isZero F) :
    assignOp F m .div (held ca x) (held cb y) = .err ∧ assignOp F m .mod (held ca x) (held cb y) = .err := by
  have conv : ∀ w : Word, V.isZero F (.int w) ↔ w = 0 := fun w => toInt_zero_iff w
  cases x <;> cases hx <;> cases y <;> cases hy <;> constructor
  all_goals first
    | rw [conv] at hz
    | simp only [V.isZero] at hz
  all_goals
    simp only [assignOp]
    first
    | unfold divAssign
    | unfold modAssign
    simp only [held_primitive, held_value]
    simp [enc, P_INT, P_FLOAT, FloatOps.isZero, hz]

/-! ## C54: increments and decrements -/

/-- On an integer variable whose successor (predecessor) is representable, `x++`/`x--` yield the old value,
`++x`/`--x` the new one, and all leave `x ± 1` in the variable, keeping its kind. -/
theorem inc_dec_int_partial (F : FloatOps) (op : IncOp) (c : Bool) (a : Word)
    (h : match op.dir with
      | .add => a.toInt + 1 < 2 ^ 63
      | .sub => -(2:Int) ^ 63 ≤ a.toInt - 1
      | .mul => False) :
    ∃ r : Word, r.toInt = (match op with
        | .postInc => a.toInt + 1
        | .preInc => a.toInt + 1
        | .postDec => a.toInt - 1
        | .preDec => a.toInt - 1) ∧
      incDec F op (held c (.int a)) = .set (held c (.int r)) (enc (.int (match op with
        | .postInc => a
        | .postDec => a
        | .preInc => r
        | .preDec => r))) := by
  have hlt : a.toInt < 2 ^ 63 := by have := BitVec.toInt_lt (x := a); simpa using this
  have hge : -(2:Int) ^ 63 ≤ a.toInt := by have := BitVec.le_toInt (x := a); simpa using this
  have one : (1 : Word).toInt = 1 := by decide
  have main : ∀ op : IncOp, -(2:Int)^63 ≤ op.dir.exact a.toInt 1 ∧ op.dir.exact a.toInt 1 < 2 ^ 63 →
      (BitVec.ofInt 64 (op.dir.exact a.toInt 1)).toInt = op.dir.exact a.toInt 1 ∧
      incDec F op (held c (.int a)) =
        .set (held c (.int (BitVec.ofInt 64 (op.dir.exact a.toInt 1))))
          (if op.isPost then enc (.int a) else enc (.int (BitVec.ofInt 64 (op.dir.exact a.toInt 1)))) := by
    intro op hr
    refine ⟨BitVec.toInt_ofInt_eq_self (by decide) hr.1 hr.2, ?_⟩
    have hf : fits (op.dir.exact a.toInt (1 : Word).toInt) = true := by
      rw [one]; simp only [fits, Bool.and_eq_true, decide_eq_true_eq]; exact hr
    unfold incDec
    rw [held_primitive, held_value]
    have e : intArith op.dir (enc (.int a)).value 1 = .val (mkInt (BitVec.ofInt 64 (op.dir.exact a.toInt 1))) := by
      unfold intArith
      simp only []
      rw [← one]
      exact if_pos hf
    rw [e]
    simp only [P_INT, if_true]
    cases c <;> cases op <;> rfl
  cases op <;> simp only [IncOp.dir] at h
  · obtain ⟨h1, h2⟩ := main .postInc ⟨by simp only [IncOp.dir, ArithOp.exact]; omega, h⟩
    exact ⟨_, h1, h2⟩
  · obtain ⟨h1, h2⟩ := main .postDec ⟨h, by simp only [IncOp.dir, ArithOp.exact]; omega⟩
    exact ⟨_, h1, h2⟩
  · obtain ⟨h1, h2⟩ := main .preInc ⟨by simp only [IncOp.dir, ArithOp.exact]; omega, h⟩
    exact ⟨_, h1, h2⟩
  · obtain ⟨h1, h2⟩ := main .preDec ⟨h, by simp only [IncOp.dir, ArithOp.exact]; omega⟩
    exact ⟨_, h1, h2⟩

example : ∃ r : Word, r.toInt = 6 ∧ incDec ieee .postInc (held false (.int 5)) =
    .set (held false (.int r)) (enc (.int 5)) :=
  inc_dec_int_partial ieee .postInc false 5 (show (5 : Word).toInt + 1 < 2 ^ 63 by decide)

/-- On a float variable the same with floating point `± 1`. -/
theorem inc_dec_float (F : FloatOps) (op : IncOp) (c : Bool) (w : Word) :
    ∃ r : Word, r = (match op with
        | .postInc => F.add w (F.ofInt 1)
        | .preInc => F.add w (F.ofInt 1)
        | .postDec => F.sub w (F.ofInt 1)
        | .preDec => F.sub w (F.ofInt 1)) ∧
      incDec F op (held c (.flt w)) = .set (held c (.flt r)) (enc (.flt (match op with
        | .postInc => w
        | .postDec => w
        | .preInc => r
        | .preDec => r))) := by
  refine ⟨_, rfl, ?_⟩
  unfold incDec
  rw [held_primitive, held_value]
  cases op <;> simp only [P_INT, P_FLOAT, enc] <;> rw [if_neg (by decide), if_pos (by decide)] <;>
    cases c <;> rfl

/-- The full claim for integers: an increment of an integer variable always succeeds. -/
def IncrementTotal : Prop := ∀ (F : FloatOps) (a : Word), ∃ d r, incDec F .preInc (held false (.int a)) = .set d r

/-- It fails at the largest integer (undefined behaviour). -/
theorem increment_violated : ¬ IncrementTotal := by
  intro h
  obtain ⟨d, r, e⟩ := h ieee 0x7FFFFFFFFFFFFFFF
  rw [show incDec ieee .preInc (held false (.int 0x7FFFFFFFFFFFFFFF)) = .ub by decide] at e
  cases e

/-- Non-numeric, non-object variables cannot be incremented: script error, variable unchanged. -/
theorem inc_dec_error (F : FloatOps) (op : IncOp) (c : Bool) (v : V) (hn : v.isNum = false) (ho : v.isObj = false) :
    incDec F op (held c v) = .err := by
  unfold incDec
  rw [held_primitive, has_object_held, ho, held_props]
  cases v <;> simp only [V.isNum, V.isObj] at hn ho ⊢ <;> first
    | cases hn; done
    | cases ho; done
    | (rw [if_neg (by decide), if_neg (by decide)]; cases c <;> exact if_neg (by decide))

end Verif.Vm
