import Verif.Vm.Operation
import Verif.Vm.Spec
/-
C17 (comparison laws) and the part of C46 about `typeof`.
-/
namespace Verif.Vm
open Verif

/-! ## Specification -/

/-- The value is not the float NaN. -/
def V.notNaN : V → Bool
  | .flt w => !Ieee.isNaN w
  | _ => true

/-- Three-way order of two byte strings, lexicographic. -/
def textOrder : List UInt8 → List UInt8 → Ordering
  | [], [] => .eq
  | [], _ => .lt
  | _, [] => .gt
  | a :: as, b :: bs => if a.toNat < b.toNat then .lt else if b.toNat < a.toNat then .gt else textOrder as bs

/-- Three-way order of two comparable values: two numbers by magnitude (two integers as integers, otherwise
as floats), two booleans with `false` first, two strings lexicographically; `none` for other pairs and NaN. -/
def order (m : Mem) (x y : V) : Option Ordering :=
  match x, y with
  | .int a, .int b => some (Ord.compare a.toInt b.toInt)
  | .bool a, .bool b => some (Ord.compare a b)
  | .obj a, .obj b =>
    if (m.obj a).typeId = T_STRING_SO ∧ (m.obj b).typeId = T_STRING_SO then
      some (textOrder (m.obj a).text (m.obj b).text) else none
  | x, y => if x.isNum ∧ y.isNum ∧ Ieee.isNaN (x.asFlt ieee) = false ∧ Ieee.isNaN (y.asFlt ieee) = false then
      some (Ord.compare (Ieee.scaled (x.asFlt ieee)) (Ieee.scaled (y.asFlt ieee))) else none

/-- What the operator answers for each outcome of the order. -/
def CmpOp.test : CmpOp → Ordering → Bool
  | .eq, o => o = .eq
  | .ne, o => o ≠ .eq
  | .lt, o => o = .lt
  | .le, o => o ≠ .gt
  | .gt, o => o = .gt
  | .ge, o => o ≠ .lt

/-! ## Lemmas -/

theorem ieee_eq (a b : Word) : ieee.eq a b = Ieee.eq a b := rfl
theorem ieee_lt (a b : Word) : ieee.lt a b = Ieee.lt a b := rfl
theorem ieee_le (a b : Word) : ieee.le a b = Ieee.le a b := rfl
theorem ieee_ofInt (i : Int) : ieee.ofInt i = Ieee.ofInt i := rfl

theorem asFlt_int (w : Word) : (V.int w).asFlt ieee = Ieee.ofInt w.toInt := rfl
theorem enc_int (w : Word) : (enc (.int w)).value = w := rfl
theorem enc_flt (w : Word) : (enc (.flt w)).value = w := rfl

attribute [local irreducible] ieee Ieee.ofInt Ieee.isNaN Ieee.scaled

theorem cmpInt_order (op : CmpOp) (a b : Int) : cmpInt op a b = op.test (Ord.compare a b) := by
  have h : (Ord.compare a b = .lt ∧ a < b) ∨ (Ord.compare a b = .eq ∧ a = b) ∨ (Ord.compare a b = .gt ∧ b < a) := by
    rcases hc : Ord.compare a b with _ | _ | _
    · exact .inl ⟨rfl, by rwa [Int.compare_eq_lt] at hc⟩
    · exact .inr (.inl ⟨rfl, by rwa [Int.compare_eq_eq] at hc⟩)
    · exact .inr (.inr ⟨rfl, by rwa [Int.compare_eq_gt] at hc⟩)
  rcases h with ⟨e, h⟩ | ⟨e, h⟩ | ⟨e, h⟩ <;> rw [e] <;> cases op <;>
    simp only [cmpInt, CmpOp.test] <;> simp <;> omega

theorem cmpFlt_order (op : CmpOp) (a b : Word) (ha : Ieee.isNaN a = false) (hb : Ieee.isNaN b = false) :
    cmpFlt ieee op a b = op.test (Ord.compare (Ieee.scaled a) (Ieee.scaled b)) := by
  rw [← cmpInt_order]
  cases op <;>
    simp only [cmpFlt, ieee_eq, ieee_lt, ieee_le, Ieee.eq, Ieee.lt, Ieee.le, ha, hb, cmpInt, Bool.not_false, Bool.true_and] <;>
    simp

theorem textOrder_refl (a : List UInt8) : textOrder a a = .eq := by
  induction a with
  | nil => rfl
  | cons x xs ih => simp only [textOrder, Nat.lt_irrefl, if_false, ih]

theorem textOrder_swap (a b : List UInt8) : textOrder b a = (textOrder a b).swap := by
  induction a generalizing b with
  | nil => cases b <;> rfl
  | cons x xs ih =>
    cases b with
    | nil => rfl
    | cons y ys =>
      simp only [textOrder]
      by_cases h1 : x.toNat < y.toNat
      · have h2 : ¬ y.toNat < x.toNat := by omega
        simp only [h1, h2, if_true, if_false, Ordering.swap]
      · by_cases h2 : y.toNat < x.toNat
        · simp only [h1, h2, if_true, if_false, Ordering.swap]
        · simp only [h1, h2, if_false]; exact ih ys

theorem textOrder_eq (a b : List UInt8) : textOrder a b = .eq ↔ a = b := by
  induction a generalizing b with
  | nil => cases b <;> simp [textOrder]
  | cons x xs ih =>
    cases b with
    | nil => simp [textOrder]
    | cons y ys =>
      simp only [textOrder, List.cons.injEq]
      by_cases h1 : x.toNat < y.toNat
      · have : x ≠ y := by rintro rfl; omega
        simp [h1, this]
      · by_cases h2 : y.toNat < x.toNat
        · have : x ≠ y := by rintro rfl; omega
          simp [h1, h2, this]
        · have : x = y := UInt8.toNat_inj.mp (by omega)
          simp [h1, h2, this, ih]

theorem strcmp_order (op : CmpOp) (a b : List UInt8) : cmpInt op (strcmp a b) 0 = op.test (textOrder a b) := by
  have h : strcmp a b = (match textOrder a b with | .lt => -1 | .eq => 0 | .gt => 1) := by
    induction a generalizing b with
    | nil => cases b <;> rfl
    | cons x xs ih =>
      cases b with
      | nil => rfl
      | cons y ys =>
        simp only [strcmp, textOrder, UInt8.lt_iff_toNat_lt]
        by_cases h1 : x.toNat < y.toNat
        · simp only [h1, if_true]
        · by_cases h2 : y.toNat < x.toNat
          · simp only [h1, h2, if_true, if_false]
          · simp only [h1, h2, if_false]; exact ih ys
  rw [h]
  cases textOrder a b <;> cases op <;> rfl

theorem int_compare_swap (a b : Int) : Ord.compare b a = (Ord.compare a b).swap := by
  rcases Int.lt_trichotomy a b with h | h | h
  · rw [Int.compare_eq_lt.mpr h, Int.compare_eq_gt.mpr h]; rfl
  · subst h; rw [Int.compare_eq_eq.mpr rfl]; rfl
  · rw [Int.compare_eq_gt.mpr h, Int.compare_eq_lt.mpr h]; rfl

theorem order_swap (m : Mem) (x y : V) (o : Ordering) (h : order m x y = some o) :
    order m y x = some o.swap := by
  have sc := fun a b => int_compare_swap (Ieee.scaled a) (Ieee.scaled b)
  cases x <;> cases y <;> simp only [order] at h ⊢ <;> first
    | (simp [V.isNum] at h; done)
    | skip
  · cases h; rw [int_compare_swap]
  · split at h
    · rename_i hc; cases h; rw [if_pos ⟨hc.2.1, hc.1, hc.2.2.2, hc.2.2.1⟩, sc]
    · cases h
  · split at h
    · rename_i hc; cases h; rw [if_pos ⟨hc.2.1, hc.1, hc.2.2.2, hc.2.2.1⟩, sc]
    · cases h
  · split at h
    · rename_i hc; cases h; rw [if_pos ⟨hc.2.1, hc.1, hc.2.2.2, hc.2.2.1⟩, sc]
    · cases h
  · rename_i a b; cases h; cases a <;> cases b <;> rfl
  · split at h
    · rename_i hc; cases h; rw [if_pos hc.symm, textOrder_swap]
    · cases h

theorem order_refl (m : Mem) (x : V) (o : Ordering) (h : order m x x = some o) : o = .eq := by
  cases x <;> simp only [order] at h <;> first
    | (simp [V.isNum] at h; done)
    | skip
  · cases h; exact Int.compare_eq_eq.mpr rfl
  · split at h
    · cases h; exact Int.compare_eq_eq.mpr rfl
    · cases h
  · rename_i b; cases h; cases b <;> rfl
  · split at h
    · cases h; exact textOrder_refl _
    · cases h

theorem isTypeHeld (c : Bool) (v : V) : has (held c v).props P_TYPE = (match v with | .type _ => true | _ => false) := by
  rw [held_props]
  cases c <;> cases v <;> simp only [if_true, if_false, Bool.false_eq_true] <;> decide

theorem mkBool_enc (b : Bool) : mkBool b = enc (.bool b) := by cases b <;> rfl

theorem enc_bool_toBool (c b : Bool) : toBool (held c (.bool b)) = b := by
  unfold toBool; rw [held_value]; cases b <;> rfl

/-! ## C17 -/

/-- For comparable values every comparison operator answers according to the order of the two values. -/
theorem compare_exact (m : Mem) (op : CmpOp) (ca cb : Bool) (x y : V) (o : Ordering)
    (h : order m x y = some o) :
    compare ieee m op (held ca x) (held cb y) = .val (enc (.bool (op.test o))) := by
  have flt : ∀ a b : Word, Ieee.isNaN a = false → Ieee.isNaN b = false →
      Ord.compare (Ieee.scaled a) (Ieee.scaled b) = o → cmpFlt ieee op a b = op.test o := by
    intro a b ha hb e; rw [cmpFlt_order _ _ _ ha hb, e]
  unfold compare
  cases x <;> cases y <;> simp only [order] at h <;> first
    | (simp [V.isNum] at h; done)
    | simp only [held_primitive, isTypeHeld, mkBool_enc, held_value]
  · rw [if_pos ⟨by decide, by decide⟩]
    cases h; rw [cmpInt_order]; rfl
  · split at h
    · rename_i hc
      simp only [V.asFlt] at hc h
      rw [if_neg (by decide), if_neg (by decide), if_pos ⟨by decide, by decide⟩]
      simp only [enc_int, enc_flt]
      rw [flt _ _ hc.2.2.1 hc.2.2.2 (Option.some.inj h)]
    · cases h
  · split at h
    · rename_i hc
      simp only [V.asFlt] at hc h
      rw [if_neg (by decide), if_neg (by decide), if_neg (by decide), if_pos ⟨by decide, by decide⟩]
      simp only [enc_int, enc_flt]
      rw [flt _ _ hc.2.2.1 hc.2.2.2 (Option.some.inj h)]
    · cases h
  · split at h
    · rename_i hc
      simp only [V.asFlt] at hc h
      rw [if_neg (by decide), if_neg (by decide), if_neg (by decide), if_neg (by decide), if_pos ⟨by decide, by decide⟩]
      simp only [enc_int, enc_flt]
      rw [flt _ _ hc.2.2.1 hc.2.2.2 (Option.some.inj h)]
    · cases h
  · rename_i a b
    rw [if_neg (by decide), if_pos ⟨by decide, by decide⟩, enc_bool_toBool, enc_bool_toBool, cmpBool, cmpInt_order]
    cases h; cases a <;> cases b <;> rfl
  · rename_i a b
    split at h
    · rename_i hc
      cases h
      rw [if_neg (by decide), if_neg (by decide), if_neg (by decide), if_neg (by decide), if_neg (by decide),
        if_neg (by decide)]
      have e : (isStr m (held ca (.obj a)) && isStr m (held cb (.obj b))) = true := by
        simp only [isStr, isObjOf_held, V.isObjOf, hc.1, hc.2]; rfl
      rw [e, if_pos rfl, cmpStr, strcmp_order]; rfl
    · cases h

/-- The laws, for every pair of comparable values in variables or constants: `==` is symmetric and `!=` its
complement, `<` and `>=`, `>` and `<=` are complements, `a<b` is `b>a`, `a<=b` is `b>=a`, `a<=b` is
`a<b || a==b`, and exactly one of `<`, `==`, `>` holds. -/
theorem comparison_laws (m : Mem) (ca cb : Bool) (x y : V) (h : (order m x y).isSome) :
    ∃ eq lt gt : Bool,
      compare ieee m .eq (held ca x) (held cb y) = .val (enc (.bool eq)) ∧
      compare ieee m .eq (held cb y) (held ca x) = .val (enc (.bool eq)) ∧
      compare ieee m .ne (held ca x) (held cb y) = .val (enc (.bool (!eq))) ∧
      compare ieee m .ne (held cb y) (held ca x) = .val (enc (.bool (!eq))) ∧
      compare ieee m .lt (held ca x) (held cb y) = .val (enc (.bool lt)) ∧
      compare ieee m .gt (held cb y) (held ca x) = .val (enc (.bool lt)) ∧
      compare ieee m .ge (held ca x) (held cb y) = .val (enc (.bool (!lt))) ∧
      compare ieee m .le (held cb y) (held ca x) = .val (enc (.bool (!lt))) ∧
      compare ieee m .gt (held ca x) (held cb y) = .val (enc (.bool gt)) ∧
      compare ieee m .lt (held cb y) (held ca x) = .val (enc (.bool gt)) ∧
      compare ieee m .le (held ca x) (held cb y) = .val (enc (.bool (!gt))) ∧
      compare ieee m .ge (held cb y) (held ca x) = .val (enc (.bool (!gt))) ∧
      (!gt) = (lt || eq) ∧ (lt && gt) = false ∧ (eq && (lt || gt)) = false := by
  obtain ⟨o, ho⟩ := Option.isSome_iff_exists.mp h
  have h1 := fun op => compare_exact m op ca cb x y o ho
  have h2 := fun op => compare_exact m op cb ca y x o.swap (order_swap m x y o ho)
  refine ⟨CmpOp.eq.test o, CmpOp.lt.test o, CmpOp.gt.test o, ?_⟩
  simp only [h1, h2]
  cases o <;> decide

/-- Reflexivity: every value comparable with itself equals itself. -/
theorem comparison_refl (m : Mem) (ca cb : Bool) (x : V) (h : (order m x x).isSome) :
    compare ieee m .eq (held ca x) (held cb x) = .val (enc (.bool true)) := by
  obtain ⟨o, ho⟩ := Option.isSome_iff_exists.mp h
  rw [compare_exact m .eq ca cb x x o ho, order_refl m x o ho]; rfl

/-- Which values are comparable with themselves: numbers other than NaN, booleans and strings. -/
theorem order_self (m : Mem) (x : V) : (order m x x).isSome ↔
    (x.isNum ∧ x.notNaN) ∨ (∃ b, x = .bool b) ∨ x.isObjOf m T_STRING_SO := by
  cases x <;> simp [order, V.isNum, V.notNaN, V.isObjOf, V.asFlt] <;> split <;> simp_all

/-- Two strings are `==` exactly when they have the same bytes, whether or not they are the same object. -/
theorem string_equality (m : Mem) (ca cb : Bool) (a b : Word)
    (ha : (m.obj a).typeId = T_STRING_SO) (hb : (m.obj b).typeId = T_STRING_SO) :
    compare ieee m .eq (held ca (.obj a)) (held cb (.obj b)) =
      .val (enc (.bool (decide ((m.obj a).text = (m.obj b).text)))) := by
  rw [compare_exact m .eq ca cb _ _ (textOrder (m.obj a).text (m.obj b).text)
    (by simp only [order]; exact if_pos ⟨ha, hb⟩)]
  congr 3
  simp only [CmpOp.test]
  exact decide_eq_decide.mpr (textOrder_eq _ _)

def strMem : Mem := ⟨fun a => if a = 1 then ⟨T_STRING_SO, [97, 98]⟩ else ⟨T_STRING_SO, [97, 99]⟩, fun _ => ⟨0, 0⟩, fun _ => 0⟩

example : order strMem (.obj 1) (.obj 2) = some .lt := by decide
example : order noMem (.int (-3)) (.int 5) = some .lt := by decide
example : order noMem (.int 2) (.flt 0x3FF8000000000000) = some .gt := by
  have h : (Ieee.isNaN (Ieee.ofInt 2) = false ∧ Ieee.isNaN 0x3FF8000000000000 = false) ∧
    Ord.compare (Ieee.scaled (Ieee.ofInt 2)) (Ieee.scaled 0x3FF8000000000000) = .gt := by decide +kernel
  have e : (V.int 2).asFlt ieee = Ieee.ofInt 2 := asFlt_int 2
  have e' : (V.flt 0x3FF8000000000000).asFlt ieee = 0x3FF8000000000000 := rfl
  simp only [order, e, e', h.2]
  exact if_pos ⟨rfl, rfl, h.1⟩

/-- `undefined` and `null` held in plain variables are equal to themselves and to no other value that is not a
type value; `!=` is the complement. (`b` ranges over all values, with the other operand on either side.) -/
theorem undefined_null_equality (F : FloatOps) (m : Mem) (v : V) (hv : v ≠ .undef ∧ v ≠ .null) (c : Bool)
    (ht : ∀ i, v ≠ .type i) :
    ∀ u, (u = .undef ∨ u = .null) →
      compare F m .eq (enc u) (enc u) = .val (enc (.bool true)) ∧
      compare F m .ne (enc u) (enc u) = .val (enc (.bool false)) ∧
      compare F m .eq (enc u) (held c v) = .val (enc (.bool false)) ∧
      compare F m .eq (held c v) (enc u) = .val (enc (.bool false)) ∧
      compare F m .ne (enc u) (held c v) = .val (enc (.bool true)) ∧
      compare F m .ne (held c v) (enc u) = .val (enc (.bool true)) := by
  have hs : ∀ (u : V), u = .undef ∨ u = .null → isStr m (held false u) = false := by
    rintro u (rfl | rfl) <;> rfl
  have e0 : ∀ u, enc u = held false u := fun _ => rfl
  have e1 : ∀ b, mkBool b = held false (.bool b) := by intro b; cases b <;> rfl
  rintro u hu
  simp only [e0]
  cases v <;> first
    | exact absurd rfl hv.1
    | exact absurd rfl hv.2
    | exact absurd rfl (ht _)
    | (rcases hu with rfl | rfl <;> cases c <;>
        simp [compare, isTypeHeld, held_props, hs, e1, CmpOp.isEquality, primitive, has, P_UNDEFINED, P_NULL, P_CHAR_PTR, P_INT, P_FLOAT, P_BOOL, P_TYPE, P_FUNCTION, P_MEMBER_FUNCTION, P_OBJECT,
          P_CONTAINER_SLOT, P_OBJECT_IN_CONTAINER, P_PTR_STK, P_READ_ONLY] <;> decide)

/-- `undefined` and `null` are different. -/
theorem undefined_ne_null (F : FloatOps) (m : Mem) :
    compare F m .eq (enc .undef) (enc .null) = .val (enc (.bool false)) ∧
    compare F m .eq (enc .null) (enc .undef) = .val (enc (.bool false)) ∧
    compare F m .ne (enc .undef) (enc .null) = .val (enc (.bool true)) ∧
    compare F m .ne (enc .null) (enc .undef) = .val (enc (.bool true)) := ⟨rfl, rfl, rfl, rfl⟩

/-- All other comparisons are left to the operands' metamethods or are a script error; nothing is guessed. -/
theorem incomparable_not_answered (F : FloatOps) (m : Mem) (op : CmpOp) (ca cb : Bool) (x y : V)
    (hn : ¬ (x.isNum ∧ y.isNum)) (hb : ¬ ((∃ p, x = .bool p) ∧ ∃ q, y = .bool q))
    (hs : ¬ (x.isObjOf m T_STRING_SO ∧ y.isObjOf m T_STRING_SO)) (ht : ∀ i, x ≠ .type i)
    (hu : x ≠ .undef ∧ y ≠ .undef ∧ x ≠ .null ∧ y ≠ .null) :
    compare F m op (held ca x) (held cb y) = (if x.isObj then .call (enc x).value (held ca x) (held cb y)
      else if y.isObj then .call (enc y).value (held ca x) (held cb y) else .err) := by
  have e1 : metamethod m false (held ca x) (held cb y) = (if x.isObj then .call (enc x).value (held ca x) (held cb y)
      else if y.isObj then .call (enc y).value (held ca x) (held cb y) else .err) := by
    unfold metamethod
    simp only [Bool.false_and, Bool.false_eq_true, if_false, has_object_held, held_value]
  rw [← e1]
  have e2 : (isStr m (held ca x) && isStr m (held cb y)) = false := by
    simp only [isStr, isObjOf_held]
    cases h1 : x.isObjOf m T_STRING_SO <;> cases h2 : y.isObjOf m T_STRING_SO <;> first | rfl | exact absurd ⟨h1, h2⟩ hs
  have p0 : ∀ c v, v ≠ .undef → (held c v).props ≠ P_UNDEFINED := by
    intro c v h; rw [held_props]
    cases v <;> first | exact absurd rfl h | (cases c <;> simp only [if_true, if_false, Bool.false_eq_true] <;> decide)
  have p1 : ∀ c v, v ≠ .null → (held c v).props ≠ P_NULL := by
    intro c v h; rw [held_props]
    cases v <;> first | exact absurd rfl h | (cases c <;> simp only [if_true, if_false, Bool.false_eq_true] <;> decide)
  unfold compare
  simp only [e2, isTypeHeld, p0 ca x hu.1, p0 cb y hu.2.1, p1 ca x hu.2.2.1, p1 cb y hu.2.2.2, held_primitive]
  cases x <;> first
    | exact absurd rfl (ht _)
    | (cases y <;> first
        | exact absurd ⟨rfl, rfl⟩ hn
        | exact absurd ⟨⟨_, rfl⟩, ⟨_, rfl⟩⟩ hb
        | rfl)

example : compare ieee noMem .lt (held false (.int 1)) (held true (.bool true)) = .err :=
  incomparable_not_answered ieee noMem .lt false true (.int 1) (.bool true) (by decide) (by rintro ⟨⟨_, h⟩, _⟩; cases h)
    (by decide) (by intro i h; cases h) (by decide)

/-! ### What fails -/

/-- The full reflexivity claim, for all values other than objects with user-defined comparison. -/
def EqReflexive : Prop := ∀ (m : Mem) (ca cb : Bool) (x : V), x.isObj = false →
  compare ieee m .eq (held ca x) (held cb x) = .val (enc (.bool true))

/-- `const a = undefined; a == undefined` is `false`. -/
theorem const_undefined_violated : ¬ EqReflexive := by
  intro h
  have := h noMem true false .undef rfl
  rw [show compare ieee noMem .eq (held true .undef) (held false .undef) = .val (enc (.bool false)) by rfl] at this
  exact absurd this (by decide)

/-- Likewise `null`; and a float NaN is not equal to itself (IEEE-754). -/
theorem const_null_nan_violated :
    compare ieee noMem .eq (held true .null) (held false .null) = .val (enc (.bool false)) ∧
    compare ieee noMem .eq (held false (.flt Ieee.nan)) (held false (.flt Ieee.nan)) = .val (enc (.bool false)) := by
  refine ⟨rfl, ?_⟩
  have h : Ieee.eq Ieee.nan Ieee.nan = false := by decide +kernel
  have e : ∀ F w, compare F noMem .eq (held false (.flt w)) (held false (.flt w)) =
      .val (mkBool (F.eq w w)) := by
    intro F w
    unfold compare
    simp only [held_primitive, held_value, enc_flt]
    rw [if_neg (by decide), if_neg (by decide), if_neg (by decide), if_neg (by decide), if_pos ⟨by decide, by decide⟩]
    rfl
  rw [e, ieee_eq, h]; rfl

/-- The full claims for symmetry and for the complement. -/
def EqSymmetric : Prop := ∀ (m : Mem) (x y : V) (b : Bool),
  compare ieee m .eq (enc x) (enc y) = .val (enc (.bool b)) → compare ieee m .eq (enc y) (enc x) = .val (enc (.bool b))
def NeComplement : Prop := ∀ (m : Mem) (x y : V) (b : Bool),
  compare ieee m .eq (enc x) (enc y) = .val (enc (.bool b)) → compare ieee m .ne (enc x) (enc y) = .val (enc (.bool (!b)))

/-- `typeof(1) == 4` is `true` but `4 == typeof(1)` is an error. -/
theorem type_symmetry_violated : ¬ EqSymmetric := by
  intro h
  have := h noMem (.type 4) (.int 4) true rfl
  rw [show compare ieee noMem .eq (enc (.int 4)) (enc (.type 4)) = .err by rfl] at this
  cases this

/-- `typeof(undefined) == typeof(undefined)` and `typeof(undefined) != typeof(undefined)` are both `true`. -/
theorem type_complement_violated : ¬ NeComplement := by
  intro h
  have := h noMem (.type 1) (.type 1) true rfl
  rw [show compare ieee noMem .ne (enc (.type 1)) (enc (.type 1)) = .val (enc (.bool true)) by rfl] at this
  exact absurd this (by decide)

/-- Between two type values other than `typeof(undefined)` on the left, `==` and `!=` are right. -/
theorem type_equality_partial (F : FloatOps) (m : Mem) (ca cb : Bool) (i j : Word) (h : i ≠ 1) :
    compare F m .eq (held ca (.type i)) (held cb (.type j)) = .val (enc (.bool (decide (i = j)))) ∧
    compare F m .ne (held ca (.type i)) (held cb (.type j)) = .val (enc (.bool (decide (i ≠ j)))) := by
  have h' : ¬ (i = BitVec.ofNat 64 T_UNDEFINED) := h
  have hd : ∀ {p q : Prop}, ¬ (enc (.type i)).value = BitVec.ofNat 64 T_UNDEFINED ∧ p ∧ q ∨ True := fun {_ _} => .inr trivial
  constructor
  all_goals
    unfold compare
    simp only [held_primitive, isTypeHeld, held_value]
    rw [if_neg (by decide), if_neg (by decide), if_neg (by decide), if_neg (by decide), if_neg (by decide),
      if_pos trivial, if_pos (by decide), if_neg (fun hc => h' hc.1), if_neg (fun hc => h' hc.1), mkBool_enc]
    simp only [cmpInt]
    have e : (enc (.type i)).value.toInt = (enc (.type j)).value.toInt ↔ i = j :=
      ⟨fun e => BitVec.eq_of_toInt_eq e, fun e => by rw [e]⟩
    simp only [e, ne_eq]

/-! ## C46: `typeof` -/

/-- The type id of the value's kind. -/
def V.kindId (m : Mem) : V → Word
  | .undef => 1
  | .null => 2
  | .int _ => 4
  | .flt _ => 12
  | .bool _ => 10
  | .fn _ => 16
  | .type i => i
  | .obj a => BitVec.ofNat 64 (m.obj a).typeId

theorem ptr_held (c : Bool) (v : V) : has (held c v).props P_PTR_STK = false := by
  rw [held_props]
  cases c <;> cases v <;> simp only [if_true, if_false, Bool.false_eq_true] <;> decide

theorem typeOf_held_false (m : Mem) (v : V) : typeOf m (held false v) = enc (.type (v.kindId m)) := by
  unfold typeOf
  simp only [ptr_held]
  cases v <;> (simp +decide only [held_props, held_value, if_true, if_false]; rfl)

/-- `typeof` of a plain value reports the id of its kind, as a type value. -/
theorem typeof_exact (m : Mem) (v : V) : typeOf m (enc v) = enc (.type (v.kindId m)) :=
  typeOf_held_false m v

/-- So does `typeof` of a constant, except for constants holding `undefined` or `null`. -/
theorem typeof_const_partial (m : Mem) (v : V) (hv : v ≠ .undef ∧ v ≠ .null) :
    (typeOf m (held true v)).value = v.kindId m := by
  unfold typeOf
  simp only [ptr_held]
  cases v <;> first
    | exact absurd rfl hv.1
    | exact absurd rfl hv.2
    | (simp +decide only [held_props, held_value, if_true, if_false]; rfl)

/-- The full claim for constants. -/
def TypeofConst : Prop := ∀ (m : Mem) (v : V), (typeOf m (held true v)).value = v.kindId m

/-- It fails: `const a = undefined; typeof(a)` reports no type at all (id -1). -/
theorem typeof_const_violated : ¬ TypeofConst := by
  intro h
  exact absurd (h noMem .undef) (by decide)

/-- Reading through a reference: `typeof` of a pointer to a variable is the kind of the variable's content. -/
theorem typeof_reference (m : Mem) (p : Word) (v : V) (h : m.stk p = enc v) :
    typeOf m ⟨p, P_PTR_STK⟩ = enc (.type (v.kindId m)) := by
  rw [← typeof_exact, ← h]
  have hp : has (m.stk p).props P_PTR_STK = false := by rw [h]; exact ptr_held false v
  have h1 : has P_PTR_STK P_PTR_STK = true := by decide
  unfold typeOf
  simp only [h1, hp, if_true, if_false, Bool.false_eq_true]

/-- A reference to a container slot reports the type of the object the slot stands for. -/
theorem typeof_slot (m : Mem) (p : Word) :
    typeOf m ⟨p, P_CONTAINER_SLOT⟩ = enc (.type (V.kindId m (.obj (m.slot p)))) := by
  unfold typeOf
  simp +decide only [if_true, if_false]
  rfl

/-- The kinds are distinct: a plain value reports a type id of exactly one built-in kind. -/
theorem typeof_distinguishes (m : Mem) (x y : V) (h : typeOf m (enc x) = typeOf m (enc y)) :
    (x = .undef → y = .undef ∨ (∃ i, y = .type i) ∨ y.isObj) ∧
    (x = .null → y = .null ∨ (∃ i, y = .type i) ∨ y.isObj) ∧
    ((∃ w, x = .int w) → (∃ w, y = .int w) ∨ (∃ i, y = .type i) ∨ y.isObj) ∧
    ((∃ w, x = .flt w) → (∃ w, y = .flt w) ∨ (∃ i, y = .type i) ∨ y.isObj) ∧
    ((∃ w, x = .bool w) → (∃ w, y = .bool w) ∨ (∃ i, y = .type i) ∨ y.isObj) ∧
    ((∃ w, x = .fn w) → (∃ w, y = .fn w) ∨ (∃ i, y = .type i) ∨ y.isObj) := by
  rw [typeof_exact, typeof_exact] at h
  have h' : x.kindId m = y.kindId m := by
    have := congrArg Stk.value h; exact this
  cases x <;> cases y <;> simp_all [V.kindId, V.isObj]

/-- `unwrapStackElement` gives the plain value behind a constant or a reference to a constant or variable. -/
theorem unwrap_exact (m : Mem) (c : Bool) (v : V) :
    unwrap m (held c v) = enc v ∧ ∀ p, m.stk p = held c v → unwrap m ⟨p, P_PTR_STK⟩ = enc v := by
  have main : ∀ s : Stk, s = held c v →
      (let s := if has s.props P_CONTAINER_SLOT then ⟨m.slot s.value, P_OBJECT⟩ else s
       let s := if has s.props P_READ_ONLY then { s with props := s.props &&& ~~~P_READ_ONLY } else s
       if has s.props P_OBJECT_IN_CONTAINER then { s with props := P_OBJECT } else s) = enc v := by
    rintro s rfl
    cases c <;> cases v <;> (simp +decide only [held_props, held_value, if_true, if_false] <;> rfl)
  refine ⟨?_, ?_⟩
  · have h := ptr_held c v
    unfold unwrap
    simp only [h, Bool.false_eq_true, if_false]
    exact main _ rfl
  · intro p hp
    have h : has P_PTR_STK P_PTR_STK = true := by decide
    unfold unwrap
    simp only [h, if_true]
    exact main _ hp

end Verif.Vm
