import Verif.Compiler.Fold
import Verif.Vm.OperationProps
import Verif.Vm.CompareProps
/-
C25: constant folding is transparent.
-/
namespace Verif.Comp
open Verif Verif.Vm

/-! ## Specification -/

/-- A string constant is a string object. -/
def Const.wf (m : Mem) : Const → Prop
  | .str a => (m.obj a).typeId = 20
  | _ => True

/-- The folded result is what the run-time operation gives: the same value, or (string concatenation) a new string whose
content is the text of both operands, after the replacement of escapes that storing a string object makes. -/
def SameAsRunTime (m : Mem) (num : V → List UInt8) (x y : V) (ca cb : Bool) (r : Res) (e : Eff) : Prop :=
  match r with
  | .val v => e = .val (enc v)
  | .text t => e = .strCat (held ca x) (held cb y) ∧ t = Str.unescapeChars (valueText m num x ++ valueText m num y)

/-- The full claim (false, see below): whenever a constant expression is accepted, its value is the value of the run-time
operation on variables (`const` or not) holding the same operands. -/
def FoldTransparent (F : FloatOps) : Prop :=
  ∀ (m : Mem) (num : V → List UInt8) (op : BOp) (a b : Const) (ca cb : Bool) (r : Res), a.wf m → b.wf m →
    fold F m num op a b = .ok r → SameAsRunTime m num a.asV b.asV ca cb r (runBin F m op (held ca a.asV) (held cb b.asV))

/-- Comparison operators and `/`, `%`. -/
def BOp.isCmpDiv : BOp → Bool
  | .eq | .ne | .lt | .le | .gt | .ge | .div | .mod => true
  | _ => false

def BOp.isDiv : BOp → Bool
  | .div | .mod => true
  | _ => false

/-- The one of two texts that is longer does not continue the other one with a character below the double quote. -/
def QuoteSafe (a b : List UInt8) : Prop :=
  (∀ c r, b = a ++ c :: r → 34 ≤ c) ∧ (∀ c r, a = b ++ c :: r → 34 ≤ c)

/-- The operand pairs for which folding is transparent. -/
def FoldSafe (F : FloatOps) (m : Mem) (op : BOp) : Const → Const → Prop
  | .int _, .flt _ => op.isCmpDiv = false
  | .flt _, .flt y => op.isDiv = true → F.isZero y = true → y = 0
  | .str a, .str b => op.isCmpDiv = true → QuoteSafe (m.obj a).text (m.obj b).text
  | _, _ => True

/-! ## Proofs -/

theorem strcmp_snoc (a b : List UInt8) (h : QuoteSafe a b) : strcmp (a ++ [34]) (b ++ [34]) = strcmp a b := by
  induction a generalizing b with
  | nil =>
    cases b with
    | nil => decide
    | cons c bs =>
      have hc := h.1 c bs rfl
      simp only [List.nil_append, List.cons_append, strcmp]
      by_cases h1 : 34 < c
      · rw [if_pos h1]
      · rw [if_neg h1, if_neg (UInt8.not_lt.mpr hc)]
        cases bs <;> rfl
  | cons x as ih =>
    cases b with
    | nil =>
      have hc := h.2 x as rfl
      simp only [List.nil_append, List.cons_append, strcmp]
      rw [if_neg (UInt8.not_lt.mpr hc)]
      by_cases h1 : 34 < x
      · rw [if_pos h1]
      · rw [if_neg h1]
        cases as <;> rfl
    | cons y bs =>
      simp only [List.cons_append, strcmp]
      by_cases h1 : x < y
      · rw [if_pos h1, if_pos h1]
      · rw [if_neg h1, if_neg h1]
        by_cases h2 : y < x
        · rw [if_pos h2, if_pos h2]
        · rw [if_neg h2, if_neg h2]
          have e : x = y := UInt8.le_antisymm (UInt8.not_lt.mp h2) (UInt8.not_lt.mp h1)
          subst e
          apply ih
          exact ⟨fun c r hb => h.1 c r (by rw [hb]; rfl), fun c r hb => h.2 c r (by rw [hb]; rfl)⟩

theorem strcmp_quoted (a b : List UInt8) (h : QuoteSafe a b) : strcmp (quoted a) (quoted b) = strcmp a b := by
  have : strcmp (quoted a) (quoted b) = strcmp (a ++ [34]) (b ++ [34]) := rfl
  rw [this, strcmp_snoc a b h]

theorem effRes_ok {e : Eff} {r : Res} (h : effRes e = .ok r) (hk : ∀ s, e = .val s → s.props = 4) :
    ∃ v, r = .val v ∧ e = .val (enc v) := by
  cases e <;> simp only [effRes] at h <;> try cases h
  rename_i s
  refine ⟨_, rfl, ?_⟩
  have := hk s rfl
  cases s
  simp only at this
  subst this
  rfl

theorem intArith_props (op : ArithOp) (a b : Word) : ∀ s, intArith op a b = .val s → s.props = 4 := by
  intro s h
  simp only [intArith] at h
  split at h
  · cases h; rfl
  · cases h

theorem intBit_props (op : BitOp) (a b : Word) : ∀ s, intBit op a b = .val s → s.props = 4 := by
  intro s h
  cases op <;> simp only [intBit] at h
  · cases h; rfl
  · cases h; rfl
  · cases h; rfl
  · split at h
    · cases h; rfl
    · cases h
  · split at h
    · cases h; rfl
    · cases h

theorem arith_fold (F : FloatOps) (m : Mem) (op : ArithOp) (a b : Const) (ca cb : Bool) (r : Res)
    (h : foldArith F op a b = .ok r) :
    ∃ v, r = .val v ∧ arith F m op (held ca a.asV) (held cb b.asV) = .val (enc v) := by
  cases a <;> cases b <;> simp only [foldArith] at h <;> first | (cases h; done) | skip
  · rename_i x y
    obtain ⟨v, rfl, e⟩ := effRes_ok h (intArith_props op x y)
    refine ⟨v, rfl, ?_⟩
    unfold arith
    simp only [Const.asV, held_primitive, held_value]
    rw [if_pos ⟨by decide, by decide⟩]
    exact e
  · cases h
    refine ⟨_, rfl, ?_⟩
    unfold arith
    simp only [Const.asV, held_primitive, held_value]
    rw [if_neg (by decide), if_pos ⟨by decide, by decide⟩]
    rfl
  · cases h
    refine ⟨_, rfl, ?_⟩
    unfold arith
    simp only [Const.asV, held_primitive, held_value]
    rw [if_neg (by decide), if_neg (by decide), if_pos ⟨by decide, by decide⟩]
    rfl
  · cases h
    refine ⟨_, rfl, ?_⟩
    unfold arith
    simp only [Const.asV, held_primitive, held_value]
    rw [if_neg (by decide), if_neg (by decide), if_neg (by decide), if_pos ⟨by decide, by decide⟩]
    rfl

theorem div_fold (F : FloatOps) (m : Mem) (op : BOp) (hop : op = .div ∨ op = .mod) (a b : Const) (ca cb : Bool) (r : Res)
    (hs : FoldSafe F m op a b) (h : fold F m num op a b = .ok r) :
    ∃ v, r = .val v ∧ runBin F m op (held ca a.asV) (held cb b.asV) = .val (enc v) := by
  have hne : b.bits ≠ 0 := by
    intro hz
    rcases hop with rfl | rfl <;> simp only [fold, foldDiv, if_pos hz] at h <;> cases h
  have hd : op.isDiv = true := by rcases hop with rfl | rfl <;> rfl
  have hcd : op.isCmpDiv = true := by rcases hop with rfl | rfl <;> rfl
  rcases hop with rfl | rfl
  all_goals
    simp only [fold, foldDiv, if_neg hne] at h
    cases a <;> cases b <;> simp only at h <;> first
      | (cases h; done)
      | (rw [FoldSafe, hcd] at hs; cases hs; done)
      | skip
  all_goals
    cases h
    refine ⟨_, rfl, ?_⟩
    simp only [runBin, divide, modulo, Const.asV, held_primitive, held_value, enc_int, enc_flt]
    simp only [Const.bits] at hne
  · rw [if_pos ⟨by decide, by decide⟩, if_neg hne]; rfl
  · rw [if_neg (by decide), if_neg (by decide), if_pos ⟨by decide, by decide⟩, if_neg hne]; rfl
  · rename_i x y
    have hz : F.isZero y ≠ true := fun hz => hne (hs hd hz)
    rw [if_neg (by decide), if_neg (by decide), if_neg (by decide), if_pos ⟨by decide, by decide⟩, if_neg hz]; rfl
  · rw [if_pos ⟨by decide, by decide⟩, if_neg hne]; rfl
  · rw [if_neg (by decide), if_neg (by decide), if_pos ⟨by decide, by decide⟩, if_neg hne]; rfl
  · rename_i x y
    have hz : F.isZero y ≠ true := fun hz => hne (hs hd hz)
    rw [if_neg (by decide), if_neg (by decide), if_neg (by decide), if_pos ⟨by decide, by decide⟩, if_neg hz]; rfl

theorem primitive_and_int (ca cb : Bool) (x y : Word) :
    primitive ((held ca (.int x)).props &&& (held cb (.int y)).props) = P_INT := by
  rw [held_props, held_props]
  cases ca <;> cases cb <;> simp only [if_true, if_false, Bool.false_eq_true] <;> decide

theorem primitive_and_bool (ca cb : Bool) (x y : Bool) :
    primitive ((held ca (.bool x)).props &&& (held cb (.bool y)).props) = P_BOOL := by
  rw [held_props, held_props]
  cases ca <;> cases cb <;> simp only [if_true, if_false, Bool.false_eq_true] <;> decide

theorem bit_fold (m : Mem) (op : BitOp) (a b : Const) (ca cb : Bool) (r : Res)
    (h : foldBit op a b = .ok r) : ∃ v, r = .val v ∧ bitwise m op (held ca a.asV) (held cb b.asV) = .val (enc v) := by
  cases a <;> cases b <;> simp only [foldBit] at h <;> first | (cases h; done) | skip
  rename_i x y
  obtain ⟨v, rfl, e⟩ := effRes_ok h (intBit_props op x y)
  refine ⟨v, rfl, ?_⟩
  simp only [Const.asV]
  rw [bitwise, if_pos (primitive_and_int ..), held_value, held_value]
  exact e

theorem logic_fold (op : LogicOp) (a b : Const) (ca cb : Bool) (r : Res)
    (h : foldLogic op a b = .ok r) : ∃ v, r = .val v ∧ logic op (held ca a.asV) (held cb b.asV) = .val (enc v) := by
  cases a <;> cases b <;> simp only [foldLogic] at h <;> first | (cases h; done) | skip
  cases h
  refine ⟨_, rfl, ?_⟩
  simp only [Const.asV]
  unfold logic
  rw [if_pos (primitive_and_bool ..), enc_bool_toBool, enc_bool_toBool, mkBool_enc]
  cases op <;> rfl

theorem cmp_fold (F : FloatOps) (m : Mem) (op : CmpOp) (a b : Const) (ca cb : Bool) (r : Res)
    (wa : a.wf m) (wb : b.wf m) (hif : ∀ x y, a = .int x → b = .flt y → False)
    (hq : ∀ x y, a = .str x → b = .str y → QuoteSafe (m.obj x).text (m.obj y).text)
    (h : foldCmp F m op a b = .ok r) :
    ∃ v, r = .val v ∧ compare F m op (held ca a.asV) (held cb b.asV) = .val (enc v) := by
  cases a <;> cases b <;> simp only [foldCmp] at h <;> first
    | (cases h; done)
    | exact (hif _ _ rfl rfl).elim
    | skip
  all_goals
    cases h
    refine ⟨_, rfl, ?_⟩
    unfold Vm.compare
    simp only [Const.asV, held_primitive, held_value]
  · rw [if_pos ⟨by decide, by decide⟩, mkBool_enc]; rfl
  · rw [if_neg (by decide), if_neg (by decide), if_neg (by decide), if_pos ⟨by decide, by decide⟩, mkBool_enc]; rfl
  · rw [if_neg (by decide), if_neg (by decide), if_neg (by decide), if_neg (by decide), if_pos ⟨by decide, by decide⟩,
      mkBool_enc]; rfl
  · rw [if_neg (by decide), if_pos ⟨by decide, by decide⟩, enc_bool_toBool, enc_bool_toBool, mkBool_enc]
  · rename_i x y
    rw [if_neg (by decide), if_neg (by decide), if_neg (by decide), if_neg (by decide), if_neg (by decide),
      isTypeHeld, if_neg (by simp)]
    have e : (isStr m (held ca (.obj x)) && isStr m (held cb (.obj y))) = true := by
      have wa' : (m.obj x).typeId = 20 := wa
      have wb' : (m.obj y).typeId = 20 := wb
      simp only [isStr, isObjOf_held, V.isObjOf, wa', wb']; rfl
    rw [if_pos e, cmpStr, cmpStr, strcmp_quoted _ _ (hq _ _ rfl rfl), mkBool_enc]
    rfl

theorem in_fold (m : Mem) (a b : Const) (ca cb : Bool) (r : Res) (wa : a.wf m)
    (h : foldIn m a b = .ok r) : ∃ v, r = .val v ∧ inString m (held ca a.asV) (held cb b.asV) = .val (enc v) := by
  have hob : ∀ (c : Bool) (y : Word), has (unwrap m (held c (.obj y))).props P_OBJECT = true := by
    intro c y; rw [(unwrap_exact m c (.obj y)).1]; show has 0x0200 P_OBJECT = true; decide
  cases a <;> cases b <;> simp only [foldIn] at h <;> first | (cases h; done) | skip
  · cases h
    refine ⟨_, rfl, ?_⟩
    rename_i x y
    simp only [Const.asV]
    unfold inString
    have hi : has (held ca (.int x)).props P_INT = true := by rw [held_props]; cases ca <;> simp only [if_true, if_false, Bool.false_eq_true] <;> decide
    rw [if_pos (hob ..), if_pos hi, (unwrap_exact m cb (.obj y)).1, held_value, mkBool_enc]
    rfl
  · cases h
    refine ⟨_, rfl, ?_⟩
    rename_i x y
    simp only [Const.asV]
    unfold inString
    have hi : ¬ has (held ca (.obj x)).props P_INT = true := by rw [held_props]; cases ca <;> simp only [if_true, if_false, Bool.false_eq_true] <;> decide
    have hs : isStr m (unwrap m (held ca (.obj x))) = true := by
      have wa' : (m.obj x).typeId = 20 := wa
      rw [(unwrap_exact m ca (.obj x)).1, show enc (.obj x) = held false (.obj x) from rfl, isStr, isObjOf_held, V.isObjOf, wa']; rfl
    rw [if_pos (hob ..), if_neg hi, if_pos hs, (unwrap_exact m cb (.obj y)).1, (unwrap_exact m ca (.obj x)).1, mkBool_enc]
    rfl

/-- String `+` with any constant: the run-time operation concatenates too. -/
theorem cat_run (F : FloatOps) (m : Mem) (a b : Const) (ca cb : Bool) (wa : a.wf m) (wb : b.wf m)
    (h : (a.isStr || b.isStr) = true) :
    arith F m .add (held ca a.asV) (held cb b.asV) = .strCat (held ca a.asV) (held cb b.asV) := by
  have hs : (isStr m (held ca a.asV) || isStr m (held cb b.asV)) = true := by
    rw [isStr, isStr, isObjOf_held, isObjOf_held]
    cases a <;> cases b <;> simp only [Const.isStr, Bool.or_self, Bool.false_or, Bool.or_false] at h <;>
      first | (cases h; done) | skip
    all_goals simp only [Const.wf] at wa wb; simp [Const.asV, V.isObjOf, wa, wb, T_STRING_SO]
  have hm : metamethod m (ArithOp.add == ArithOp.add) (held ca a.asV) (held cb b.asV) =
      .strCat (held ca a.asV) (held cb b.asV) := by
    unfold metamethod
    rw [hs]; rfl
  cases a <;> cases b <;> simp only [Const.isStr, Bool.or_self, Bool.false_or, Bool.or_false] at h <;>
    first | (cases h; done) | skip
  all_goals
    simp only [Const.asV] at hm ⊢
    unfold arith
    simp only [held_primitive]
    rw [if_neg (by decide), if_neg (by decide), if_neg (by decide), if_neg (by decide)]
    exact hm

/-- **C25**, for the operand pairs described by `FoldSafe`: every floating point implementation, every operator, all
literals. -/
theorem fold_transparent_partial (F : FloatOps) (m : Mem) (num : V → List UInt8) (op : BOp) (a b : Const) (ca cb : Bool)
    (r : Res) (wa : a.wf m) (wb : b.wf m) (hs : FoldSafe F m op a b) (h : fold F m num op a b = .ok r) :
    SameAsRunTime m num a.asV b.asV ca cb r (runBin F m op (held ca a.asV) (held cb b.asV)) := by
  have fin : ∀ e : Eff, (∃ v, r = .val v ∧ e = .val (enc v)) → SameAsRunTime m num a.asV b.asV ca cb r e := by
    rintro e ⟨v, rfl, he⟩; exact he
  have cmp : ∀ o : CmpOp, op.isCmpDiv = true → foldCmp F m o a b = .ok r →
      SameAsRunTime m num a.asV b.asV ca cb r (compare F m o (held ca a.asV) (held cb b.asV)) := by
    intro o ho hf
    refine fin _ (cmp_fold F m o a b ca cb r wa wb ?_ ?_ hf)
    · rintro x y rfl rfl; rw [FoldSafe, ho] at hs; cases hs
    · rintro x y rfl rfl; exact hs ho
  cases op with
  | add =>
    by_cases hstr : (a.isStr || b.isStr) = true
    · simp only [fold, hstr, if_true, formatCat] at h
      split at h
      · cases h
        exact ⟨cat_run F m a b ca cb wa wb hstr, rfl⟩
      · cases h
    · simp only [fold, hstr] at h
      exact fin _ (arith_fold F m .add a b ca cb r h)
  | sub => exact fin _ (arith_fold F m .sub a b ca cb r h)
  | mul => exact fin _ (arith_fold F m .mul a b ca cb r h)
  | div => exact fin _ (div_fold F m .div (.inl rfl) a b ca cb r hs h)
  | mod => exact fin _ (div_fold F m .mod (.inr rfl) a b ca cb r hs h)
  | band => exact fin _ (bit_fold m .and a b ca cb r h)
  | bor => exact fin _ (bit_fold m .or a b ca cb r h)
  | xor => exact fin _ (bit_fold m .xor a b ca cb r h)
  | shl => exact fin _ (bit_fold m .shl a b ca cb r h)
  | shr => exact fin _ (bit_fold m .shr a b ca cb r h)
  | land => exact fin _ (logic_fold .and a b ca cb r h)
  | lor => exact fin _ (logic_fold .or a b ca cb r h)
  | lt => exact cmp .lt rfl h
  | gt => exact cmp .gt rfl h
  | ge => exact cmp .ge rfl h
  | le => exact cmp .le rfl h
  | eq => exact cmp .eq rfl h
  | ne => exact cmp .ne rfl h
  | in_ => exact fin _ (in_fold m a b ca cb r wa h)
  | inst => cases h

/-- Folded values for `7 / 2` in floats, `"ab" + true`, `"ab" < "ac"` meet the hypotheses. -/
example (F : FloatOps) (num : V → List UInt8) : FoldSafe F strMem .div (.flt 5) (.int 2) ∧ FoldSafe F strMem .add (.str 1) (.bool true) ∧
    FoldSafe F strMem .lt (.str 1) (.str 2) ∧ fold F strMem num .lt (.str 1) (.str 2) = .ok (.val (.bool true)) ∧
    fold F strMem num .add (.str 1) (.bool true) = .ok (.text [97, 98, 116, 114, 117, 101]) := by
  refine ⟨trivial, trivial, fun _ => ⟨?_, ?_⟩, ?_, ?_⟩
  · intro c r h; simp [strMem] at h
  · intro c r h; simp [strMem] at h
  · show Out.ok (Res.val (V.bool (cmpStr .lt (quoted [97, 98]) (quoted [97, 99])))) = _
    decide
  · simp [fold, Const.isStr, formatCat, Const.asV, valueText, strMem, Str.unescapeChars]

/-- `1 < 2.0` is folded to false. -/
theorem fold_int_float_compare_violated : ¬ FoldTransparent ieee := by
  intro h
  have h1 := h noMem (fun _ => []) .lt (.int 1) (.flt 0x4000000000000000) false false (.val (.bool false)) trivial trivial rfl
  have h2 : compare ieee noMem .lt (held false (.int 1)) (held false (.flt 0x4000000000000000)) = .val (enc (.bool true)) := by
    decide +kernel
  have h3 : compare ieee noMem .lt (held false (.int 1)) (held false (.flt 0x4000000000000000)) = .val (enc (.bool false)) := h1
  rw [h2] at h3
  revert h3; decide

/-- `1 / 2.0` is not folded to a half: the bits of the operands are read in the other format. -/
theorem fold_int_float_div_violated : ¬ FoldTransparent ieee := by
  intro h
  have h0 : fold ieee noMem (fun _ => []) .div (.int 1) (.flt 0x4000000000000000) =
      .ok (.val (.flt (Ieee.div 1 (Ieee.ofInt 0x4000000000000000)))) := by decide +kernel
  have h1 := h noMem (fun _ => []) .div (.int 1) (.flt 0x4000000000000000) false false _ trivial trivial h0
  have h3 : divide ieee noMem (held false (.int 1)) (held false (.flt 0x4000000000000000)) =
    .val (enc (.flt (Ieee.div 1 (Ieee.ofInt 0x4000000000000000)))) := h1
  have h2 : divide ieee noMem (held false (.int 1)) (held false (.flt 0x4000000000000000)) =
    .val (enc (.flt 0x3FE0000000000000)) := by decide +kernel
  rw [h2] at h3
  revert h3; decide +kernel

/-- `1.0 / -0.0` is folded to minus infinity; at run time it is an error. -/
theorem fold_negative_zero_violated : ¬ FoldTransparent ieee := by
  intro h
  have h0 : fold ieee noMem (fun _ => []) .div (.flt 0x3FF0000000000000) (.flt 0x8000000000000000) =
      .ok (.val (.flt 0xFFF0000000000000)) := by decide +kernel
  have h1 := h noMem (fun _ => []) .div (.flt 0x3FF0000000000000) (.flt 0x8000000000000000) false false _ trivial trivial h0
  have h3 : divide ieee noMem (held false (.flt 0x3FF0000000000000)) (held false (.flt 0x8000000000000000)) =
    .val (enc (.flt 0xFFF0000000000000)) := h1
  have h2 : divide ieee noMem (held false (.flt 0x3FF0000000000000)) (held false (.flt 0x8000000000000000)) = .err := by
    decide +kernel
  rw [h2] at h3
  cases h3

/-- Object 1 is the string `ab`, every other object the string `ab!`. -/
def bangMem : Mem := ⟨fun a => if a = 1 then ⟨20, [97, 98]⟩ else ⟨20, [97, 98, 33]⟩, fun _ => ⟨0, 0⟩, fun _ => 0⟩

/-- `"ab" < "ab!"` is folded to false: the closing quote takes part in the comparison. -/
theorem fold_string_order_violated (F : FloatOps) : ¬ FoldTransparent F := by
  intro h
  have h0 : fold F bangMem (fun _ => []) .lt (.str 1) (.str 2) = .ok (.val (.bool false)) := by
    show Out.ok (Res.val (V.bool (cmpStr .lt (quoted [97, 98]) (quoted [97, 98, 33])))) = _
    decide
  have h1 := h bangMem (fun _ => []) .lt (.str 1) (.str 2) false false _ rfl rfl h0
  have h3 : compare F bangMem .lt (held false (.obj 1)) (held false (.obj 2)) = .val (enc (.bool false)) := h1
  have h2 : compare F bangMem .lt (held false (.obj 1)) (held false (.obj 2)) = .val (enc (.bool true)) := by
    unfold Vm.compare
    rw [if_neg (by decide), if_neg (by decide), if_neg (by decide), if_neg (by decide), if_neg (by decide),
      if_neg (by decide), if_pos (by decide)]
    decide
  rw [h2] at h3
  revert h3; decide

theorem metamethod_prims (m : Mem) (i ca cb : Bool) (a b : Const) (ha : a.isStr = false) (hb : b.isStr = false) :
    metamethod m i (held ca a.asV) (held cb b.asV) = .err := by
  have na : a.asV.isObj = false := by cases a <;> first | rfl | cases ha
  have nb : b.asV.isObj = false := by cases b <;> first | rfl | cases hb
  have oa : ∀ t, isObjOf m t (held ca a.asV) = false := by
    intro t; rw [isObjOf, has_object2_held, na]; rfl
  have ob : ∀ t, isObjOf m t (held cb b.asV) = false := by
    intro t; rw [isObjOf, has_object2_held, nb]; rfl
  unfold metamethod isStr isArr isDict
  rw [has_object_held, has_object_held, na, nb]
  simp [oa, ob]

/-- A rejected expression of number and boolean literals is one whose run-time operation is an error. -/
theorem fold_reject (F : FloatOps) (hz : F.isZero 0 = true) (m : Mem) (num : V → List UInt8) (op : BOp) (a b : Const)
    (ca cb : Bool) (ha : a.isStr = false) (hb : b.isStr = false) (h : fold F m num op a b = .err) :
    runBin F m op (held ca a.asV) (held cb b.asV) = .err := by
  have ar : ∀ o : ArithOp, foldArith F o a b = .err → arith F m o (held ca a.asV) (held cb b.asV) = .err := by
    intro o h
    have hm := metamethod_prims m (o == .add) ca cb a b ha hb
    cases a <;> cases b <;> simp only [foldArith, Const.isStr, reduceCtorEq] at h ha hb <;> first
      | (exfalso; simp only [effRes, intArith] at h; split at h <;> cases h; done)
      | skip
    all_goals
      simp only [Const.asV] at hm ⊢
      unfold arith
      simp only [held_primitive]
      rw [if_neg (by decide), if_neg (by decide), if_neg (by decide), if_neg (by decide)]
      exact hm
  have bi : ∀ o : BitOp, foldBit o a b = .err → bitwise m o (held ca a.asV) (held cb b.asV) = .err := by
    intro o h
    have hm := metamethod_prims m false ca cb a b ha hb
    have hp : ∀ x y : Word, foldBit o (.int x) (.int y) ≠ .err := by
      intro x y h
      cases o <;> simp only [foldBit, effRes, intBit] at h
      · cases h
      · cases h
      · cases h
      · revert h; split <;> intro h <;> cases h
      · revert h; split <;> intro h <;> cases h
    cases a <;> cases b <;> simp only [Const.isStr, reduceCtorEq] at ha hb <;> first
      | exact (hp _ _ h).elim
      | skip
    all_goals
      simp only [Const.asV] at hm ⊢
      unfold bitwise
      rw [if_neg]
      · exact hm
      · rw [held_props, held_props]
        cases ca <;> cases cb <;> simp only [if_true, if_false, Bool.false_eq_true] <;> decide
  have lo : ∀ o : LogicOp, foldLogic o a b = .err → logic o (held ca a.asV) (held cb b.asV) = .err := by
    intro o h
    cases a <;> cases b <;> simp only [foldLogic, Const.isStr, reduceCtorEq] at h ha hb
    all_goals
      simp only [Const.asV]
      unfold logic
      rw [if_neg]
      rw [held_props, held_props]
      cases ca <;> cases cb <;> simp only [if_true, if_false, Bool.false_eq_true] <;> decide
  have cm : ∀ o : CmpOp, foldCmp F m o a b = .err → Vm.compare F m o (held ca a.asV) (held cb b.asV) = .err := by
    intro o h
    have hm := metamethod_prims m false ca cb a b ha hb
    have u : ∀ (c : Bool) (k : Const), (held c k.asV).props ≠ P_UNDEFINED ∧ (held c k.asV).props ≠ P_NULL := by
      intro c k
      rw [held_props]
      cases c <;> cases k <;> simp only [if_true, if_false, Bool.false_eq_true, Const.asV] <;> decide
    have ua := u ca a
    have ub := u cb b
    have st : isStr m (held ca a.asV) = false := by
      have na : a.asV.isObj = false := by cases a <;> first | rfl | cases ha
      rw [isStr, isObjOf, has_object2_held, na]; rfl
    cases a <;> cases b <;> simp only [foldCmp, Const.isStr, reduceCtorEq] at h ha hb
    all_goals
      simp only [Const.asV] at hm ua ub st ⊢
      unfold Vm.compare
      simp only [held_primitive]
      rw [if_neg (by decide), if_neg (by decide), if_neg (by decide), if_neg (by decide), if_neg (by decide),
        isTypeHeld, if_neg (by simp), st, if_neg (by simp), if_neg (fun hh => hh.1.elim ua.1 ub.1),
        if_neg (fun hh => hh.1.elim ua.2 ub.2)]
      exact hm
  have dv : foldDiv F F.div a b = .err → divide F m (held ca a.asV) (held cb b.asV) = .err := by
    intro h
    have hm := metamethod_prims m false ca cb a b ha hb
    cases a <;> cases b <;> simp only [Const.isStr, reduceCtorEq] at ha hb <;> simp only [foldDiv, Const.bits] at h
    all_goals
      simp only [Const.asV] at hm ⊢
      unfold divide
      simp only [held_primitive, held_value, enc_int, enc_flt]
      first
        | (rw [if_neg (by decide), if_neg (by decide), if_neg (by decide), if_neg (by decide)]; exact hm)
        | (have h0 : _ = (0 : Word) := Decidable.byContradiction fun hn => nomatch (if_neg hn).symm.trans h
           first
             | (rw [if_pos ⟨by decide, by decide⟩]; exact if_pos h0)
             | (rw [if_neg (by decide), if_pos ⟨by decide, by decide⟩, h0]; exact if_pos hz)
             | (rw [if_neg (by decide), if_neg (by decide), if_pos ⟨by decide, by decide⟩]; exact if_pos h0)
             | (rw [if_neg (by decide), if_neg (by decide), if_neg (by decide), if_pos ⟨by decide, by decide⟩, h0]; exact if_pos hz))
  have md : foldDiv F F.fmod a b = .err → modulo F m (held ca a.asV) (held cb b.asV) = .err := by
    intro h
    have hm := metamethod_prims m false ca cb a b ha hb
    cases a <;> cases b <;> simp only [Const.isStr, reduceCtorEq] at ha hb <;> simp only [foldDiv, Const.bits] at h
    all_goals
      simp only [Const.asV] at hm ⊢
      unfold modulo
      simp only [held_primitive, held_value, enc_int, enc_flt]
      first
        | (rw [if_neg (by decide), if_neg (by decide), if_neg (by decide), if_neg (by decide)]; exact hm)
        | (have h0 : _ = (0 : Word) := Decidable.byContradiction fun hn => nomatch (if_neg hn).symm.trans h
           first
             | (rw [if_pos ⟨by decide, by decide⟩]; exact if_pos h0)
             | (rw [if_neg (by decide), if_pos ⟨by decide, by decide⟩, h0]; exact if_pos hz)
             | (rw [if_neg (by decide), if_neg (by decide), if_pos ⟨by decide, by decide⟩]; exact if_pos h0)
             | (rw [if_neg (by decide), if_neg (by decide), if_neg (by decide), if_pos ⟨by decide, by decide⟩, h0]; exact if_pos hz))
  cases op with
  | add =>
    simp only [fold, ha, hb, Bool.or_self, Bool.false_eq_true, if_false] at h
    exact ar .add h
  | sub => exact ar .sub h
  | mul => exact ar .mul h
  | div => exact dv h
  | mod => exact md h
  | band => exact bi .and h
  | bor => exact bi .or h
  | xor => exact bi .xor h
  | shl => exact bi .shl h
  | shr => exact bi .shr h
  | land => exact lo .and h
  | lor => exact lo .or h
  | lt => exact cm .lt h
  | gt => exact cm .gt h
  | ge => exact cm .ge h
  | le => exact cm .le h
  | eq => exact cm .eq h
  | ne => exact cm .ne h
  | in_ =>
    show inString m _ _ = _
    unfold inString
    rw [(unwrap_exact m cb b.asV).1, if_neg]
    rw [show enc b.asV = held false b.asV from rfl, has_object_held]
    cases b <;> simp_all [Const.isStr, Const.asV, V.isObj]
  | inst => rfl

example : fold ieee noMem (fun _ => []) .div (.int 1) (.int 0) = .err ∧ fold ieee noMem (fun _ => []) .lt (.int 1) (.bool true) = .err ∧
    ieee.isZero 0 = true := ⟨by decide +kernel, by decide +kernel, by decide +kernel⟩

/-- Equality of string constants is not affected by the quotes. -/
theorem fold_string_equality (F : FloatOps) (m : Mem) (num : V → List UInt8) (a b : Word) :
    fold F m num .eq (.str a) (.str b) = .ok (.val (.bool (decide ((m.obj a).text = (m.obj b).text)))) ∧
    fold F m num .ne (.str a) (.str b) = .ok (.val (.bool (decide ((m.obj a).text ≠ (m.obj b).text)))) := by
  have e : ∀ op : CmpOp, cmpStr op (quoted (m.obj a).text) (quoted (m.obj b).text) =
      op.test (textOrder (quoted (m.obj a).text) (quoted (m.obj b).text)) := fun op => strcmp_order op _ _
  have q : textOrder (quoted (m.obj a).text) (quoted (m.obj b).text) = .eq ↔ (m.obj a).text = (m.obj b).text := by
    rw [textOrder_eq]
    constructor
    · intro h
      exact List.append_cancel_right (List.cons.inj h).2
    · intro h; rw [h]
  simp only [fold, foldCmp, e]
  constructor
  · congr 3
    by_cases h : (m.obj a).text = (m.obj b).text
    · rw [q.mpr h]; simp [h, CmpOp.test]
    · rw [decide_eq_false h]
      have hn : textOrder (quoted (m.obj a).text) (quoted (m.obj b).text) ≠ .eq := fun hh => h (q.mp hh)
      revert hn
      cases textOrder (quoted (m.obj a).text) (quoted (m.obj b).text) <;> simp [CmpOp.test]
  · congr 3
    by_cases h : (m.obj a).text = (m.obj b).text
    · rw [q.mpr h]; simp [h, CmpOp.test]
    · rw [decide_eq_true h]
      have hn : textOrder (quoted (m.obj a).text) (quoted (m.obj b).text) ≠ .eq := fun hh => h (q.mp hh)
      revert hn
      cases textOrder (quoted (m.obj a).text) (quoted (m.obj b).text) <;> simp [CmpOp.test]

/-- Compiling the sum of string constants of 4096 or more characters in total writes past a buffer. -/
theorem fold_long_text_violated (F : FloatOps) (m : Mem) (num : V → List UInt8) (a b : Word)
    (h : 4096 ≤ (m.obj a).text.length + (m.obj b).text.length) : fold F m num .add (.str a) (.str b) = .ub := by
  have : ¬ ((m.obj a).text ++ (m.obj b).text).length < 4096 := by rw [List.length_append]; omega
  show formatCat _ _ = _
  rw [formatCat]
  exact if_neg this

example : 4096 ≤ ((⟨fun _ => ⟨20, List.replicate 2048 97⟩, fun _ => ⟨0, 0⟩, fun _ => 0⟩ : Mem).obj 1).text.length +
    ((⟨fun _ => ⟨20, List.replicate 2048 97⟩, fun _ => ⟨0, 0⟩, fun _ => 0⟩ : Mem).obj 2).text.length := by
  simp only [List.length_replicate]; omega

/-! ### Texts -/

/-- In a string a boolean is written `true` or `false`. -/
theorem bool_text (m : Mem) (num : V → List UInt8) (b : Bool) :
    valueText m num (.bool b) = (if b then "true" else "false").toList.map fun c => c.toNat.toUInt8 := by
  cases b
  · exact show ([102, 97, 108, 115, 101] : List UInt8) = "false".toList.map fun c => c.toNat.toUInt8 by decide +kernel
  · exact show ([116, 114, 117, 101] : List UInt8) = "true".toList.map fun c => c.toNat.toUInt8 by decide +kernel

/-- A constant text is put between two double quotes. -/
theorem quoted_text (t : List UInt8) : quoted t = ['"'.toNat.toUInt8] ++ t ++ ['"'.toNat.toUInt8] := rfl

/-- A constant boolean is stored as 1 or 0. -/
theorem bool_bits (b : Bool) : (Const.bits (.bool b)).toNat = b.toNat := by cases b <;> rfl

/-- A text contains another one exactly if it is not empty and the other one stands in it, between some `l` and `r`. -/
theorem contains_text (t d : List UInt8) : strContains t d = true ↔ t ≠ [] ∧ ∃ l r, l ++ d ++ r = t := by
  unfold strContains
  rw [decide_eq_true_iff]
  exact Iff.rfl

/-- A character is in a text exactly if its low byte is one of the characters, or the NUL behind them. -/
theorem char_in_text (t : List UInt8) (ch : Word) : strchr t ch = true ↔ (∃ c ∈ t, c.toNat = ch.toNat % 256) ∨ ch.toNat % 256 = 0 := by
  unfold strchr
  rw [List.contains_iff_mem, List.mem_append, List.mem_singleton]
  have e : ∀ c : UInt8, c = UInt8.ofNat ch.toNat ↔ c.toNat = ch.toNat % 256 := by
    intro c
    rw [← UInt8.toNat_inj, UInt8.toNat_ofNat']
  constructor
  · rintro (h | h)
    · exact .inl ⟨_, h, (e _).1 rfl⟩
    · exact .inr ((e 0).1 h.symm).symm
  · rintro (⟨c, h1, h2⟩ | h)
    · rw [(e c).2 h2] at h1; exact .inl h1
    · exact .inr ((e 0).2 h.symm).symm

end Verif.Comp
