import Verif.Vm.NumbersLemmas
/-
C129: `Integer::parse`, `Float::parse`, `isNumber` and `MAX_VALUE`, for every history of calls from one place in a script.
-/
namespace Verif.Vm.Numbers
open Verif Verif.Vm.Native Verif.Vm.NumbersSpec
open Verif.Str (Bytes)

/-! ### The full property -/

/-- `Integer::parse` gives the integer the argument stands for, and raises an error for what is neither number nor text,
whatever the same call was given before. -/
def IntegerParses : Prop :=
  ∀ (h : List (World × Stk)) (i : Nat) (w : World) (s : Stk) (a : Arg), h[i]? = some (w, s) → Shows w s a →
    (∀ (j : Nat), j < i → ∃ r, (integerParse h)[j]? = some (.ok r)) →
    (∀ z, StandsFor a z → InRange z → (integerParse h)[i]? = some (.ok (BitVec.ofInt 64 z))) ∧
    (a = .undefined ∨ a = .null ∨ a = .bool → (integerParse h)[i]? = some .err)

/-- No call of `Integer::parse` with a number or a text is undefined. -/
def IntegerDefined : Prop :=
  ∀ (w : World) (s : Stk) (a : Arg), Shows w s a → NumberOrText a → integerParse [(w, s)] ≠ [.ub]

/-- `Float::parse` gives the number the argument stands for, and raises an error for what is neither number nor text. -/
def FloatParses : Prop :=
  ∀ (h : List (World × Stk)) (i : Nat) (w : World) (s : Stk) (a : Arg), h[i]? = some (w, s) → Shows w s a →
    (∀ (j : Nat), j < i → ∃ r, (floatParse h)[j]? = some (.ok r)) →
    (∀ n, a = .int n → (floatParse h)[i]? = some (.ok (Ieee.ofInt n))) ∧
    (∀ x, a = .float x → (floatParse h)[i]? = some (.ok x)) ∧
    (∀ t neg mant e x, a = .text t → FloatText.Decimal t neg mant e → IsExactly x neg mant e →
      (floatParse h)[i]? = some (.ok x)) ∧
    (a = .undefined ∨ a = .null ∨ a = .bool → (floatParse h)[i]? = some .err)

/-! ### What holds -/

/-- `Integer::parse`, after any calls with integers, floats whose integer part fits, and texts. -/
theorem integer_parse_partial (h : List (World × Stk)) (i : Nat) (w : World) (s : Stk) (a : Arg) (hi : h[i]? = some (w, s))
    (ha : Shows w s a) (hb : Before Convertible h i) :
    (∀ n, a = .int n → (integerParse h)[i]? = some (.ok (BitVec.ofInt 64 n)) ∧ (BitVec.ofInt 64 n).toInt = n) ∧
    (∀ x z, a = .float x → IntegerPart x z → InRange z → (integerParse h)[i]? = some (.ok (BitVec.ofInt 64 z))) ∧
    (∀ t n, a = .text t → Spells t n → (integerParse h)[i]? = some (.ok (BitVec.ofInt 64 (min (2 ^ 63 - 1) n)))) ∧
    (∀ c t, a = .text (c :: t) → ¬ (48 ≤ c ∧ c ≤ 57) → c ≠ 32 → c ≠ 98 → c ≠ 66 → (integerParse h)[i]? = some (.ok 0)) ∧
    (a = .text [] → (integerParse h)[i]? = some (.ok 0)) ∧
    (a = .undefined ∨ a = .bool → (integerParse h)[i]? = some .err) ∧
    (a = .null → i = 0 → (integerParse h)[i]? = some .err) := by
  obtain ⟨last, hl, h0, he⟩ := integer_at hi hb
  rw [he]
  cases ha with
  | int hk =>
    rw [integer_int hl hk]
    refine ⟨?_, ?_, ?_, ?_, ?_, ?_, ?_⟩
    · rintro n e
      injection e with e
      subst e
      simp [result, Out.map, BitVec.ofInt_toInt]
    all_goals intros; simp_all
  | float hk =>
    rw [integer_float hl hk]
    refine ⟨?_, ?_, ?_, ?_, ?_, ?_, ?_⟩
    · intro n e; cases e
    · intro x z e h1 h2
      injection e with e
      subst e
      rw [(truncInt_iff _ z).2 ⟨h1, h2⟩]
      rfl
    · intro t n e; cases e
    · intro c t e; cases e
    · intro e; cases e
    · rintro (e | e) <;> cases e
    · intro e; cases e
  | text hk hz =>
    rw [integer_text hl hk hz]
    refine ⟨?_, ?_, ?_, ?_, ?_, ?_, ?_⟩
    · intro n e; cases e
    · intro x z e; cases e
    · intro t n e hs
      injection e with e
      rw [e, parse_spells hs]
      rfl
    · intro c t e h1 h2 h3 h4
      injection e with e
      rw [e]
      have hv : Integer.isInteger (c :: t) = .invalid := by
        cases hh : Integer.isInteger (c :: t) with
        | invalid => rfl
        | int =>
          obtain ⟨_, d, r, e, hd, hr⟩ := (Integer.isInteger_int_iff _).1 hh
          cases d with
          | nil =>
            rcases hr with rfl | ⟨t', rfl⟩
            · cases e
            · simp at e; exact absurd e.1 h2
          | cons d ds =>
            simp at e
            exact absurd (hd c (by simp [e.1])) h1
        | hexa =>
          obtain ⟨x, _, r, e, _⟩ := (Integer.isInteger_hexa_iff _).1 hh
          simp at e
          exact absurd (by rw [e.1]; decide) h1
        | binary =>
          obtain ⟨d, m, r, e, hm, hd⟩ := (Integer.isInteger_binary_iff _).1 hh
          cases d with
          | nil =>
            simp at e
            rcases hm with rfl | rfl
            · exact absurd e.1 h3
            · exact absurd e.1 h4
          | cons d ds =>
            simp at e
            have := hd d (by simp)
            rw [← e.1] at this
            exact absurd (by rcases this with rfl | rfl <;> decide) h1
      have : Integer.parse (c :: t) = none := by unfold Integer.parse; rw [hv]
      rw [this]
      rfl
    · intro e
      injection e with e
      rw [e]
      rfl
    · rintro (e | e) <;> cases e
    · intro e; cases e
  | undefined hk =>
    rw [integer_refused hl (.inl hk)]
    simp [result, Out.map]
  | null hk =>
    refine ⟨?_, ?_, ?_, ?_, ?_, ?_, ?_⟩
    · intro n e; cases e
    · intro x z e; cases e
    · intro t n e; cases e
    · intro c t e; cases e
    · intro e; cases e
    · rintro (e | e) <;> cases e
    · intro _ hz
      rw [h0 hz, (integer_null hk).1]
      rfl
  | bool hk =>
    rw [integer_refused hl (.inr hk)]
    simp [result, Out.map]

/-- `Float::parse`, after any calls with numbers and texts. -/
theorem float_parse_partial (h : List (World × Stk)) (i : Nat) (w : World) (s : Stk) (a : Arg) (hi : h[i]? = some (w, s))
    (ha : Shows w s a) (hb : Before NumberOrText h i) :
    (∀ n, a = .int n → n.natAbs ≤ 2 ^ 53 → ∃ x, (floatParse h)[i]? = some (.ok x) ∧ IsExactly x (decide (n < 0)) n.natAbs 0) ∧
    (∀ x, a = .float x → (floatParse h)[i]? = some (.ok x)) ∧
    (∀ t neg mant e v, a = .text t → FloatText.Decimal t neg mant e → Single v →
      mant * 10 ^ e.toNat * 2 ^ 149 = v * 10 ^ (-e).toNat → ∃ x, (floatParse h)[i]? = some (.ok x) ∧ IsExactly x neg mant e) ∧
    (∀ t r neg mant e, a = .text (t ++ r) → FloatText.Decimal t neg mant e → FloatText.Ends r → r ≠ [] →
      (floatParse h)[i]? = some (.ok 0)) ∧
    (a = .text [] → (floatParse h)[i]? = some (.ok 0)) ∧
    (a = .undefined ∨ a = .bool → (floatParse h)[i]? = some .err) ∧
    (a = .null → i = 0 → (floatParse h)[i]? = some .err) := by
  obtain ⟨last, hl, h0, he⟩ := float_at hi hb
  rw [he]
  have zero : Ieee.ofInt 0 = 0 := by decide +kernel
  cases ha with
  | int hk =>
    rw [float_int hl hk]
    refine ⟨?_, ?_, ?_, ?_, ?_, ?_, ?_⟩
    · intro n e hn
      injection e with e
      rw [e]
      refine ⟨_, rfl, ?_⟩
      have fits : FloatText.Fits (n.natAbs * 2 ^ 1074) := by
        refine ⟨?_, ?_⟩
        · calc n.natAbs * 2 ^ 1074 ≤ 2 ^ 53 * 2 ^ 1074 := Nat.mul_le_mul_right _ hn
            _ = 2 ^ 1127 := by rw [← Nat.pow_add]
            _ < 2 ^ 2098 := Nat.pow_lt_pow_right (by omega) (by omega)
        · by_cases h53 : n.natAbs = 2 ^ 53
          · exact ⟨1, 53 + 1074, by rw [h53, Nat.one_mul, Nat.pow_add], by decide⟩
          · exact ⟨n.natAbs, 1074, rfl, by omega⟩
      obtain ⟨b1, b2⟩ := FloatText.roundBits_fits fits
      obtain ⟨c1, c2⟩ := FloatText.not_special (s := decide (n < 0)) b1
      refine ⟨c1, c2, (FloatText.mk_fields (by unfold Ieee.infBits at b1; omega)).1, ?_⟩
      have := b2 (decide (n < 0))
      unfold Ieee.ofInt
      rw [this]
      simp
    · intro x e; cases e
    · intro t neg mant e v e'; cases e'
    · intro t r neg mant e e'; cases e'
    · intro e; cases e
    · rintro (e | e) <;> cases e
    · intro e; cases e
  | float hk =>
    rw [float_float hl hk]
    refine ⟨?_, ?_, ?_, ?_, ?_, ?_, ?_⟩
    · intro n e; cases e
    · intro x e
      injection e with e
      rw [e]; rfl
    · intro t neg mant e v e'; cases e'
    · intro t r neg mant e e'; cases e'
    · intro e; cases e
    · rintro (e | e) <;> cases e
    · intro e; cases e
  | text hk hz =>
    rw [float_text hl hk hz]
    refine ⟨?_, ?_, ?_, ?_, ?_, ?_, ?_⟩
    · intro n e; cases e
    · intro x e; cases e
    · intro t neg mant e v e' hd hv hx
      injection e' with e'
      rw [e']
      obtain ⟨x, p1, p2, p3, p4⟩ := FloatText.literal_exact_partial hd hv hx
      rw [p1]
      exact ⟨x, rfl, p2.1, p2.2, p3, p4⟩
    · intro t r neg mant e e' hd hr hne
      injection e' with e'
      rw [e', FloatText.trailing_refused hd hr hne, zero]
      rfl
    · intro e
      injection e with e
      have : FloatText.parse [] = none := by decide +kernel
      rw [e, this, zero]; rfl
    · rintro (e | e) <;> cases e
    · intro e; cases e
  | undefined hk =>
    rw [float_refused hl (.inl hk)]
    simp [result, Out.map]
  | null hk =>
    refine ⟨?_, ?_, ?_, ?_, ?_, ?_, ?_⟩
    · intro n e; cases e
    · intro x e; cases e
    · intro t neg mant e v e'; cases e'
    · intro t r neg mant e e'; cases e'
    · intro e; cases e
    · rintro (e | e) <;> cases e
    · intro _ hz
      rw [h0 hz, (float_null hk).1]
      rfl
  | bool hk =>
    rw [float_refused hl (.inr hk)]
    simp [result, Out.map]

/-- `isNumber` is true exactly of integers and floats. -/
theorem isNumber_exact (w : World) (s : Stk) (a : Arg) (ha : Shows w s a) :
    isNumber w s = .ok (match a with
      | .int _ => true
      | .float _ => true
      | _ => false) := by
  have hp : passArg w ieee s T_STACK_ELEMENT = .ok (.elem (shown w s)) := by
    unfold passArg
    have : (T_STACK_ELEMENT == T_FLOAT_PTR) = false := by decide
    rw [this, Bool.and_false]
    simp [convert, convVal, shown_eq]
  have hn : isNumber w s = .ok (has (kind (shown w s).props) (P_INT ||| P_FLOAT)) := by
    unfold isNumber
    simp only [passArgs, hp, Out.map, Out.bind]
    rw [has_kind _ _ (by decide)]
  rw [hn, shown_eq]
  cases ha with
  | int h => rw [kind_int h]; rfl
  | float h => rw [kind_float h]; rfl
  | text h _ => rcases (kind_string h).1 with e | e <;> rw [e] <;> rfl
  | undefined h =>
    have : kind (deref w.mem s).props = 0 := h
    rw [this]; rfl
  | null h =>
    have : kind (deref w.mem s).props = 1 := h
    rw [this]; rfl
  | bool h => rw [kind_bool h]; rfl

/-- A function or an object is not a number either. -/
theorem isNumber_object (w : World) (s : Stk) (c : Nat)
    (h : kindOf w s = .function ∨ kindOf w s = .memberFunction ∨ kindOf w s = .object c) : isNumber w s = .ok false := by
  have hp : passArg w ieee s T_STACK_ELEMENT = .ok (.elem (shown w s)) := by
    unfold passArg
    have : (T_STACK_ELEMENT == T_FLOAT_PTR) = false := by decide
    rw [this, Bool.and_false]
    simp [convert, convVal, shown_eq]
  have hn : isNumber w s = .ok (has (kind (shown w s).props) (P_INT ||| P_FLOAT)) := by
    unfold isNumber
    simp only [passArgs, hp, Out.map, Out.bind]
    rw [has_kind _ _ (by decide)]
  rw [hn, shown_eq]
  rw [kindOf_eq] at h
  dsimp only at h
  split at h; · simp at h
  split at h; · simp at h
  split at h; · simp at h
  split at h
  · rename_i e; rw [e]; rfl
  split at h
  · rename_i e; rw [e]; rfl
  split at h
  · rename_i e; rcases e with e | e <;> rw [e] <;> rfl
  · simp at h

/-- `Integer::MAX_VALUE` is the greatest integer. -/
theorem integer_max_exact (v : Word) : v.toInt ≤ integerMax.toInt := by
  have h1 : integerMax.toInt = 9223372036854775807 := by decide
  have h2 := BitVec.toInt_lt (x := v)
  rw [h1]
  omega

/-! ### What does not hold -/

/-- A world whose object 1 is a text, and whose object 2 is of a class made by a script. -/
def demo (t : Bytes) : World where
  mem := { obj := fun o => if o = 2 then ⟨40, []⟩ else ⟨T_STRING_SO, t⟩, stk := fun _ => mkUndefined, slot := fun _ => 0 }
  ext := fun a b => a == b
  nativeClass := fun _ => none

/-- Every text with a minus sign stands for 0. -/
theorem integer_minus_violated (w : World) (s : Stk) (t : Bytes) (h : Shows w s (.text (45 :: t))) :
    integerParse [(w, s)] = [.ok 0] := by
  have h1 := (integer_parse_partial [(w, s)] 0 w s _ rfl h (fun j hj => absurd hj (by omega))).2.2.2.1 45 t rfl (by decide) (by decide)
    (by decide) (by decide)
  unfold integerParse calls at h1 ⊢
  cases hs : step integerFns parseInt w none s with
  | ok p => rw [hs] at h1; simpa [calls] using h1
  | err => rw [hs] at h1; simp at h1
  | ub => rw [hs] at h1; simp at h1

/-- Negative texts break the property. -/
theorem integer_parses_violated : ¬ IntegerParses := by
  intro h
  have sh : Shows (demo [45, 53]) (mkObject 1) (.text [45, 53]) := .text (by decide) (by decide)
  have hd : Integer.IsDec [53] := ⟨by simp, by decide⟩
  have := (h [(demo [45, 53], mkObject 1)] 0 _ _ _ rfl sh (fun j hj => absurd hj (by omega))).1 (-5)
    (.minus [53] 5 (.dec [53] hd)) (by unfold InRange; omega)
  rw [integer_minus_violated _ _ _ sh] at this
  exact absurd this (by decide)

/-- A blank before the minus sign makes `-5` of it, and a text that is no numeral (`1b7`) is taken for 1. -/
theorem integer_text_violated :
    integerParse [(demo [32, 45, 53], mkObject 1)] = [.ok (-5)] ∧ integerParse [(demo [49, 98, 55], mkObject 1)] = [.ok 1] := by
  constructor <;> decide +kernel

/-- A float whose integer part does not fit, an infinity, or NaN: undefined. -/
theorem integer_float_undefined (w : World) (s : Stk) (x : Word) (h : Shows w s (.float x))
    (hx : ¬ ∃ z, IntegerPart x z ∧ InRange z) : integerParse [(w, s)] = [.ub] := by
  cases h with
  | float hk =>
    have ht : truncInt (shown w s).value = none := by
      cases e : truncInt (shown w s).value with
      | none => rfl
      | some z => exact absurd ⟨z, (truncInt_iff _ z).1 e⟩ hx
    have := integer_float (w := w) (s := s) (last := none) (.inl rfl) hk
    rw [ht] at this
    unfold integerParse calls
    rw [this]

theorem integer_defined_violated : ¬ IntegerDefined := by
  intro h
  refine h (demo []) (mkFloat Ieee.nan) (.float Ieee.nan) (.float (by decide)) trivial ?_
  refine integer_float_undefined _ _ Ieee.nan (.float (by decide)) ?_
  rintro ⟨z, ⟨h1, _⟩, _⟩
  exact absurd h1 (by decide +kernel)

/-- `null` is an error the first time; after a number it is 0, after a text a null pointer is read. -/
theorem integer_null_violated :
    integerParse [(demo [], mkNull)] = [.err] ∧
    integerParse [(demo [], mkInt 7), (demo [], mkNull)] = [.ok 7, .ok 0] ∧
    integerParse [(demo [55], mkObject 1), (demo [55], mkNull)] = [.ok 7, .ub] := by
  refine ⟨?_, ?_, ?_⟩ <;> decide +kernel

/-- A function is an error the first time; after a number its address is given, after a text it is read as a text. So is an
object of a class. -/
theorem integer_function_violated :
    integerParse [(demo [], mkFunction 4096)] = [.err] ∧
    integerParse [(demo [], mkInt 7), (demo [], mkFunction 4096)] = [.ok 7, .ok 4096] ∧
    integerParse [(demo [55], mkObject 1), (demo [55], mkFunction 4096)] = [.ok 7, .ub] ∧
    integerParse [(demo [55], mkObject 2)] = [.err] ∧
    integerParse [(demo [55], mkObject 1), (demo [55], mkObject 2)] = [.ok 7, .ub] := by
  refine ⟨?_, ?_, ?_, ?_, ?_⟩ <;> decide +kernel

/-- The remembered function breaks `Float::parse` as well: `null` after a number or a text. -/
theorem float_parses_violated : ¬ FloatParses := by
  intro h
  have := (h [(demo [], mkInt 7), (demo [], mkNull)] 1 _ _ .null rfl (.null (by decide)) ?_).2.2.2 (.inr (.inl rfl))
  · exact absurd this (by decide +kernel)
  · intro j hj
    have : j = 0 := by omega
    subst this
    exact ⟨Ieee.ofInt 7, by decide +kernel⟩

theorem float_null_violated :
    floatParse [(demo [], mkNull)] = [.err] ∧
    floatParse [(demo [], mkInt 7), (demo [], mkNull)] = [.ok (Ieee.ofInt 7), .ub] := by
  constructor <;> decide +kernel

/-- The text `1e39` stands for 0, like a text that is not a number. -/
theorem float_text_violated : floatParse [(demo [49, 101, 51, 57], mkObject 1)] = [.ok 0] ∧
    floatParse [(demo [120], mkObject 1)] = [.ok 0] := by
  constructor <;> decide +kernel

/-- `Float::MAX_VALUE` is not the greatest float. -/
theorem float_max_violated : ¬ ∀ x : Word, Ieee.isNaN x = false → Ieee.isInf x = false → Ieee.lt floatMax x = false := by
  intro h
  exact absurd (h (Ieee.ofInt (2 ^ 200)) (by decide +kernel) (by decide +kernel)) (by decide +kernel)

/-- It is the greatest single precision number: any number above it with 24 significant bits is at least `2^128`. -/
theorem float_max_partial : IsExactly floatMax false ((2 ^ 24 - 1) * 2 ^ 104) 0 ∧
    ∀ v, Single v → v ≤ (2 ^ 24 - 1) * 2 ^ 104 * 2 ^ 149 := by
  refine ⟨⟨by decide +kernel, by decide +kernel, by decide +kernel, by decide +kernel⟩, ?_⟩
  rintro v ⟨h1, q, e, rfl, hq⟩
  by_cases he : e ≤ 253
  · calc q * 2 ^ e ≤ (2 ^ 24 - 1) * 2 ^ e := Nat.mul_le_mul_right _ (by omega)
      _ ≤ (2 ^ 24 - 1) * 2 ^ 253 := Nat.mul_le_mul_left _ (Nat.pow_le_pow_right (by omega) he)
      _ = (2 ^ 24 - 1) * 2 ^ 104 * 2 ^ 149 := by rw [Nat.mul_assoc, ← Nat.pow_add]
  · have e1 : 2 ^ e = 2 ^ (e - 253) * 2 ^ 253 := by rw [← Nat.pow_add]; congr 1; omega
    rw [e1, ← Nat.mul_assoc] at h1 ⊢
    have e2 : (2 : Nat) ^ 277 = 2 ^ 24 * 2 ^ 253 := by rw [← Nat.pow_add]
    rw [e2] at h1
    have h2 : q * 2 ^ (e - 253) < 2 ^ 24 := Nat.lt_of_mul_lt_mul_right h1
    calc q * 2 ^ (e - 253) * 2 ^ 253 ≤ (2 ^ 24 - 1) * 2 ^ 253 := Nat.mul_le_mul_right _ (by omega)
      _ = (2 ^ 24 - 1) * 2 ^ 104 * 2 ^ 149 := by rw [Nat.mul_assoc, ← Nat.pow_add]

/-! ### The hypotheses are met -/

/-- A history with a text, a float and an integer. -/
def demoHistory : List (World × Stk) :=
  [(demo [48, 120, 70, 70], mkObject 1), (demo [], mkFloat 0xC006000000000000#64), (demo [], mkInt (-3)), (demo [], mkBool true)]

theorem demo_part : IntegerPart 0xC006000000000000#64 (-2) ∧ InRange (-2) :=
  (truncInt_iff _ _).1 (by decide +kernel)

theorem demo_before : Before Convertible demoHistory 3 ∧ Before NumberOrText demoHistory 3 := by
  have s0 : Shows (demo [48, 120, 70, 70]) (mkObject 1) (.text [48, 120, 70, 70]) := .text (by decide) (by decide)
  have s1 : Shows (demo []) (mkFloat 0xC006000000000000#64) (.float 0xC006000000000000#64) := .float (by decide)
  have s2 : Shows (demo []) (mkInt (-3)) (.int (-3)) := .int (by decide)
  constructor <;> intro j hj
  · match j, hj with
    | 0, _ => exact ⟨_, _, _, rfl, s0, trivial⟩
    | 1, _ => exact ⟨_, _, _, rfl, s1, -2, demo_part⟩
    | 2, _ => exact ⟨_, _, _, rfl, s2, trivial⟩
  · match j, hj with
    | 0, _ => exact ⟨_, _, _, rfl, s0, trivial⟩
    | 1, _ => exact ⟨_, _, _, rfl, s1, trivial⟩
    | 2, _ => exact ⟨_, _, _, rfl, s2, trivial⟩

/- `Integer::parse` of `"0xFF"`, `-2.75`, `-3` and `true`, one after the other. -/
example : integerParse demoHistory = [.ok 255, .ok (-2), .ok (-3), .err] := by decide +kernel
example : (integerParse demoHistory)[3]? = some .err :=
  (integer_parse_partial demoHistory 3 _ _ .bool rfl (.bool (by decide)) demo_before.1).2.2.2.2.2.1 (.inr rfl)

end Verif.Vm.Numbers
