import Verif.Vm.Numbers
import Verif.Vm.NumbersSpec
/-
Lemmas for `NumbersProps.lean`: which function runs, and with what, for each kind of argument.
-/
namespace Verif.Vm.Numbers
open Verif Verif.Vm.Native Verif.Vm.NumbersSpec
open Verif.Str (Bytes)

/-- The function for integers, for floats and for texts. -/
def fnInt : Fn := ⟨1, "parse", true, false, [T_ENGINE, T_INT]⟩
def fnText : Fn := ⟨2, "parse", true, false, [T_ENGINE, T_STRING_PTR]⟩
def fnFloat : Fn := ⟨1, "parse", true, false, [T_ENGINE, T_FLOAT_PTR]⟩

theorem shown_eq (w : World) (s : Stk) : shown w s = deref w.mem s := rfl

/-! ### Fresh searches -/

theorem find_integer (w : World) (s : Stk) (a b : Bool) (h1 : argOk w s T_STRING_PTR = .ok a) (h2 : argOk w s T_INT = .ok b)
    (h3 : a = false → b = false → argOk w s T_FLOAT_PTR = .ok false) :
    find w integerFns "parse" [s] = if a then .ok fnText else if b then .ok fnInt else .err := by
  have c2 : candidate w "parse" [s] ⟨2, "parse", true, false, [T_ENGINE, T_STRING_PTR]⟩ = .ok a := by
    simp [candidate, startParam, argsOk, h1]
    cases a <;> rfl
  have c1 : candidate w "parse" [s] ⟨1, "parse", true, false, [T_ENGINE, T_INT]⟩ = .ok b := by
    simp [candidate, startParam, argsOk, h2]
    cases b <;> rfl
  have c0 : a = false → b = false → candidate w "parse" [s] ⟨0, "parse", true, false, [T_ENGINE, T_FLOAT_PTR]⟩ = .ok false := by
    intro ha hb
    simp [candidate, startParam, argsOk, h3 ha hb]
  have hr : integerFns.reverse = [⟨2, "parse", true, false, [T_ENGINE, T_STRING_PTR]⟩, ⟨1, "parse", true, false, [T_ENGINE, T_INT]⟩,
    ⟨0, "parse", true, false, [T_ENGINE, T_FLOAT_PTR]⟩] := rfl
  unfold find
  rw [hr, search, c2]
  cases a
  · rw [search, c1]
    cases b
    · rw [search, c0 rfl rfl]; rfl
    · rfl
  · rfl

theorem find_float (w : World) (s : Stk) (a b : Bool) (h1 : argOk w s T_STRING_PTR = .ok a) (h2 : argOk w s T_FLOAT_PTR = .ok b)
    (h3 : a = false → b = false → argOk w s T_INT = .ok false) :
    find w floatFns "parse" [s] = if a then .ok fnText else if b then .ok fnFloat else .err := by
  have c2 : candidate w "parse" [s] ⟨2, "parse", true, false, [T_ENGINE, T_STRING_PTR]⟩ = .ok a := by
    simp [candidate, startParam, argsOk, h1]
    cases a <;> rfl
  have c1 : candidate w "parse" [s] ⟨1, "parse", true, false, [T_ENGINE, T_FLOAT_PTR]⟩ = .ok b := by
    simp [candidate, startParam, argsOk, h2]
    cases b <;> rfl
  have c0 : a = false → b = false → candidate w "parse" [s] ⟨0, "parse", true, false, [T_ENGINE, T_INT]⟩ = .ok false := by
    intro ha hb
    simp [candidate, startParam, argsOk, h3 ha hb]
  have hr : floatFns.reverse = [⟨2, "parse", true, false, [T_ENGINE, T_STRING_PTR]⟩, ⟨1, "parse", true, false, [T_ENGINE, T_FLOAT_PTR]⟩,
    ⟨0, "parse", true, false, [T_ENGINE, T_INT]⟩] := rfl
  unfold find
  rw [hr, search, c2]
  cases a
  · rw [search, c1]
    cases b
    · rw [search, c0 rfl rfl]; rfl
    · rfl
  · rfl

theorem reusable_one (w : World) (s : Stk) (i t : Nat) (b : Bool) (h : canCast w s t = .ok b) :
    reusable w ⟨i, "parse", true, false, [T_ENGINE, t]⟩ [s] = .ok b := by
  simp [reusable, startParam, reusable.go, h]
  cases b <;> rfl

/-! ### Kinds of arguments -/

section
variable {w : World} {s : Stk}

theorem kind_int (h : kindOf w s = .int) : kind (deref w.mem s).props = P_INT := by
  rw [kindOf_eq] at h
  dsimp only at h
  split at h
  · assumption
  · split at h; · cases h
    split at h; · cases h
    split at h; · cases h
    split at h; · cases h
    split at h
    · split at h <;> cases h
    · cases h

theorem kind_float (h : kindOf w s = .float) : kind (deref w.mem s).props = P_FLOAT := by
  rw [kindOf_eq] at h
  dsimp only at h
  split at h
  · cases h
  · split at h; · assumption
    split at h; · cases h
    split at h; · cases h
    split at h; · cases h
    split at h
    · split at h <;> cases h
    · cases h

theorem kind_bool (h : kindOf w s = .bool) : kind (deref w.mem s).props = P_BOOL := by
  rw [kindOf_eq] at h
  dsimp only at h
  split at h
  · cases h
  · split at h; · cases h
    split at h; · assumption
    split at h; · cases h
    split at h; · cases h
    split at h
    · split at h <;> cases h
    · cases h

theorem kind_string (h : kindOf w s = .string) : (kind (deref w.mem s).props = P_OBJECT ∨ kind (deref w.mem s).props = P_OBJECT_IN_CONTAINER) ∧
    (w.mem.obj (deref w.mem s).value).typeId = T_STRING_SO := by
  rw [kindOf_eq] at h
  dsimp only at h
  split at h
  · cases h
  · split at h; · cases h
    split at h; · cases h
    split at h; · cases h
    split at h; · cases h
    split at h
    · split at h
      · exact ⟨by assumption, by assumption⟩
      · cases h
    · cases h

theorem ok_int (h : kind (deref w.mem s).props = P_INT) (t : Nat) (ht : t ≠ T_STACK_ELEMENT) :
    argOk w s t = .ok (t == T_INT_PTR || t == T_INT || t == T_FLOAT_PTR) ∧
    canCast w s t = .ok (t == T_INT || t == T_INT_PTR || t == T_FLOAT || t == T_FLOAT_PTR) := by
  constructor
  · unfold argOk; rw [if_neg ht]; dsimp only; rw [if_pos h]
  · unfold canCast castVal; rw [if_neg ht, h, if_neg (by decide), if_neg (by decide), if_neg (by decide), if_pos rfl]

theorem ok_float (h : kind (deref w.mem s).props = P_FLOAT) (t : Nat) (ht : t ≠ T_STACK_ELEMENT) :
    argOk w s t = .ok (t == T_FLOAT_PTR || t == T_FLOAT || t == T_INT_PTR || t == T_INT) ∧
    canCast w s t = .ok (t == T_FLOAT || t == T_FLOAT_PTR || t == T_INT) := by
  constructor
  · unfold argOk; rw [if_neg ht]; dsimp only; rw [h, if_neg (by decide), if_pos rfl]
  · unfold canCast castVal; rw [if_neg ht, h, if_neg (by decide), if_neg (by decide), if_pos rfl]

theorem ok_bool (h : kind (deref w.mem s).props = P_BOOL) (t : Nat) (ht : t ≠ T_STACK_ELEMENT) :
    argOk w s t = .ok (t == T_BOOL_PTR) ∧ canCast w s t = .ok (t == T_BOOL || t == T_BOOL_PTR) := by
  constructor
  · unfold argOk; rw [if_neg ht]; dsimp only; rw [h, if_neg (by decide), if_neg (by decide), if_pos rfl]
  · unfold canCast castVal; rw [if_neg ht, h, if_neg (by decide), if_pos rfl]

theorem ok_undefined (h : kind (deref w.mem s).props = 0) (t : Nat) (ht : t ≠ T_STACK_ELEMENT) :
    argOk w s t = .ok false ∧ canCast w s t = .ok false := by
  constructor
  · unfold argOk; rw [if_neg ht]; dsimp only
    rw [h, if_neg (by decide), if_neg (by decide), if_neg (by decide), if_neg (by decide), if_neg (by decide), if_neg (by decide)]
  · unfold canCast castVal
    have : has (deref w.mem s).props P_ANY_OBJECT = false := by rw [has_kind _ _ (by decide), h]; decide
    rw [if_neg ht, h, if_neg (by decide), if_neg (by decide), if_neg (by decide), if_neg (by decide), if_neg (by decide), this,
      if_neg (by decide)]

theorem ok_null (h : kind (deref w.mem s).props = P_NULL) (t : Nat) (ht : t ≠ T_STACK_ELEMENT) :
    argOk w s t = .ok false ∧ canCast w s t = .ok true := by
  constructor
  · unfold argOk; rw [if_neg ht]; dsimp only
    rw [h, if_neg (by decide), if_neg (by decide), if_neg (by decide), if_neg (by decide), if_neg (by decide), if_neg (by decide)]
  · unfold canCast castVal; rw [if_neg ht, if_pos h]

theorem ok_string (h : kindOf w s = .string) (h0 : (deref w.mem s).value ≠ 0) (t : Nat) (ht : t ≠ T_STACK_ELEMENT) (ht' : t ≠ T_STRING_SO) :
    argOk w s t = .ok (t == T_STRING_SO || t == T_STRING_PTR || t == T_CONST_CHAR_PTR) ∧
    canCast w s t = .ok (t == T_STRING_PTR || t == T_STRING || t == T_CONST_CHAR_PTR) ∧
    (t = T_STRING_PTR → convert w s t = .ok (.str (deref w.mem s).value)) := by
  obtain ⟨hk, hty⟩ := kind_string h
  have hk' : ∀ p : Props, p ≠ P_OBJECT → p ≠ P_OBJECT_IN_CONTAINER → kind (deref w.mem s).props ≠ p := by
    intro p h1 h2 e
    rcases hk with hk | hk
    · exact h1 (e.symm.trans hk)
    · exact h2 (e.symm.trans hk)
  have hany : has (deref w.mem s).props P_ANY_OBJECT = true := by
    rw [has_kind _ _ (by decide)]
    rcases hk with h6 | h6 <;> rw [h6] <;> decide
  have hnslot : ¬ has (deref w.mem s).props P_CONTAINER_SLOT = true := by
    rw [has_kind _ _ (by decide)]
    rcases hk with h6 | h6 <;> rw [h6] <;> decide
  have hobj : objOf w.mem (deref w.mem s) = (deref w.mem s).value := if_neg hnslot
  have hstr : isStr w.mem (deref w.mem s) = true := by
    unfold isStr isObjOf
    rw [hty, has_kind _ _ (by decide)]
    rcases hk with h6 | h6 <;> rw [h6] <;> decide
  refine ⟨?_, ?_, ?_⟩
  · unfold argOk; rw [if_neg ht]; dsimp only
    rw [if_neg (hk' _ (by decide) (by decide)), if_neg (hk' _ (by decide) (by decide)), if_neg (hk' _ (by decide) (by decide)),
      if_neg (hk' _ (by decide) (by decide)), if_neg (hk' _ (by decide) (by decide)), if_pos hk, if_neg h0, if_pos hstr]
  · unfold canCast castVal
    rw [if_neg ht, if_neg (hk' _ (by decide) (by decide)), if_neg (hk' _ (by decide) (by decide)), if_neg (hk' _ (by decide) (by decide)),
      if_neg (hk' _ (by decide) (by decide)), if_neg (hk' _ (by decide) (by decide)), if_pos hany]
    dsimp only
    rw [hobj, if_neg h0, hty, if_neg ht', if_pos rfl]
  · rintro rfl
    unfold convert convVal
    rw [if_neg ht, if_neg (hk' _ (by decide) (by decide)), if_neg (hk' _ (by decide) (by decide)), if_neg (hk' _ (by decide) (by decide)),
      if_neg (hk' _ (by decide) (by decide)), if_neg (hk' _ (by decide) (by decide)), if_pos hany]
    dsimp only
    rw [hobj, if_neg h0, hty, if_neg ht', if_pos rfl, if_pos (.inl rfl)]

theorem passArgs_one {t : Nat} {c : Out Conv} (h : passArg w ieee s t = c) (i : Nat) :
    passArgs w ieee [s] ((⟨i, "parse", true, false, [T_ENGINE, t]⟩ : Fn).params.drop (startParam ⟨i, "parse", true, false, [T_ENGINE, t]⟩)) = c.map fun c => [c] := by
  subst h
  simp only [startParam, Bool.false_eq_true, if_false, List.drop_succ_cons, List.drop_zero, passArgs]
  cases passArg w ieee s t <;> rfl

theorem passArg_convert {t : Nat} (h : kind (deref w.mem s).props ≠ P_INT → has (deref w.mem s).props P_INT = false)
    (h' : kind (deref w.mem s).props ≠ P_INT ∨ t ≠ T_FLOAT_PTR) : passArg w ieee s t = convert w s t := by
  unfold passArg
  rcases h' with h' | h'
  · rw [h h']; rfl
  · have : (t == T_FLOAT_PTR) = false := by simpa using h'
    rw [this, Bool.and_false]; rfl

end

/-! ### One call -/

/-- What `select` does when no function was remembered, or one of those that a fresh search finds. -/
theorem select_integer (w : World) (s : Stk) (last : Option Fn) (hl : last = none ∨ last = some fnInt ∨ last = some fnText)
    (f : Fn) (hf : find w integerFns "parse" [s] = .ok f)
    (h1 : ∃ b, canCast w s T_INT = .ok b ∧ (b = true → f = fnInt)) (h2 : ∃ b, canCast w s T_STRING_PTR = .ok b ∧ (b = true → f = fnText)) :
    select w integerFns "parse" [s] last = .ok (f, some f) := by
  obtain ⟨a, ha, ha'⟩ := h1
  obtain ⟨b, hb, hb'⟩ := h2
  unfold select
  rcases hl with rfl | rfl | rfl
  · simp only [hf, Out.map]
  · simp only [fnInt, reusable_one w s 1 _ _ ha]
    cases a
    · simp only [hf, Out.map]
    · rw [ha' rfl]; rfl
  · simp only [fnText, reusable_one w s 2 _ _ hb]
    cases b
    · simp only [hf, Out.map]
    · rw [hb' rfl]; rfl

theorem select_float (w : World) (s : Stk) (last : Option Fn) (hl : last = none ∨ last = some fnFloat ∨ last = some fnText)
    (f : Fn) (hf : find w floatFns "parse" [s] = .ok f)
    (h1 : ∃ b, canCast w s T_FLOAT_PTR = .ok b ∧ (b = true → f = fnFloat)) (h2 : ∃ b, canCast w s T_STRING_PTR = .ok b ∧ (b = true → f = fnText)) :
    select w floatFns "parse" [s] last = .ok (f, some f) := by
  obtain ⟨a, ha, ha'⟩ := h1
  obtain ⟨b, hb, hb'⟩ := h2
  unfold select
  rcases hl with rfl | rfl | rfl
  · simp only [hf, Out.map]
  · simp only [fnFloat, reusable_one w s 1 _ _ ha]
    cases a
    · simp only [hf, Out.map]
    · rw [ha' rfl]; rfl
  · simp only [fnText, reusable_one w s 2 _ _ hb]
    cases b
    · simp only [hf, Out.map]
    · rw [hb' rfl]; rfl

/-- An argument that neither the search nor a remembered function takes is an error. -/
theorem select_refused (w : World) (s : Stk) (last : Option Fn) (fs : List Fn) (t : Nat)
    (hl : last = none ∨ last = some ⟨1, "parse", true, false, [T_ENGINE, t]⟩ ∨ last = some fnText)
    (hf : find w fs "parse" [s] = .err)
    (h1 : canCast w s t = .ok false) (h2 : canCast w s T_STRING_PTR = .ok false) :
    select w fs "parse" [s] last = .err := by
  unfold select
  rcases hl with rfl | rfl | rfl
  · simp only [hf, Out.map]
  · simp only [reusable_one w s 1 _ _ h1, hf, Out.map]
  · simp only [fnText, reusable_one w s 2 _ _ h2, hf, Out.map]

/-- The integer part, if it fits: exactly what the conversion of a float gives. -/
theorem truncInt_iff (x : Word) (z : Int) : truncInt x = some z ↔ IntegerPart x z ∧ InRange z := by
  unfold truncInt IntegerPart InRange
  cases hn : Ieee.isNaN x
  · cases hi : Ieee.isInf x
    · simp only [Bool.or_self, Bool.false_eq_true, if_false, true_and]
      generalize hP : (2 : Int) ^ 1074 = P
      have hP0 : 0 < P := by rw [← hP]; exact Int.pow_pos (by decide)
      generalize Ieee.scaled x = y
      have key : y.tdiv P = z ↔ (0 ≤ y → z * P ≤ y ∧ y < (z + 1) * P) ∧ (y < 0 → (z - 1) * P < y ∧ y ≤ z * P) := by
        have uniq : ∀ (a q : Int) (b : Int), 0 ≤ b → b < P → q * P + b = a → ∀ z : Int, (z * P ≤ a ∧ a < (z + 1) * P) → q = z := by
          intro a q b hb1 hb2 he z ⟨h1, h2⟩
          rw [Int.add_mul, Int.one_mul] at h2
          have h3 : ¬ q < z := by
            intro hc
            have : (q + 1) * P ≤ z * P := Int.mul_le_mul_of_nonneg_right (by omega) (by omega)
            rw [Int.add_mul, Int.one_mul] at this
            omega
          have h4 : ¬ z < q := by
            intro hc
            have : (z + 1) * P ≤ q * P := Int.mul_le_mul_of_nonneg_right (by omega) (by omega)
            rw [Int.add_mul, Int.one_mul] at this
            omega
          omega
        by_cases hy : 0 ≤ y
        · have hq : y.tdiv P = y / P := Int.tdiv_eq_ediv_of_nonneg hy
          have hd := Int.ediv_mul_add_emod y P
          have hm1 := Int.emod_nonneg y (by omega : P ≠ 0)
          have hm2 := Int.emod_lt_of_pos y hP0
          rw [hq]
          constructor
          · rintro rfl
            refine ⟨fun _ => ⟨by omega, by rw [Int.add_mul, Int.one_mul]; omega⟩, fun h => by omega⟩
          · rintro ⟨h, _⟩
            exact uniq y _ _ hm1 hm2 hd z (h hy)
        · have hq : y.tdiv P = -((-y) / P) := by
            have : y = -(-y) := by omega
            rw [this, Int.neg_tdiv, Int.tdiv_eq_ediv_of_nonneg (by omega), Int.neg_neg]
          have hd := Int.ediv_mul_add_emod (-y) P
          have hm1 := Int.emod_nonneg (-y) (by omega : P ≠ 0)
          have hm2 := Int.emod_lt_of_pos (-y) hP0
          rw [hq]
          constructor
          · rintro rfl
            refine ⟨fun h => by omega, fun _ => ⟨?_, ?_⟩⟩
            · rw [Int.sub_mul, Int.one_mul, Int.neg_mul]; omega
            · rw [Int.neg_mul]; omega
          · rintro ⟨_, h⟩
            obtain ⟨h1, h2⟩ := h (by omega)
            rw [Int.sub_mul, Int.one_mul] at h1
            have := uniq (-y) _ _ hm1 hm2 hd (-z) ⟨by rw [Int.neg_mul]; omega, by rw [Int.add_mul, Int.one_mul, Int.neg_mul]; omega⟩
            omega
      constructor
      · intro h
        split at h
        · rename_i hr
          injection h with h
          subst h
          exact ⟨key.1 rfl, hr⟩
        · cases h
      · rintro ⟨h1, h2⟩
        rw [key.2 h1, if_pos h2]
    · simp
  · simp

/-! ### One call, by argument -/

def LastInt (l : Option Fn) : Prop := l = none ∨ l = some fnInt ∨ l = some fnText
def LastFlt (l : Option Fn) : Prop := l = none ∨ l = some fnFloat ∨ l = some fnText

theorem not_int {p : Props} (k : Props) (h : kind p = k) (hk : has k P_INT = false) : has p P_INT = false := by
  rw [has_kind _ _ (by decide), h]; exact hk

theorem integer_int {w : World} {s : Stk} {last : Option Fn} (hl : LastInt last) (h : kindOf w s = .int) :
    step integerFns parseInt w last s = .ok ((shown w s).value, some fnInt) := by
  have hk := kind_int h
  have hf : find w integerFns "parse" [s] = .ok fnInt := by
    rw [find_integer w s false true (ok_int hk _ (by decide)).1 (ok_int hk _ (by decide)).1 (fun _ h => by cases h)]
    rfl
  have hs := select_integer w s last hl fnInt hf ⟨_, (ok_int hk _ (by decide)).2, fun _ => rfl⟩
    ⟨_, (ok_int hk _ (by decide)).2, fun h => absurd h (by decide)⟩
  have hp : passArg w ieee s T_INT = .ok (.val (deref w.mem s).value) := by
    rw [passArg_convert (fun h => absurd hk h) (.inr (by decide))]
    unfold convert convVal
    rw [if_neg (by decide), hk, if_neg (by decide), if_neg (by decide), if_neg (by decide), if_pos rfl, if_pos rfl]
  unfold step
  rw [hs]
  simp only [Out.bind]
  simp only [fnInt]
  rw [passArgs_one hp]
  rfl

theorem integer_float {w : World} {s : Stk} {last : Option Fn} (hl : LastInt last) (h : kindOf w s = .float) :
    step integerFns parseInt w last s = match truncInt (shown w s).value with
      | some i => .ok (BitVec.ofInt 64 i, some fnInt)
      | none => .ub := by
  have hk := kind_float h
  have hf : find w integerFns "parse" [s] = .ok fnInt := by
    rw [find_integer w s false true (ok_float hk _ (by decide)).1 (ok_float hk _ (by decide)).1 (fun _ h => by cases h)]
    rfl
  have hs := select_integer w s last hl fnInt hf ⟨_, (ok_float hk _ (by decide)).2, fun _ => rfl⟩
    ⟨_, (ok_float hk _ (by decide)).2, fun h => absurd h (by decide)⟩
  have hp : passArg w ieee s T_INT = match truncInt (deref w.mem s).value with
      | some i => .ok (.val (BitVec.ofInt 64 i))
      | none => .ub := by
    rw [passArg_convert (fun _ => not_int _ hk (by decide)) (.inr (by decide))]
    unfold convert convVal
    rw [if_neg (by decide), hk, if_neg (by decide), if_neg (by decide), if_pos rfl, if_neg (by decide), if_neg (by decide),
      if_pos rfl]
    split <;> simp_all
  unfold step
  rw [hs]
  simp only [Out.bind]
  simp only [fnInt]
  rw [passArgs_one hp, shown_eq]
  cases truncInt (deref w.mem s).value <;> rfl

theorem integer_text {w : World} {s : Stk} {last : Option Fn} (hl : LastInt last) (h : kindOf w s = .string)
    (h0 : (shown w s).value ≠ 0) :
    step integerFns parseInt w last s =
      .ok (BitVec.ofInt 64 ((Integer.parse (w.mem.obj (shown w s).value).text).getD 0), some fnText) := by
  rw [shown_eq] at h0
  have hf : find w integerFns "parse" [s] = .ok fnText := by
    rw [find_integer w s true false (ok_string h h0 _ (by decide) (by decide)).1 (ok_string h h0 _ (by decide) (by decide)).1
      (fun h => by cases h)]
    rfl
  have hs := select_integer w s last hl fnText hf ⟨_, (ok_string h h0 _ (by decide) (by decide)).2.1, fun h => absurd h (by decide)⟩
    ⟨_, (ok_string h h0 _ (by decide) (by decide)).2.1, fun _ => rfl⟩
  have hni : kind (deref w.mem s).props ≠ P_INT := by
    rcases (kind_string h).1 with e | e <;> rw [e] <;> decide
  have hp : passArg w ieee s T_STRING_PTR = .ok (.str (deref w.mem s).value) := by
    rw [passArg_convert (fun _ => ?_) (.inr (by decide))]
    · exact (ok_string h h0 _ (by decide) (by decide)).2.2 rfl
    · rcases (kind_string h).1 with e | e <;> exact not_int _ e (by decide)
  unfold step
  rw [hs]
  simp only [Out.bind]
  simp only [fnText]
  rw [passArgs_one hp, shown_eq]
  simp only [Out.map, parseInt, readText, Out.bind]
  rw [if_neg (by decide), if_neg (by decide)]
  cases Integer.parse (w.mem.obj (deref w.mem s).value).text <;> rfl

theorem integer_refused {w : World} {s : Stk} {last : Option Fn} (hl : LastInt last)
    (h : (shown w s).props &&& 0xFFF = 0 ∨ kindOf w s = .bool) : step integerFns parseInt w last s = .err := by
  have : (∀ t, t = T_STRING_PTR ∨ t = T_INT ∨ t = T_FLOAT_PTR → argOk w s t = .ok false ∧ canCast w s t = .ok false) := by
    intro t ht
    rcases h with h | h
    · exact ok_undefined h t (by rcases ht with rfl | rfl | rfl <;> decide)
    · have := ok_bool (kind_bool h) t (by rcases ht with rfl | rfl | rfl <;> decide)
      rcases ht with rfl | rfl | rfl <;> exact this
  have hf : find w integerFns "parse" [s] = .err := by
    rw [find_integer w s false false (this _ (by simp)).1 (this _ (by simp)).1 (fun _ _ => (this _ (by simp)).1)]
    rfl
  unfold step
  rw [select_refused w s last integerFns T_INT hl hf (this _ (by simp)).2 (this _ (by simp)).2]
  rfl

theorem integer_null {w : World} {s : Stk} (h : (shown w s).props &&& 0xFFF = 1) :
    step integerFns parseInt w none s = .err ∧ step integerFns parseInt w (some fnInt) s = .ok (0, some fnInt) ∧
    step integerFns parseInt w (some fnText) s = .ub := by
  have hk : kind (deref w.mem s).props = P_NULL := h
  have hf : find w integerFns "parse" [s] = .err := by
    rw [find_integer w s false false (ok_null hk _ (by decide)).1 (ok_null hk _ (by decide)).1 (fun _ _ => (ok_null hk _ (by decide)).1)]
    rfl
  have hp : ∀ t, t ≠ T_STACK_ELEMENT → passArg w ieee s t = .ok (.val 0) := by
    intro t ht
    rw [passArg_convert (fun _ => not_int _ hk (by decide)) (.inl (by rw [hk]; decide))]
    unfold convert convVal
    rw [if_neg ht, if_pos hk]
  refine ⟨?_, ?_, ?_⟩
  · simp only [step, select, hf, Out.map, Out.bind]
  · simp only [step, select, fnInt, reusable_one w s 1 _ _ (ok_null hk T_INT (by decide)).2, Out.bind]
    rw [passArgs_one (hp _ (by decide))]
    rfl
  · simp only [step, select, fnText, reusable_one w s 2 _ _ (ok_null hk T_STRING_PTR (by decide)).2, Out.bind]
    rw [passArgs_one (hp _ (by decide))]
    rfl

theorem float_int {w : World} {s : Stk} {last : Option Fn} (hl : LastFlt last) (h : kindOf w s = .int) :
    step floatFns parseFloat w last s = .ok (Ieee.ofInt (shown w s).value.toInt, some fnFloat) := by
  have hk := kind_int h
  have hf : find w floatFns "parse" [s] = .ok fnFloat := by
    rw [find_float w s false true (ok_int hk _ (by decide)).1 (ok_int hk _ (by decide)).1 (fun _ h => by cases h)]
    rfl
  have hs := select_float w s last hl fnFloat hf ⟨_, (ok_int hk _ (by decide)).2, fun _ => rfl⟩
    ⟨_, (ok_int hk _ (by decide)).2, fun h => absurd h (by decide)⟩
  have hp : passArg w ieee s T_FLOAT_PTR = .ok (.tmp (Ieee.ofInt (deref w.mem s).value.toInt)) := by
    unfold passArg
    rw [has_kind _ _ (by decide), hk, if_pos (by decide)]
    rfl
  unfold step
  rw [hs]
  simp only [Out.bind]
  simp only [fnFloat]
  rw [passArgs_one hp]
  rfl

theorem float_float {w : World} {s : Stk} {last : Option Fn} (hl : LastFlt last) (h : kindOf w s = .float) :
    step floatFns parseFloat w last s = .ok ((shown w s).value, some fnFloat) := by
  have hk := kind_float h
  have hf : find w floatFns "parse" [s] = .ok fnFloat := by
    rw [find_float w s false true (ok_float hk _ (by decide)).1 (ok_float hk _ (by decide)).1 (fun _ h => by cases h)]
    rfl
  have hs := select_float w s last hl fnFloat hf ⟨_, (ok_float hk _ (by decide)).2, fun _ => rfl⟩
    ⟨_, (ok_float hk _ (by decide)).2, fun h => absurd h (by decide)⟩
  have hp : passArg w ieee s T_FLOAT_PTR = .ok (.addr (deref w.mem s)) := by
    rw [passArg_convert (fun _ => not_int _ hk (by decide)) (.inl (by rw [hk]; decide))]
    unfold convert convVal
    rw [if_neg (by decide), hk, if_neg (by decide), if_neg (by decide), if_pos rfl, if_neg (by decide), if_pos rfl]
  unfold step
  rw [hs]
  simp only [Out.bind]
  simp only [fnFloat]
  rw [passArgs_one hp]
  rfl

theorem float_text {w : World} {s : Stk} {last : Option Fn} (hl : LastFlt last) (h : kindOf w s = .string)
    (h0 : (shown w s).value ≠ 0) :
    step floatFns parseFloat w last s =
      .ok ((FloatText.parse (w.mem.obj (shown w s).value).text).getD (Ieee.ofInt 0), some fnText) := by
  rw [shown_eq] at h0
  have hf : find w floatFns "parse" [s] = .ok fnText := by
    rw [find_float w s true false (ok_string h h0 _ (by decide) (by decide)).1 (ok_string h h0 _ (by decide) (by decide)).1
      (fun h => by cases h)]
    rfl
  have hs := select_float w s last hl fnText hf ⟨_, (ok_string h h0 _ (by decide) (by decide)).2.1, fun h => absurd h (by decide)⟩
    ⟨_, (ok_string h h0 _ (by decide) (by decide)).2.1, fun _ => rfl⟩
  have hp : passArg w ieee s T_STRING_PTR = .ok (.str (deref w.mem s).value) := by
    rw [passArg_convert (fun _ => ?_) (.inr (by decide))]
    · exact (ok_string h h0 _ (by decide) (by decide)).2.2 rfl
    · rcases (kind_string h).1 with e | e <;> exact not_int _ e (by decide)
  unfold step
  rw [hs]
  simp only [Out.bind]
  simp only [fnText]
  rw [passArgs_one hp, shown_eq]
  simp only [Out.map, parseFloat, readText, Out.bind]
  rw [if_neg (by decide), if_neg (by decide)]
  cases FloatText.parse (w.mem.obj (deref w.mem s).value).text <;> rfl

theorem float_refused {w : World} {s : Stk} {last : Option Fn} (hl : LastFlt last)
    (h : (shown w s).props &&& 0xFFF = 0 ∨ kindOf w s = .bool) : step floatFns parseFloat w last s = .err := by
  have : (∀ t, t = T_STRING_PTR ∨ t = T_INT ∨ t = T_FLOAT_PTR → argOk w s t = .ok false ∧ canCast w s t = .ok false) := by
    intro t ht
    rcases h with h | h
    · exact ok_undefined h t (by rcases ht with rfl | rfl | rfl <;> decide)
    · have := ok_bool (kind_bool h) t (by rcases ht with rfl | rfl | rfl <;> decide)
      rcases ht with rfl | rfl | rfl <;> exact this
  have hf : find w floatFns "parse" [s] = .err := by
    rw [find_float w s false false (this _ (by simp)).1 (this _ (by simp)).1 (fun _ _ => (this _ (by simp)).1)]
    rfl
  unfold step
  rw [select_refused w s last floatFns T_FLOAT_PTR hl hf (this _ (by simp)).2 (this _ (by simp)).2]
  rfl

theorem float_null {w : World} {s : Stk} (h : (shown w s).props &&& 0xFFF = 1) :
    step floatFns parseFloat w none s = .err ∧ step floatFns parseFloat w (some fnFloat) s = .ub ∧
    step floatFns parseFloat w (some fnText) s = .ub := by
  have hk : kind (deref w.mem s).props = P_NULL := h
  have hf : find w floatFns "parse" [s] = .err := by
    rw [find_float w s false false (ok_null hk _ (by decide)).1 (ok_null hk _ (by decide)).1 (fun _ _ => (ok_null hk _ (by decide)).1)]
    rfl
  have hp : ∀ t, t ≠ T_STACK_ELEMENT → passArg w ieee s t = .ok (.val 0) := by
    intro t ht
    rw [passArg_convert (fun _ => not_int _ hk (by decide)) (.inl (by rw [hk]; decide))]
    unfold convert convVal
    rw [if_neg ht, if_pos hk]
  refine ⟨?_, ?_, ?_⟩
  · simp only [step, select, hf, Out.map, Out.bind]
  · simp only [step, select, fnFloat, reusable_one w s 1 _ _ (ok_null hk T_FLOAT_PTR (by decide)).2, Out.bind]
    rw [passArgs_one (hp _ (by decide))]
    rfl
  · simp only [step, select, fnText, reusable_one w s 2 _ _ (ok_null hk T_STRING_PTR (by decide)).2, Out.bind]
    rw [passArgs_one (hp _ (by decide))]
    rfl

/-! ### Histories -/

/-- The result of one call. -/
def result (o : Out (Word × Option Fn)) : Out Word := o.map Prod.fst

/-- After calls that succeed and keep an invariant of what is remembered, the next call starts from a remembered function
within the invariant. -/
theorem calls_at {fs : List Fn} {run : Mem → Fn → Conv → Out Word} (I : Option Fn → Prop) (P : World → Stk → Prop)
    (hstep : ∀ w s last, I last → P w s → ∃ r last', step fs run w last s = .ok (r, last') ∧ I last') :
    ∀ (h : List (World × Stk)) (last : Option Fn) (i : Nat) (w : World) (s : Stk), I last → h[i]? = some (w, s) →
      (∀ (j : Nat), j < i → ∃ w' s', h[j]? = some (w', s') ∧ P w' s') →
      ∃ last', I last' ∧ (i = 0 → last' = last) ∧ (calls fs run last h)[i]? = some (result (step fs run w last' s)) := by
  intro h
  induction h with
  | nil => intro last i w s _ h; simp at h
  | cons p rest ih =>
    obtain ⟨w0, s0⟩ := p
    intro last i w s hI hi hb
    cases i with
    | zero =>
      simp only [List.getElem?_cons_zero, Option.some.injEq, Prod.mk.injEq] at hi
      obtain ⟨rfl, rfl⟩ := hi
      refine ⟨last, hI, fun _ => rfl, ?_⟩
      unfold calls
      cases step fs run w0 last s0 with
      | ok p => rfl
      | err => rfl
      | ub => rfl
    | succ i =>
      obtain ⟨w', s', e, hp⟩ := hb 0 (by omega)
      simp only [List.getElem?_cons_zero, Option.some.injEq, Prod.mk.injEq] at e
      obtain ⟨rfl, rfl⟩ := e
      obtain ⟨r, l1, hs, hI1⟩ := hstep w0 s0 last hI hp
      obtain ⟨l2, a, _, c⟩ := ih l1 i w s hI1 (by simpa using hi) (fun j hj => by simpa using hb (j + 1) (by omega))
      refine ⟨l2, a, fun h => by omega, ?_⟩
      unfold calls
      rw [hs]
      simpa using c

theorem integer_at {h : List (World × Stk)} {i : Nat} {w : World} {s : Stk} (hi : h[i]? = some (w, s))
    (hb : Before Convertible h i) :
    ∃ last, LastInt last ∧ (i = 0 → last = none) ∧ (integerParse h)[i]? = some (result (step integerFns parseInt w last s)) := by
  refine calls_at LastInt (fun w s => ∃ a, Shows w s a ∧ Convertible a) ?_ h none i w s (.inl rfl) hi ?_
  · rintro w s last hl ⟨a, ha, hc⟩
    cases ha with
    | int h => exact ⟨_, _, integer_int hl h, .inr (.inl rfl)⟩
    | float h =>
      obtain ⟨z, hz⟩ := hc
      have := integer_float hl h
      rw [(truncInt_iff _ z).2 hz] at this
      exact ⟨_, _, this, .inr (.inl rfl)⟩
    | text h h0 => exact ⟨_, _, integer_text hl h h0, .inr (.inr rfl)⟩
    | undefined h => exact hc.elim
    | null h => exact hc.elim
    | bool h => exact hc.elim
  · intro j hj
    obtain ⟨w', s', a, e, hs, hc⟩ := hb j hj
    exact ⟨w', s', e, a, hs, hc⟩

theorem float_at {h : List (World × Stk)} {i : Nat} {w : World} {s : Stk} (hi : h[i]? = some (w, s))
    (hb : Before NumberOrText h i) :
    ∃ last, LastFlt last ∧ (i = 0 → last = none) ∧ (floatParse h)[i]? = some (result (step floatFns parseFloat w last s)) := by
  refine calls_at LastFlt (fun w s => ∃ a, Shows w s a ∧ NumberOrText a) ?_ h none i w s (.inl rfl) hi ?_
  · rintro w s last hl ⟨a, ha, hc⟩
    cases ha with
    | int h => exact ⟨_, _, float_int hl h, .inr (.inl rfl)⟩
    | float h => exact ⟨_, _, float_float hl h, .inr (.inl rfl)⟩
    | text h h0 => exact ⟨_, _, float_text hl h h0, .inr (.inr rfl)⟩
    | undefined h => exact hc.elim
    | null h => exact hc.elim
    | bool h => exact hc.elim
  · intro j hj
    obtain ⟨w', s', a, e, hs, hc⟩ := hb j hj
    exact ⟨w', s', e, a, hs, hc⟩

theorem parse_spells {t : Bytes} {n : Nat} (h : Spells t n) : Integer.parse t = some (min Integer.INT_MAX n) := by
  cases h with
  | dec t h => exact Integer.parse_decimal t h
  | hex x r h => exact Integer.parse_hexadecimal x r h
  | bin d m h => exact Integer.parse_binary d m h

end Verif.Vm.Numbers
