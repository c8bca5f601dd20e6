import Verif.Module.MathFnsLemmas
/-
Properties C134 to C137: the functions of `Math`.
-/
namespace Verif.MathFns
open Verif Verif.Vm Verif.Vm.Native Verif.Vm.NumbersSpec Verif.MathFnsSpec
open Verif.Vm.Ieee

/-! ### C134: arguments -/

/-- The full property: with the right number of arguments a function of `Math` gives a number if all of them are numbers, and is an
error otherwise. -/
def TakesNumbers : Prop := ∀ (w : World) (L : Lib) (f : Fun) (args : List Stk), args.length = arity f →
  (∀ s ∈ args, ∃ a, Shows w s a) →
  ((∀ s ∈ args, ∃ a, Shows w s a ∧ Num a) → ∃ x, call w L f args = .ok x) ∧
  ((∃ s ∈ args, ∃ a, Shows w s a ∧ ¬ Num a) → call w L f args = .err)

theorem passArgs_num {w : World} : ∀ (args : List Stk) (n : Nat), args.length = n → (∀ s ∈ args, ∃ a, Shows w s a ∧ Num a) →
    ∃ cs xs, passArgs w ieee args (List.replicate n T_FLOAT_PTR) = .ok cs ∧ reads cs = .ok xs
  | [], n, _, _ => ⟨[], [], by rw [passArgs], rfl⟩
  | s :: args, 0, h, _ => by simp at h
  | s :: args, n + 1, h, hs => by
    obtain ⟨a, h1, h2⟩ := hs s (by simp)
    obtain ⟨c, x, e1, e2, _⟩ := pass_num h1 h2
    obtain ⟨cs, xs, e3, e4⟩ := passArgs_num args n (by simpa using h) (fun s hs' => hs s (by simp [hs']))
    refine ⟨c :: cs, x :: xs, ?_, ?_⟩
    · simp [List.replicate_succ, passArgs, e1, e3, Out.map]
    · simp [reads, e2, e4, Out.bind, Out.map]

theorem passArgs_refused {w : World} : ∀ (args : List Stk) (n : Nat), args.length = n → (∀ s ∈ args, ∃ a, Shows w s a) →
    (∃ s ∈ args, ∃ a, Shows w s a ∧ ¬ Num a ∧ a ≠ .null) → passArgs w ieee args (List.replicate n T_FLOAT_PTR) = .err
  | [], n, _, _, h => by simp at h
  | s :: args, 0, h, _, _ => by simp at h
  | s :: args, n + 1, h, hs, hr => by
    simp only [List.replicate_succ, passArgs]
    have one : ∀ a, Shows w s a → (¬ Num a ∧ a ≠ .null → passArg w ieee s T_FLOAT_PTR = .err) ∧
        ((Num a ∨ a = .null) → ∃ c, passArg w ieee s T_FLOAT_PTR = .ok c) := by
      intro a ha
      refine ⟨fun hn => ?_, fun hn => ?_⟩
      · cases ha with
        | int _ => exact (hn.1 trivial).elim
        | float _ => exact (hn.1 trivial).elim
        | text h _ => exact pass_string h
        | undefined h => exact pass_undefined h
        | null _ => exact (hn.2 rfl).elim
        | bool h => exact pass_bool h
      · rcases hn with hn | rfl
        · obtain ⟨c, _, e, _⟩ := pass_num ha hn
          exact ⟨c, e⟩
        · cases ha with
          | null h => exact ⟨_, pass_null h⟩
    obtain ⟨a, ha⟩ := hs s (by simp)
    by_cases hn : Num a ∨ a = .null
    · obtain ⟨c, e⟩ := (one a ha).2 hn
      have : passArgs w ieee args (List.replicate n T_FLOAT_PTR) = .err := by
        apply passArgs_refused args n (by simpa using h) (fun s hs' => hs s (by simp [hs']))
        obtain ⟨t, ht, b, hb, hb'⟩ := hr
        rcases List.mem_cons.1 ht with rfl | ht
        · have := (one b hb).1 hb'
          rw [e] at this
          cases this
        · exact ⟨t, ht, b, hb, hb'⟩
      rw [e]
      simp only [this, Out.map]
    · rw [(one a ha).1 ⟨fun x => hn (.inl x), fun x => hn (.inr x)⟩]

/-- A wrong number of arguments is an error; numbers are taken; an undefined value, a boolean or a text among the arguments is an
error. -/
theorem math_arguments_partial (w : World) (L : Lib) (f : Fun) (args : List Stk) :
    (args.length ≠ arity f → call w L f args = .err) ∧
    (args.length = arity f → (∀ s ∈ args, ∃ a, Shows w s a ∧ Num a) → ∃ x, call w L f args = .ok x) ∧
    (args.length = arity f → (∀ s ∈ args, ∃ a, Shows w s a) → (∃ s ∈ args, ∃ a, Shows w s a ∧ ¬ Num a ∧ a ≠ .null) →
      call w L f args = .err) := by
  refine ⟨fun h => by unfold call; rw [if_pos h], fun h hs => ?_, fun h hs hr => ?_⟩
  · obtain ⟨cs, xs, e1, e2⟩ := passArgs_num args _ h hs
    unfold call
    rw [if_neg (by omega), e1]
    simp [Out.bind, e2, Out.map]
  · unfold call
    rw [if_neg (by omega), passArgs_refused args _ h hs hr]
    rfl

/-- How many arguments each function takes. -/
theorem math_arity (w : World) (L : Lib) : (∃ x, call w L .random [] = .ok x) ∧
    (∀ f, f = .sin ∨ f = .cos ∨ f = .abs ∨ f = .floor ∨ f = .ceil ∨ f = .round ∨ f = .degToRad ∨ f = .sqrt → ∀ s a, Shows w s a → Num a → ∃ x, call w L f [s] = .ok x) ∧
    (∀ f, f = .pow ∨ f = .max ∨ f = .min → ∀ s a t b, Shows w s a → Num a → Shows w t b → Num b → ∃ x, call w L f [s, t] = .ok x) := by
  refine ⟨⟨_, rfl⟩, ?_, ?_⟩
  · intro f hf s a hs ha
    refine (math_arguments_partial w L f [s]).2.1 ?_ ?_
    · rcases hf with rfl | rfl | rfl | rfl | rfl | rfl | rfl | rfl <;> rfl
    · intro t ht
      rw [List.mem_singleton.1 ht]
      exact ⟨a, hs, ha⟩
  · intro f hf s a t b hs ha ht hb
    refine (math_arguments_partial w L f [s, t]).2.1 ?_ ?_
    · rcases hf with rfl | rfl | rfl <;> rfl
    · intro u hu
      simp only [List.mem_cons, List.not_mem_nil, or_false] at hu
      rcases hu with rfl | rfl
      · exact ⟨a, hs, ha⟩
      · exact ⟨b, ht, hb⟩

/-- `null` is handed to every function as a null pointer, which it reads. -/
theorem math_null_violated (w : World) (L : Lib) (f : Fun) (s : Stk) (hf : arity f = 1) (h : Shows w s .null) : call w L f [s] = .ub := by
  cases h with
  | null h =>
    unfold call
    rw [hf]
    simp [passArgs, pass_null h, Out.map, Out.bind, reads, Numbers.readFloat]

/-- A memory without objects. -/
def demoWorld : World where
  mem := { obj := fun o => if o = 2 then ⟨40, []⟩ else ⟨T_STRING_SO, []⟩, stk := fun _ => mkUndefined, slot := fun _ => 0 }
  ext := fun a b => a == b
  nativeClass := fun _ => none

/-- Some C library. -/
def demoLib : Lib := ⟨id, id, fun x _ => x, 7⟩

theorem math_arguments_violated : ¬ TakesNumbers := by
  intro h
  have hn : Shows demoWorld mkNull .null := .null (by decide)
  have := (h demoWorld demoLib .abs [mkNull] rfl (by intro s hs; rw [List.mem_singleton.1 hs]; exact ⟨_, hn⟩)).2
    ⟨mkNull, by simp, .null, hn, id⟩
  rw [math_null_violated demoWorld demoLib .abs mkNull rfl hn] at this
  cases this

/-- An object of a class made by a script, and a function, are read as if they were floats. -/
theorem math_object_violated : call demoWorld demoLib .abs [mkObject 2] = .ub ∧
    call demoWorld demoLib .abs [⟨5, P_FUNCTION⟩] = .ub := by
  decide +kernel

/-! ### C135: greatest, least, rounding -/

/-- `max` and `min` of two numbers give one of them that is not below (above) either; the others give the whole numbers and the
absolute value that their names say. Integers of more than 53 bits and values that are not a number are excluded. -/
theorem math_values_partial (w : World) (L : Lib) (s t : Stk) (a b : Arg) (x y : Word) (hs : Shows w s a) (hx : Denotes a x) :
    (Shows w t b → Denotes b y → isNaN x = false → isNaN y = false →
      (∃ r, call w L .max [s, t] = .ok r ∧ (r = x ∨ r = y) ∧ scaled x ≤ scaled r ∧ scaled y ≤ scaled r) ∧
      (∃ r, call w L .min [s, t] = .ok r ∧ (r = x ∨ r = y) ∧ scaled r ≤ scaled x ∧ scaled r ≤ scaled y)) ∧
    (∃ r, call w L .abs [s] = .ok r ∧ isNaN r = isNaN x ∧ isInf r = isInf x ∧ neg? r = false ∧ scaled r = ((scaled x).natAbs : Int)) ∧
    (Finite x → ∃ r z, call w L .floor [s] = .ok r ∧ IsInt r z ∧ IsFloor x z) ∧
    (Finite x → ∃ r z, call w L .ceil [s] = .ok r ∧ IsInt r z ∧ IsCeil x z) ∧
    (Finite x → ∃ r z, call w L .round [s] = .ok r ∧ IsInt r z ∧ IsRound x z) ∧
    (¬ Finite x → call w L .floor [s] = .ok x ∧ call w L .ceil [s] = .ok x ∧ call w L .round [s] = .ok x) := by
  refine ⟨fun ht hy h1 h2 => ⟨⟨_, call_two rfl hs hx ht hy, ?_⟩, ⟨_, call_two rfl hs hx ht hy, ?_⟩⟩, ⟨_, call_one rfl hs hx, ?_⟩, ?_, ?_, ?_, ?_⟩
  · rw [run_max, lt_eq h2 h1]
    split <;> rename_i hc <;> rw [decide_eq_true_eq] at hc
    · exact ⟨.inl rfl, by omega, by omega⟩
    · exact ⟨.inr rfl, by omega, by omega⟩
  · rw [run_min, lt_eq h1 h2]
    split <;> rename_i hc <;> rw [decide_eq_true_eq] at hc
    · exact ⟨.inl rfl, by omega, by omega⟩
    · exact ⟨.inr rfl, by omega, by omega⟩
  · obtain ⟨c1, c2, c3⟩ := fabs_spec x
    exact ⟨c1, c2, (fabs_fields x).1, c3⟩
  · intro h
    obtain ⟨z, h1, h2⟩ := floor_spec (x := x) h
    exact ⟨_, z, call_one rfl hs hx, h1, h2⟩
  · intro h
    obtain ⟨z, h1, h2⟩ := ceil_spec (x := x) h
    exact ⟨_, z, call_one rfl hs hx, h1, h2⟩
  · intro h
    obtain ⟨z, h1, h2⟩ := round_spec (x := x) h
    exact ⟨_, z, call_one rfl hs hx, h1, h2⟩
  · intro h
    have hsp : (isNaN x || isInf x) = true := by
      cases h1 : isNaN x <;> cases h2 : isInf x <;> simp_all [Finite]
    rw [call_one rfl hs hx, call_one rfl hs hx, call_one rfl hs hx]
    rw [run_floor, run_ceil, run_round]
    unfold floor ceil round
    rw [if_pos hsp, if_pos hsp, if_pos hsp]
    exact ⟨rfl, rfl, rfl⟩

/-- The full properties that fail: the order of the arguments of `max` does not matter (up to equal values), and rounding an
integer gives that integer. -/
def MaxCommutes : Prop := ∀ (w : World) (L : Lib) (s t : Stk) (a b : Arg), Shows w s a → Num a → Shows w t b → Num b →
  ∀ p q, call w L .max [s, t] = .ok p → call w L .max [t, s] = .ok q → isNaN p = isNaN q

def FloorOfInt : Prop := ∀ (w : World) (L : Lib) (s : Stk) (i : Int), Shows w s (.int i) →
  ∃ r, call w L .floor [s] = .ok r ∧ IsInt r i

/-- With a value that is not a number, `max` and `min` give their second argument. -/
theorem math_nan_violated (w : World) (L : Lib) (s t : Stk) (a b : Arg) (x y : Word) (hs : Shows w s a) (hx : Denotes a x)
    (ht : Shows w t b) (hy : Denotes b y) (h : isNaN x = true ∨ isNaN y = true) :
    call w L .max [s, t] = .ok y ∧ call w L .min [s, t] = .ok y := by
  rw [call_two rfl hs hx ht hy, call_two rfl hs hx ht hy]
  rw [run_max, run_min, lt_nan h, lt_nan h.symm]
  exact ⟨rfl, rfl⟩

theorem shows_float (w : World) (x : Word) : Shows w (mkFloat x) (.float x) := by
  have hd : deref w.mem (mkFloat x) = mkFloat x := if_neg (show ¬ has P_FLOAT P_PTR_STK = true by decide)
  have h : kindOf w (mkFloat x) = .float := by
    rw [kindOf_eq]
    dsimp only
    rw [hd, if_neg (show kind (mkFloat x).props ≠ 4 from (by decide : kind P_FLOAT ≠ 4)),
      if_pos (show kind (mkFloat x).props = 8 from (by decide : kind P_FLOAT = 8))]
  have := Shows.float h
  rw [Numbers.shown_eq, hd] at this
  exact this

theorem shows_int (w : World) (v : Word) : Shows w (mkInt v) (.int v.toInt) := by
  have hd : deref w.mem (mkInt v) = mkInt v := if_neg (show ¬ has P_INT P_PTR_STK = true by decide)
  have h : kindOf w (mkInt v) = .int := by
    rw [kindOf_eq]
    dsimp only
    rw [hd, if_pos (show kind (mkInt v).props = 4 from (by decide : kind P_INT = 4))]
  have := Shows.int h
  rw [Numbers.shown_eq, hd] at this
  exact this

theorem max_commutes_violated : ¬ MaxCommutes := by
  intro h
  have := h demoWorld demoLib (mkFloat nan) (mkFloat 0) _ _ (shows_float _ _) trivial (shows_float _ _) trivial 0 nan
    (math_nan_violated _ _ _ _ _ _ _ _ (shows_float _ _) (.float _) (shows_float _ _) (.float _) (.inl (by decide))).1
    (math_nan_violated _ _ _ _ _ _ _ _ (shows_float _ _) (.float _) (shows_float _ _) (.float _) (.inr (by decide))).1
  exact absurd this (by decide)

theorem floor_int_violated : ¬ FloorOfInt := by
  intro h
  obtain ⟨r, h1, h2⟩ := h demoWorld demoLib (mkInt 9007199254740993) _ (shows_int _ _)
  have : call demoWorld demoLib .floor [mkInt 9007199254740993] = .ok 0x4340000000000000 := by decide +kernel
  rw [this] at h1
  injection h1 with h1
  subst h1
  exact absurd h2.2 (by decide +kernel)

/-! ### C136: single precision -/

/-- The full property: whatever `powf`, `sinf` and `cosf` are, a number to the power of one is that number, where they say so. -/
def PowOne : Prop := ∀ (L : Lib), (∀ x, IsSingle x → L.powf x (ofInt 1) = x) → ∀ (w : World) (s t : Stk) (x : Word),
  Shows w s (.float x) → Finite x → Shows w t (.int 1) → call w L .pow [s, t] = .ok x

theorem denotes_one : Denotes (.int 1) (ofInt 1) := by
  refine .int 1 _ (by decide) ?_
  obtain ⟨f, g, m⟩ := ofInt_exact (n := 1) (by decide)
  exact ⟨f.1, f.2, g, by rw [m]; simp⟩

/-- For every C library: `sin`, `cos` and `pow` give single precision numbers; on arguments that are such numbers they give exactly
what the library gives; and other arguments are replaced by single precision numbers first, so that arguments that are
rounded to the same number have the same results. -/
theorem math_single_partial (w : World) (L : Lib) (s t : Stk) (a b : Arg) (x y : Word) (hs : Shows w s a) (hx : Denotes a x)
    (ht : Shows w t b) (hy : Denotes b y) :
    (∃ r, call w L .sin [s] = .ok r ∧ IsSingle r) ∧ (∃ r, call w L .cos [s] = .ok r ∧ IsSingle r) ∧
    (∃ r, call w L .pow [s, t] = .ok r ∧ IsSingle r) ∧
    (Finite x → IsSingle x → Finite (L.sinf x) → IsSingle (L.sinf x) → call w L .sin [s] = .ok (L.sinf x)) ∧
    (Finite x → IsSingle x → Finite (L.cosf x) → IsSingle (L.cosf x) → call w L .cos [s] = .ok (L.cosf x)) ∧
    (Finite x → IsSingle x → Finite y → IsSingle y → Finite (L.powf x y) → IsSingle (L.powf x y) →
      call w L .pow [s, t] = .ok (L.powf x y)) := by
  have fix : ∀ x, Finite x → IsSingle x → narrow x = x := by
    intro x hf hx
    obtain ⟨v, h1, h2⟩ := hx hf
    exact narrow_fin hf h1 h2
  refine ⟨⟨_, call_one rfl hs hx, narrow_single _⟩, ⟨_, call_one rfl hs hx, narrow_single _⟩,
    ⟨_, call_two rfl hs hx ht hy, narrow_single _⟩, ?_, ?_, ?_⟩
  · intro h1 h2 h3 h4
    rw [call_one rfl hs hx]
    rw [run_sin, fix x h1 h2, fix _ h3 h4]
  · intro h1 h2 h3 h4
    rw [call_one rfl hs hx]
    rw [run_cos, fix x h1 h2, fix _ h3 h4]
  · intro h1 h2 h3 h4 h5 h6
    rw [call_two rfl hs hx ht hy]
    rw [run_pow, fix x h1 h2, fix y h3 h4, fix _ h5 h6]

/-- `16777217` is no single precision number. -/
theorem not_single : ¬ IsSingle 0x4170000010000000 := by
  intro h
  obtain ⟨v, ⟨_, q, e, hv, hq⟩, hm⟩ := h ⟨by decide, by decide⟩
  have hm' : mag 0x4170000010000000 = 16777217 * 2 ^ 1074 := by decide +kernel
  rw [hm', hv, Nat.mul_assoc, ← Nat.pow_add] at hm
  by_cases hc : e + 925 ≤ 1074
  · have : q * 2 ^ (e + 925) < 16777217 * 2 ^ 1074 :=
      calc q * 2 ^ (e + 925) ≤ q * 2 ^ 1074 := Nat.mul_le_mul_left _ (Nat.pow_le_pow_right (by omega) hc)
        _ < 16777217 * 2 ^ 1074 := Nat.mul_lt_mul_of_pos_right (by omega) (Nat.two_pow_pos _)
    exact absurd hm (Nat.ne_of_gt this)
  · have e1 : e + 925 = (e + 925 - 1075) + 1 + 1074 := by omega
    rw [e1, Nat.pow_add, ← Nat.mul_assoc] at hm
    have := Nat.eq_of_mul_eq_mul_right (Nat.two_pow_pos _) hm
    rw [Nat.pow_succ, ← Nat.mul_assoc] at this
    omega

/-- Whatever the C library does, `Math::pow(16777217.0, 1)` is not `16777217`. -/
theorem pow_one_violated (w : World) (L : Lib) (s t : Stk) (hs : Shows w s (.float 0x4170000010000000)) (ht : Shows w t (.int 1)) :
    call w L .pow [s, t] ≠ .ok 0x4170000010000000 := by
  intro h
  obtain ⟨r, h1, h2⟩ := (math_single_partial w L s t _ _ _ _ hs (.float _) ht denotes_one).2.2.1
  rw [h1] at h
  injection h with h
  rw [h] at h2
  exact not_single h2

theorem pow_violated : ¬ PowOne := fun h =>
  pow_one_violated demoWorld demoLib (mkFloat 0x4170000010000000) (mkInt 1) (shows_float _ _) (shows_int _ 1)
    (h demoLib (fun _ _ => rfl) demoWorld _ _ _ (shows_float _ _) ⟨by decide, by decide⟩ (shows_int _ 1))

/-- `Math::sin` does not tell `16777216.0` and `16777217.0` apart, whatever `sinf` is. -/
theorem sin_same_violated (w : World) (L : Lib) (s t : Stk) (hs : Shows w s (.float 0x4170000000000000))
    (ht : Shows w t (.float 0x4170000010000000)) : call w L .sin [s] = call w L .sin [t] ∧ call w L .cos [s] = call w L .cos [t] := by
  have h : narrow 0x4170000010000000 = narrow 0x4170000000000000 := by decide +kernel
  rw [call_one rfl hs (.float _), call_one rfl ht (.float _), call_one rfl hs (.float _), call_one rfl ht (.float _)]
  rw [run_sin, run_sin, run_cos, run_cos, h]
  exact ⟨rfl, rfl⟩

/-! ### C137: random numbers -/

/-- The full property: `Math::random()` is at least 0 and less than 1, whatever `rand()` gives. -/
def RandomBelowOne : Prop := ∀ (w : World) (L : Lib), L.rand ≤ 2147483647 → ∃ x, call w L .random [] = .ok x ∧ Finite x ∧
  0 ≤ scaled x ∧ scaled x < 2 ^ 1074

theorem scale_facts (n r b P : Nat) (hp : 0 < P) (hle : n ≤ 2 ^ 54) (heq : n = 2 ^ 54 ↔ 2147483584 ≤ r) (hb30 : 2 ^ b ≤ 2 ^ 30)
    (hh : 2 * ((r * 2 ^ 23 : Nat) - (n : Nat) : Int).natAbs ≤ 2 ^ b) :
    0 ≤ ((n * P : Nat) : Int) ∧ ((n * P : Nat) : Int) ≤ 2 ^ 54 * (P : Int) ∧
    (((n * P : Nat) : Int) < 2 ^ 54 * (P : Int) ↔ r < 2147483584) ∧
    (((n * P : Nat) : Int) * 2 ^ 31 - (r : Int) * (2 ^ 54 * (P : Int))).natAbs ≤ 2 ^ 6 * (2 ^ 54 * P) := by
  have hd : ((n : Int) * 2 ^ 31 - r * 2 ^ 54).natAbs ≤ 2 ^ 60 := by omega
  have t1 : ((2 : Int) ^ 54 * (P : Int)) = ((2 ^ 54 * P : Nat) : Int) := by rw [Int.natCast_mul]; rfl
  refine ⟨Int.natCast_nonneg _, ?_, ?_, ?_⟩
  · rw [t1]
    exact Int.ofNat_le.2 (Nat.mul_le_mul_right _ hle)
  · rw [t1, Int.ofNat_lt, Nat.mul_lt_mul_right hp]
    omega
  · have t2 : ((n * P : Nat) : Int) * 2 ^ 31 - (r : Int) * (2 ^ 54 * (P : Int)) = ((n : Int) * 2 ^ 31 - r * 2 ^ 54) * P := by
      rw [Int.sub_mul, Int.natCast_mul, Int.mul_right_comm, Int.mul_assoc (r : Int)]
    rw [t2, Int.natAbs_mul, Int.natAbs_natCast, ← Nat.mul_assoc]
    exact Nat.mul_le_mul_right _ hd

/-- It is never negative and never above 1; it is less than 1 unless `rand()` gives one of its 64 greatest values; and it differs
from `rand() / 2^31` by at most `2^-25`. -/
theorem random_range_partial (w : World) (L : Lib) (h : L.rand ≤ 2147483647) : ∃ x, call w L .random [] = .ok x ∧ Finite x ∧
    0 ≤ scaled x ∧ scaled x ≤ 2 ^ 1074 ∧ (scaled x < 2 ^ 1074 ↔ L.rand < 2147483584) ∧
    (scaled x * 2 ^ 31 - L.rand * 2 ^ 1074).natAbs ≤ 2 ^ 6 * 2 ^ 1074 := by
  refine ⟨random L.rand, rfl, ?_⟩
  generalize L.rand = r at *
  by_cases h0 : r = 0
  · rw [h0, random_zero]
    refine ⟨⟨by decide, by decide⟩, by decide +kernel, by decide +kernel, ?_, by decide +kernel⟩
    exact ⟨fun _ => by decide, fun _ => by decide +kernel⟩
  · obtain ⟨q, b, hb, hq, hf, hs, hm, hh, hi⟩ := random_spec h0 h
    have hm' : mag (random r) = q * 2 ^ b * 2 ^ 1020 := by
      rw [hm, Nat.pow_add 2 b 95, ← Nat.mul_assoc, Nat.mul_assoc (q * 2 ^ b), ← Nat.pow_add]
    have hle : q * 2 ^ b ≤ 2 ^ 54 :=
      calc q * 2 ^ b ≤ 2 ^ 24 * 2 ^ 30 := Nat.mul_le_mul hq (Nat.pow_le_pow_right (by omega) hb)
        _ = 2 ^ 54 := by decide
    have heq : q * 2 ^ b = 2 ^ 54 ↔ 2147483584 ≤ r := by
      rw [← hi]
      constructor
      · intro h
        have hb' : b = 30 := by
          apply Classical.byContradiction
          intro hn
          have : q * 2 ^ b ≤ 2 ^ 24 * 2 ^ 29 := Nat.mul_le_mul hq (Nat.pow_le_pow_right (by omega) (by omega))
          omega
        subst hb'
        exact ⟨by omega, rfl⟩
      · rintro ⟨rfl, rfl⟩
        decide
    have hb30 : 2 ^ b ≤ 2 ^ 30 := Nat.pow_le_pow_right (by omega) hb
    rw [scaled_pos hs, hm']
    generalize q * 2 ^ b = n at *
    have e : (2 : Int) ^ 1074 = 2 ^ 54 * ((2 ^ 1020 : Nat) : Int) := by decide +kernel
    have e' : (2 : Nat) ^ 1074 = 2 ^ 54 * 2 ^ 1020 := by decide +kernel
    rw [e, e']
    have hp : 0 < 2 ^ 1020 := Nat.two_pow_pos _
    generalize 2 ^ 1020 = P at *
    exact ⟨hf, scale_facts n r b P hp hle heq hb30 hh⟩

/-- The hypotheses are met: `-2.5` and `1`; the results are not trivial. -/
example : Shows demoWorld (mkFloat 0xC004000000000000) (.float 0xC004000000000000) ∧ Denotes (.float 0xC004000000000000) 0xC004000000000000 ∧
    Shows demoWorld (mkInt 1) (.int 1) ∧ Denotes (.int 1) (ofInt 1) ∧ Finite 0xC004000000000000 :=
  ⟨shows_float _ _, .float _, shows_int _ 1, denotes_one, by decide, by decide⟩

example : call demoWorld demoLib .max [mkFloat 0xC004000000000000, mkInt 1] = .ok (ofInt 1) ∧
    call demoWorld demoLib .round [mkFloat 0xC004000000000000] = .ok (ofInt (-3)) ∧
    call demoWorld { demoLib with rand := 2147483647 } .random [] = .ok (ofInt 1) ∧
    call demoWorld demoLib .max [mkInt 1] = .err ∧ call demoWorld demoLib .max [mkInt 1, mkUndefined] = .err := by
  decide +kernel

theorem random_violated : ¬ RandomBelowOne := by
  intro h
  obtain ⟨x, h1, _, _, h2⟩ := h demoWorld { demoLib with rand := 2147483647 } (by decide)
  obtain ⟨y, g1, _, _, _, g2, _⟩ := random_range_partial demoWorld { demoLib with rand := 2147483647 } (by decide)
  rw [h1] at g1
  injection g1 with g1
  subst g1
  exact absurd (g2.1 h2) (by decide)

end Verif.MathFns
