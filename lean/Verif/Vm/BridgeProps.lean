import Verif.Vm.BridgeArray
/-
C104 (values of the host arrive at scripts and come back), C105 (they stay), C106 (arrays in the hands of the host).
-/
namespace Verif.Vm.Bridge
open Verif Verif.Vm.Native

/-! ## C104 -/

/-- A value that `Plain` describes arrives at the script and comes back, by every way in and out that takes its type. -/
theorem roundtrip_partial (σ : St) (F : FloatOps) (a tmp : Word) (e : Entry) (x : Exit) (v : HVal) (w : Seen)
    (ha : a ≠ 0) (_hn : σ.obj a = none) (ht : tmp ≠ 0) (hw : hostSees σ.host v = some w) (hty : Typed σ v)
    (he : EntryTakes e v) (hx : ExitTakes x v) (hp : Plain σ.host x v) :
    ∃ s σ', give σ a tmp e v = .ok (s, σ') ∧ Has σ' s w ∧ take σ' F x s v.type = .ok w := by
  have main : Givable σ.host v →
      (x = .value ∨ x = .bound → v.type ≠ T_INT_PTR ∧ v.type ≠ T_FLOAT_PTR ∧ v.type ≠ T_BOOL_PTR) →
      (x = .bound → v.type ≠ T_STRING_PTR ∧ v.type ≠ T_CONST_CHAR_PTR) →
      (x = .parameter → v.type ≠ T_FLOAT ∧ v.type ≠ T_BOOL ∧ v.type ≠ T_STRING) →
      ∃ s σ', give σ a tmp e v = .ok (s, σ') ∧ Has σ' s w ∧ take σ' F x s v.type = .ok w := by
    intro hg h1 h2 h3
    obtain ⟨s, σ', hgv, hh, _⟩ := give_held ha ht hw hty he hg
    exact ⟨s, σ', hgv, held_has hh, held_exit hh x h1 h2 h3⟩
  cases v with
  | int n =>
    refine main trivial ?_ ?_ ?_ <;> intro _ <;>
      simp [HVal.type, T_INT, T_BOOL, T_FLOAT, T_STRING, T_INT_PTR, T_FLOAT_PTR, T_BOOL_PTR, T_STRING_PTR, T_CONST_CHAR_PTR]
  | float n =>
    refine main trivial ?_ ?_ ?_
    · intro _
      simp [HVal.type, T_INT, T_BOOL, T_FLOAT, T_STRING, T_INT_PTR, T_FLOAT_PTR, T_BOOL_PTR, T_STRING_PTR, T_CONST_CHAR_PTR]
    · intro _
      simp [HVal.type, T_INT, T_BOOL, T_FLOAT, T_STRING, T_INT_PTR, T_FLOAT_PTR, T_BOOL_PTR, T_STRING_PTR, T_CONST_CHAR_PTR]
    · intro h; subst h; exact absurd hx (by simp [ExitTakes])
  | bool b =>
    refine main trivial ?_ ?_ ?_
    · intro _
      simp [HVal.type, T_INT, T_BOOL, T_FLOAT, T_STRING, T_INT_PTR, T_FLOAT_PTR, T_BOOL_PTR, T_STRING_PTR, T_CONST_CHAR_PTR]
    · intro _
      simp [HVal.type, T_INT, T_BOOL, T_FLOAT, T_STRING, T_INT_PTR, T_FLOAT_PTR, T_BOOL_PTR, T_STRING_PTR, T_CONST_CHAR_PTR]
    · intro h; subst h; exact absurd hx (by simp [ExitTakes])
  | intPtr p =>
    refine main hp.1 ?_ ?_ ?_
    · intro h; rcases hp.2 with h' | h' <;> subst h' <;> simp at h
    · intro _
      simp [HVal.type, T_INT, T_BOOL, T_FLOAT, T_STRING, T_INT_PTR, T_FLOAT_PTR, T_BOOL_PTR, T_STRING_PTR, T_CONST_CHAR_PTR]
    · intro _
      simp [HVal.type, T_INT, T_BOOL, T_FLOAT, T_STRING, T_INT_PTR, T_FLOAT_PTR, T_BOOL_PTR, T_STRING_PTR, T_CONST_CHAR_PTR]
  | floatPtr p =>
    refine main hp.1 ?_ ?_ ?_
    · intro h; rcases hp.2 with h' | h' <;> subst h' <;> simp at h
    · intro _
      simp [HVal.type, T_INT, T_BOOL, T_FLOAT, T_STRING, T_INT_PTR, T_FLOAT_PTR, T_BOOL_PTR, T_STRING_PTR, T_CONST_CHAR_PTR]
    · intro _
      simp [HVal.type, T_INT, T_BOOL, T_FLOAT, T_STRING, T_INT_PTR, T_FLOAT_PTR, T_BOOL_PTR, T_STRING_PTR, T_CONST_CHAR_PTR]
  | boolPtr p =>
    refine main hp.1 ?_ ?_ ?_
    · intro h; rcases hp.2 with h' | h' <;> subst h' <;> simp at h
    · intro _
      simp [HVal.type, T_INT, T_BOOL, T_FLOAT, T_STRING, T_INT_PTR, T_FLOAT_PTR, T_BOOL_PTR, T_STRING_PTR, T_CONST_CHAR_PTR]
    · intro _
      simp [HVal.type, T_INT, T_BOOL, T_FLOAT, T_STRING, T_INT_PTR, T_FLOAT_PTR, T_BOOL_PTR, T_STRING_PTR, T_CONST_CHAR_PTR]
  | chars p =>
    refine main hp ?_ ?_ ?_
    · intro _
      simp [HVal.type, T_INT, T_BOOL, T_FLOAT, T_STRING, T_INT_PTR, T_FLOAT_PTR, T_BOOL_PTR, T_STRING_PTR, T_CONST_CHAR_PTR]
    · intro h; subst h; exact absurd hx (by simp [ExitTakes])
    · intro _
      simp [HVal.type, T_INT, T_BOOL, T_FLOAT, T_STRING, T_INT_PTR, T_FLOAT_PTR, T_BOOL_PTR, T_STRING_PTR, T_CONST_CHAR_PTR]
  | string t =>
    refine main hp ?_ ?_ ?_
    · intro _
      simp [HVal.type, T_INT, T_BOOL, T_FLOAT, T_STRING, T_INT_PTR, T_FLOAT_PTR, T_BOOL_PTR, T_STRING_PTR, T_CONST_CHAR_PTR]
    · intro _
      simp [HVal.type, T_INT, T_BOOL, T_FLOAT, T_STRING, T_INT_PTR, T_FLOAT_PTR, T_BOOL_PTR, T_STRING_PTR, T_CONST_CHAR_PTR]
    · intro h; subst h; exact absurd hx (by simp [ExitTakes])
  | stringPtr p =>
    have hp0 : p ≠ 0 := hp
    have hb : x ≠ .bound := by intro h; subst h; exact absurd hx (by simp [ExitTakes])
    simp only [hostSees, if_neg hp0] at hw
    cases hh : σ.host p with
    | none => simp [hh] at hw
    | some c =>
      cases c with
      | str t =>
        have hw' : w = .text t := by simpa [hh] using hw.symm
        subst hw'
        refine ⟨_, _, give_stringPtr σ a tmp p e hp0, ?_, ?_⟩
        · exact .shared a p { typeId := T_STRING_SO, strPtr := some p } t (by simp [St.setObj]) rfl rfl hh
        · exact take_stringPtr ha hb (by simp [St.setObj]) hh
      | _ => simp [hh] at hw
  | elem p =>
    obtain ⟨hp0, hpx, hps⟩ := hp
    simp only [hostSees, if_neg hp0] at hw
    cases hh : σ.host p with
    | none => simp [hh] at hw
    | some c =>
      cases c with
      | elem s =>
        have hw' : w = .elem s := by simpa [hh] using hw.symm
        subst hw'
        refine ⟨s, σ, ?_, .elem s, take_elem hpx (hps s hh)⟩
        have hp' : ¬ p = 0#64 := hp0
        cases e <;>
          simp [give, toStackElement, HVal.word, HVal.type, T_INT_PTR, T_VOID, T_INT, T_FLOAT, T_FLOAT_PTR, T_BOOL_PTR, T_BOOL,
            T_CONST_CHAR_PTR, T_STRING_PTR, T_STRING, T_STACK_ELEMENT, hp', hh]
      | _ => simp [hh] at hw
  | script t p =>
    have h20 : 20 ≤ t := hty.1
    refine main hp ?_ ?_ ?_ <;> intro _ <;>
      simp only [HVal.type, T_INT_PTR, T_FLOAT_PTR, T_BOOL_PTR, T_STRING_PTR, T_CONST_CHAR_PTR, T_FLOAT, T_BOOL, T_STRING] <;>
      omega
  | native t p =>
    have h27 : 27 ≤ t := hty
    refine main trivial ?_ ?_ ?_ <;> intro _ <;>
      simp only [HVal.type, T_INT_PTR, T_FLOAT_PTR, T_BOOL_PTR, T_STRING_PTR, T_CONST_CHAR_PTR, T_FLOAT, T_BOOL, T_STRING] <;>
      omega
  | other t p =>
    have hm : t ∈ [6, 14, 16, 17, 18, 19] := hty
    simp only [List.mem_cons, List.not_mem_nil, or_false] at hm
    refine main hp ?_ ?_ ?_ <;> intro _ <;>
      simp only [HVal.type, T_INT_PTR, T_FLOAT_PTR, T_BOOL_PTR, T_STRING_PTR, T_CONST_CHAR_PTR, T_FLOAT, T_BOOL, T_STRING] <;>
      omega

/-- A host with a text `C:\temp` at 1, an integer at 2, a `String` at 3, and a script array at 8. -/
def desk : St where
  host := fun p =>
    if p = 1 then some (.chars [67, 58, 92, 116, 101, 109, 112]) else if p = 2 then some (.int 7)
    else if p = 3 then some (.str [104, 105]) else none
  obj := fun p => if p = 8 then some { typeId := 24 } else none
  ext := fun _ _ => false
  linked := fun _ => none
  slot := fun _ => 0

/-- Some operations of floats, for the examples (conversions of integers are not used by them). -/
def anyFloats : FloatOps where
  add a _ := a
  sub a _ := a
  mul a _ := a
  div a _ := a
  fmod a _ := a
  neg a := a
  ofInt _ := 0
  eq a b := a == b
  lt _ _ := false
  le _ _ := false

/-- What becomes of the path at 1. -/
theorem give_path (e : Entry) : give desk 9 10 e (.chars 1) =
    .ok (⟨9, P_OBJECT⟩, desk.setObj 9 { typeId := T_STRING_SO, text := [67, 58, 9, 101, 109, 112] }) := by
  have h := textElement_own (σ := desk) (a := 9) (w := 1) (t := T_CONST_CHAR_PTR) (x := [67, 58, 92, 116, 101, 109, 112])
    (by decide) (by decide) rfl
  have hu : Str.unescapeChars [67, 58, 92, 116, 101, 109, 112] = [67, 58, 9, 101, 109, 112] := by
    simp [Str.unescapeChars]
  rw [hu] at h
  cases e <;> exact h

/-- Not every value comes back: a text with a backslash does not. -/
theorem roundtrip_violated : ¬ RoundTrips := by
  intro h
  obtain ⟨s, σ', hg, _, ht⟩ := h desk anyFloats 9 10 .element .pointer (.chars 1)
    (.text [67, 58, 92, 116, 101, 109, 112]) (by decide) rfl (by decide) rfl trivial trivial trivial
  have hg' := give_path .element
  rw [hg'] at hg
  simp only [Out.ok.injEq, Prod.mk.injEq] at hg
  obtain ⟨h1, h2⟩ := hg
  subst h1; subst h2
  have hk : Held (desk.setObj 9 { typeId := T_STRING_SO, text := [67, 58, 9, 101, 109, 112] }) ⟨9, P_OBJECT⟩
      T_CONST_CHAR_PTR (.text [67, 58, 9, 101, 109, 112]) :=
    .text 9 { typeId := T_STRING_SO, text := [67, 58, 9, 101, 109, 112] } _ (by decide) rfl rfl rfl (.inl rfl)
  have := held_take hk false (by simp)
  have ht' : takeWith (desk.setObj 9 { typeId := T_STRING_SO, text := [67, 58, 9, 101, 109, 112] }) false ⟨9, P_OBJECT⟩
      T_CONST_CHAR_PTR = .ok (.text [67, 58, 92, 116, 101, 109, 112]) := ht
  rw [this] at ht'
  simp at ht'

/-- The path `C:\temp` that the host gives as characters arrives as `C:`, a tab and `emp`. -/
theorem roundtrip_backslash_violated :
    hostSees desk.host (.chars 1) = some (.text [67, 58, 92, 116, 101, 109, 112]) ∧
    ∃ s σ', give desk 9 10 .argument (.chars 1) = .ok (s, σ') ∧
      Has σ' s (.text [67, 58, 9, 101, 109, 112]) ∧ ¬ Has σ' s (.text [67, 58, 92, 116, 101, 109, 112]) := by
  refine ⟨rfl, ⟨9, P_OBJECT⟩, desk.setObj 9 { typeId := T_STRING_SO, text := [67, 58, 9, 101, 109, 112] },
    give_path .argument, .text 9 { typeId := T_STRING_SO, text := [67, 58, 9, 101, 109, 112] } _ rfl rfl rfl rfl, ?_⟩
  intro hh
  generalize hs : (⟨9, P_OBJECT⟩ : Stk) = s at hh
  cases hh with
  | text a o t alive str own txt =>
    have ha : 9 = a := congrArg Stk.value hs
    subst ha
    have : o = { typeId := T_STRING_SO, text := [67, 58, 9, 101, 109, 112] } := (Option.some.inj alive).symm
    subst this
    simp at txt
  | shared a p o t alive str ref txt =>
    have ha : 9 = a := congrArg Stk.value hs
    subst ha
    have : o = { typeId := T_STRING_SO, text := [67, 58, 9, 101, 109, 112] } := (Option.some.inj alive).symm
    subst this
    simp at ref

/-- A null `zs_int *` arrives as undefined, and then it is an error to take it as what it was. -/
theorem roundtrip_null_violated :
    give desk 9 10 .element (.intPtr 0) = .ok (⟨0, P_UNDEFINED⟩, desk) ∧
    take desk anyFloats .pointer ⟨0, P_UNDEFINED⟩ T_INT_PTR = .err :=
  ⟨rfl, rfl⟩

/-- A null `const char *` comes back as an empty text. -/
theorem roundtrip_null_text_violated : ∃ s σ', give desk 9 10 .element (.chars 0) = .ok (s, σ') ∧
    take σ' anyFloats .pointer s T_CONST_CHAR_PTR = .ok (.text []) :=
  ⟨⟨9, P_OBJECT⟩, desk.setObj 9 { typeId := T_STRING_SO }, rfl,
    held_take (.text 9 { typeId := T_STRING_SO } _ (by decide) rfl rfl rfl (.inl rfl)) false (by simp)⟩

/-- An integer taken as `zs_int *` from an element passed by value, or as the result of a bound function, is a pointer to a
variable that is gone. -/
theorem roundtrip_dangling_violated : give desk 9 10 .element (.intPtr 2) = .ok (⟨7, P_INT⟩, desk) ∧
    take desk anyFloats .value ⟨7, P_INT⟩ T_INT_PTR = .ub ∧ take desk anyFloats .bound ⟨7, P_INT⟩ T_INT_PTR = .ub ∧
    take desk anyFloats .pointer ⟨7, P_INT⟩ T_INT_PTR = .ok (.int 7) :=
  ⟨rfl, rfl, rfl, rfl⟩

/-- A function of the script that the host has (`ScriptFunction *`) cannot be given back to the script. -/
theorem roundtrip_function_violated (p : Word) (hp : p ≠ 0) (e : Entry) :
    give desk 9 10 e (.other T_SCRIPT_FUNCTION p) = .err := by
  have h : objectElement desk 9 p T_SCRIPT_FUNCTION = .err := by
    simp [objectElement, show ¬ p = 0#64 from hp, T_SCRIPT_FUNCTION, T_CLASS_SO]
  cases e <;> exact h

/-- The hypotheses of `roundtrip_partial` are met: a `String` by its address, as argument of a bound function and as
parameter of a native one. -/
example : ∃ s σ', give desk 9 10 .argument (.stringPtr 3) = .ok (s, σ') ∧ Has σ' s (.text [104, 105]) ∧
    take σ' anyFloats .parameter s T_STRING_PTR = .ok (.text [104, 105]) :=
  roundtrip_partial desk anyFloats 9 10 .argument .parameter (.stringPtr 3) (.text [104, 105]) (by decide) rfl (by decide)
    rfl trivial trivial trivial (by decide : (3 : Word) ≠ 0)

/-- And an object of a registered class (type 30). -/
example : ∃ s σ', give desk 9 10 .result (.native 30 77) = .ok (s, σ') ∧ Has σ' s (.object 77) ∧
    take σ' anyFloats .bound s 30 = .ok (.object 77) :=
  roundtrip_partial desk anyFloats 9 10 .result .bound (.native 30 77) (.object 77) (by decide) rfl (by decide)
    rfl (by decide : (27 : Nat) ≤ 30) trivial trivial trivial

/-! ## C105 -/

/-- What is given, unless it is a `String` by its address, stays whatever the host does with its memory. -/
theorem given_stays_partial (σ : St) (a tmp : Word) (e : Entry) (v : HVal) (w : Seen) (s : Stk) (σ' : St)
    (_ha : a ≠ 0) (_hn : σ.obj a = none) (ht : tmp ≠ 0) (hw : hostSees σ.host v = some w) (_hty : Typed σ v)
    (hg : give σ a tmp e v = .ok (s, σ')) (hh : Has σ' s w) (hv : ∀ p, v = .stringPtr p → p = 0)
    (h : Word → Option Cell) : Has { σ' with host := h } s w := by
  cases hh with
  | int w => exact .int w
  | float w => exact .float w
  | truth b => exact .truth b
  | undefined => exact .undefined
  | null => exact .null
  | text q o t alive str own txt => exact .text q o t alive str own txt
  | script q o alive => exact .script q o alive
  | native q p o alive cls obj => exact .native q p o alive cls obj
  | elem => exact .elem s
  | shared q p o t alive str ref txt =>
    exfalso
    have own : ∀ (r : Word) (ty : Nat) (x : List UInt8) (σ1 : St), r ≠ 0 → ty ≠ T_STRING_PTR → readText σ1 r ty = .ok x →
        ∀ s2 σ2, textElement σ1 a r ty = .ok (s2, σ2) → ∀ hst : Option Cell,
        (⟨q, 0x200⟩ : Stk) = s2 → σ' = σ2.setHost tmp hst ∨ σ' = σ2 → False := by
      intro r ty x σ1 hr hty' hrd s2 σ2 hte hst hs hσ
      rw [textElement_own hr hty' hrd] at hte
      simp only [Out.ok.injEq, Prod.mk.injEq] at hte
      obtain ⟨h1, h2⟩ := hte
      rw [← h1] at hs
      have hq : q = a := congrArg Stk.value hs
      have ho : o = { typeId := T_STRING_SO, text := Str.unescapeChars x } := by
        rcases hσ with hσ | hσ <;> rw [hσ, ← h2] at alive <;>
          simp [St.setHost, St.setObj, hq] at alive <;> exact alive.symm
      rw [ho] at ref
      simp at ref
    cases v with
    | chars p' =>
      simp only [hostSees] at hw
      by_cases hp0 : p' = 0
      · rw [if_pos hp0] at hw; simp at hw
      · rw [if_neg hp0] at hw
        cases hc : σ.host p' with
        | none => simp [hc] at hw
        | some c =>
          cases c with
          | chars x =>
            have hrd : readText σ p' T_CONST_CHAR_PTR = .ok x := by simp [readText, T_CONST_CHAR_PTR, T_STRING, hc]
            have hg' : textElement σ a p' T_CONST_CHAR_PTR = .ok (⟨q, 0x200⟩, σ') := by
              cases e <;> exact hg
            exact own p' T_CONST_CHAR_PTR x σ hp0 (by decide) hrd _ _ hg' none rfl (.inr rfl)
          | _ => simp [hc] at hw
    | string x =>
      cases e with
      | element => simp [give] at hg
      | argument => simp [give] at hg
      | result =>
        have hrd : readText (σ.setHost tmp (some (.str x))) tmp T_STRING = .ok x := by simp [readText, St.setHost]
        have hto : toStackElement (σ.setHost tmp (some (.str x))) a tmp T_STRING =
            textElement (σ.setHost tmp (some (.str x))) a tmp T_STRING := rfl
        have hte := textElement_own (a := a) ht (by decide : T_STRING ≠ T_STRING_PTR) hrd
        have hg2 := hg
        simp only [give, hto, hte, Out.bind, Out.ok.injEq, Prod.mk.injEq] at hg2
        exact own tmp T_STRING x _ ht (by decide) hrd _ _ hte (σ.host tmp) hg2.1.symm (.inl hg2.2.symm)
    | stringPtr p' =>
      have := hv p' rfl
      subst this
      simp [hostSees] at hw
    | int n => simp [hostSees] at hw
    | float n => simp [hostSees] at hw
    | bool b => simp [hostSees] at hw
    | intPtr p' =>
      simp only [hostSees] at hw
      split at hw
      · simp at hw
      · split at hw <;> simp at hw
    | floatPtr p' =>
      simp only [hostSees] at hw
      split at hw
      · simp at hw
      · split at hw <;> simp at hw
    | boolPtr p' =>
      simp only [hostSees] at hw
      split at hw
      · simp at hw
      · split at hw <;> simp at hw
    | elem p' =>
      simp only [hostSees] at hw
      split at hw
      · simp at hw
      · split at hw <;> simp at hw
    | script t' p' => simp only [hostSees] at hw; split at hw <;> simp at hw
    | native t' p' => simp only [hostSees] at hw; split at hw <;> simp at hw
    | other t' p' => simp only [hostSees] at hw; split at hw <;> simp at hw

/-- A `String` given by its address is the host's own: the script has its text of the moment as long as it lives, .. -/
theorem given_string_follows (σ : St) (a tmp p : Word) (e : Entry) (hp : p ≠ 0) :
    ∃ s σ', give σ a tmp e (.stringPtr p) = .ok (s, σ') ∧
      ∀ (h : Word → Option Cell) (t : List UInt8), h p = some (.str t) → Has { σ' with host := h } s (.text t) := by
  refine ⟨_, _, give_stringPtr σ a tmp p e hp, ?_⟩
  intro h t ht
  exact .shared a p { typeId := T_STRING_SO, strPtr := some p } t (by simp [St.setObj]) rfl rfl ht

/-- .. what the script writes into it is what the host then has (with escapes replaced), and nothing else of the host's
memory changes, .. -/
theorem given_string_written (σ : St) (a tmp p : Word) (e : Entry) (hp : p ≠ 0) (t x : List UInt8)
    (hh : σ.host p = some (.str t)) (hx : (92 : UInt8) ∉ x) :
    ∃ s σ' σ'', give σ a tmp e (.stringPtr p) = .ok (s, σ') ∧ setText σ' s.value x = .ok σ'' ∧
      σ''.host p = some (.str x) ∧ ∀ q, q ≠ p → σ''.host q = σ.host q := by
  refine ⟨_, _, (σ.setObj a { typeId := T_STRING_SO, strPtr := some p }).setHost p (some (.str x)),
    give_stringPtr σ a tmp p e hp, ?_, ?_, ?_⟩
  · have hx' : Str.unescapeChars x = x := Str.unescape_id hx
    simp [setText, St.setObj, hh, hx']
  · simp [St.setHost]
  · intro q hq
    simp [St.setHost, St.setObj, hq]

/-- .. and when the host destroys it, the script reads freed memory. -/
theorem given_string_freed_violated : ∃ s σ', give desk 9 10 .argument (.stringPtr 3) = .ok (s, σ') ∧
    textOf σ' s.value = .ok [104, 105] ∧ textOf (σ'.setHost 3 none) s.value = .ub :=
  ⟨_, _, give_stringPtr desk 9 10 3 .argument (by decide), rfl, rfl⟩

/-- So what a script was given does not always stay. -/
theorem given_stays_violated : ¬ Stays := by
  intro h
  have hg := give_stringPtr desk 9 10 3 .argument (by decide)
  have := h desk 9 10 .argument (.stringPtr 3) (.text [104, 105]) _ _ (by decide) rfl (by decide) rfl trivial hg
    (.shared 9 3 { typeId := T_STRING_SO, strPtr := some 3 } _ rfl rfl rfl rfl) (fun _ => none)
  generalize hs : (⟨9, P_OBJECT⟩ : Stk) = s at this
  cases this with
  | text a o t alive str own txt =>
    have ha : 9 = a := congrArg Stk.value hs
    subst ha
    have : o = { typeId := T_STRING_SO, strPtr := some 3 } := (Option.some.inj alive).symm
    subst this
    simp at own
  | shared a p o t alive str ref txt => simp at txt

/-- The hypotheses of `given_stays_partial` are met: the integer at 2, whatever the host writes there. -/
example (h : Word → Option Cell) : Has { desk with host := h } ⟨7, P_INT⟩ (.int 7) :=
  given_stays_partial desk 9 10 .element (.intPtr 2) (.int 7) ⟨7, P_INT⟩ desk (by decide) rfl (by decide) rfl trivial rfl
    (.int 7) (by simp) h

/-! ## C106 -/

/-- After every history of storable values, an array that was empty reads as the list of what was put: what was put last at
each index, and errors outside. -/
theorem array_holds_partial (σ : St) (os : List Op) (l : List (Nat × Seen)) (hf : Fresh σ os)
    (hp : ∀ v ∈ puts os, Typed σ v ∧ EntryTakes .element v ∧ Storable σ v) (hnd : (scripts (puts os)).Nodup)
    (hb : NoBackslash σ.host os) (hl : holds σ.host [] os = some l) :
    ∃ σ' arr, run σ [] os = .ok (σ', arr) ∧ Reads σ' arr l := by
  obtain ⟨σ', arr, hr, ha⟩ := run_held os σ [] [] l ⟨rfl, by simp⟩ hf hp hnd hb hl
  exact ⟨σ', arr, hr, allHeld_reads ha⟩

/-- A history with all kinds of puts: an integer, the array at 8 of the host, a text that later changes, a refused index. -/
def busy : List Op :=
  [.push 20 30 40 (.int 5), .push 21 30 40 (.script 24 8), .host 1 (some (.chars [104])), .push 22 30 40 (.chars 1),
    .host 1 none, .set 23 30 40 0 (.intPtr 2), .set 24 30 40 (-1) (.int 1), .host 2 (some (.int 9))]

/-- Its hypotheses hold (without the text of `desk` that has a backslash), and this is what the array reads as. -/
example : ∃ σ' arr, run (desk.setHost 1 none) [] busy = .ok (σ', arr) ∧
    Reads σ' arr [(5, .int 7), (24, .object 8), (7, .text [104])] := by
  refine array_holds_partial (desk.setHost 1 none) busy _ ⟨by simp [busy, news], ?_, by simp [busy, temps]⟩ ?_ (by simp [busy, puts, scripts]) ⟨?_, ?_⟩ rfl
  · intro a ha
    simp only [busy, news, List.mem_cons, List.not_mem_nil, or_false] at ha
    rcases ha with h | h | h | h | h <;> subst h <;> exact ⟨by decide, rfl⟩
  · intro v hv
    simp only [busy, puts, List.mem_cons, List.not_mem_nil, or_false] at hv
    rcases hv with h | h | h | h | h <;> subst h
    · exact ⟨trivial, trivial, trivial⟩
    · refine ⟨⟨by decide, by decide, fun _ => ⟨{ typeId := 24 }, rfl, rfl⟩⟩, trivial, by decide, ?_⟩
      intro o ho
      have : o = { typeId := 24 } := (Option.some.inj ho).symm
      subst this
      exact ⟨rfl, rfl⟩
    · exact ⟨trivial, trivial, (by decide : (1 : Word) ≠ 0)⟩
    · exact ⟨trivial, trivial, (by decide : (2 : Word) ≠ 0)⟩
    · exact ⟨trivial, trivial, trivial⟩
  · intro p t h
    simp only [St.setHost, desk] at h
    repeat' split at h <;> try simp at h
  · intro p t h
    simp [busy] at h
    rw [h.2]
    decide

/-- The host cannot put the same object into an array twice: the second time is an error, and the array stays as it is. -/
theorem array_twice_violated (i : Int) :
    ∃ σ1, push desk [] 20 30 40 (.script 24 8) = .ok (σ1, [⟨8, P_OBJECT⟩]) ∧
      push σ1 [⟨8, P_OBJECT⟩] 21 30 40 (.script 24 8) = .err ∧
      set σ1 [⟨8, P_OBJECT⟩] 21 30 40 i (.script 24 8) = .err := by
  refine ⟨desk.setObj 8 { typeId := 24, shared := true }, rfl, rfl, ?_⟩
  have h : giveShared (desk.setObj 8 { typeId := 24, shared := true }) 21 40 (.script 24 8) = .err := rfl
  unfold set
  by_cases hi : i ≥ ([⟨8, P_OBJECT⟩] : List Stk).length
  · rw [if_pos hi]
  · rw [if_neg hi, h]
    rfl

/-- So an array does not always read as what was put into it. -/
theorem array_holds_violated : ¬ ArrayHolds := by
  intro h
  obtain ⟨σ', arr, hr, hd⟩ := h desk [.push 20 30 40 (.script 24 8), .push 21 30 40 (.script 24 8)]
    [(24, .object 8), (24, .object 8)] ⟨by simp [news], by
      intro a ha
      simp only [news, List.mem_cons, List.not_mem_nil, or_false] at ha
      rcases ha with h | h <;> subst h <;> exact ⟨by decide, rfl⟩, by simp [temps]⟩
    (by
      intro v hv
      simp only [puts, List.mem_cons, List.not_mem_nil, or_false] at hv
      rcases hv with h | h <;> subst h <;>
        exact ⟨⟨by decide, by decide, fun _ => ⟨{ typeId := 24 }, rfl, rfl⟩⟩, trivial⟩) rfl
  have hr' : run desk [] [.push 20 30 40 (.script 24 8), .push 21 30 40 (.script 24 8)] =
      .ok (desk.setObj 8 { typeId := 24, shared := true }, [⟨8, P_OBJECT⟩]) := rfl
  rw [hr'] at hr
  simp only [Out.ok.injEq, Prod.mk.injEq] at hr
  have := hd.1
  rw [← hr.2] at this
  simp at this

end Verif.Vm.Bridge
