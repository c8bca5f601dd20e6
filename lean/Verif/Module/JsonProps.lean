import Verif.Module.JsonWrite
import Verif.Module.JsonGraph
import Verif.Module.JsonRead
import Verif.Base.FloatTextProps
/-
C47 (JSON round trip), C48 (serialised text is JSON), C49 (cyclic structures), C64 (deserialising is defined),
C65 (JSON texts are accepted).
-/
namespace Verif.Json
open Verif.Str (Bytes unescapeChars)
open Verif.Vm (Word)

/-! ### The conversions of the engine -/

/-- `Integer::toString`, `Float::toString`, `Float::parse` as modelled in `Base`. -/
def num : Num Word where
  intText i := match Integer.toString 65 i [] with | some (.ok t) => t | _ => []
  fltText := FloatText.toText
  parse := FloatText.parse

theorem num_null : num.parse [110, 117, 108, 108] = none := by decide +kernel

theorem digits_of {l : Bytes} (h : Integer.IsDec l) : Digits l := h

/-- The text of every finite float is a JSON number. -/
theorem num_float {w : Word} (h : FloatText.Finite w) : IsNumber (num.fltText w) := by
  obtain ⟨ip, fp, e, h1, h2, _, h3, _, _⟩ := FloatText.toText_value h
  refine ⟨if Vm.Ieee.neg? w then [45] else [], ip, 46 :: fp, [], ?_, ?_, ?_, Or.inr ⟨fp, h3, rfl⟩, Or.inl rfl⟩
  · show FloatText.toText w = _
    rw [e, List.append_nil]
  · cases Vm.Ieee.neg? w
    · exact Or.inl rfl
    · exact Or.inr rfl
  · rcases h2 with h2 | h2
    · exact Or.inl h2
    · exact Or.inr ⟨h1, h2⟩

/-- The text of an integer below 6755399441055749 in absolute value is a JSON number. -/
theorem num_int {i : Int} (h : i.natAbs < 6755399441055749) : IsNumber (num.intText i) := by
  have e : num.intText i = Integer.intText i := by
    show (match Integer.toString 65 i [] with | some (.ok t) => t | _ => []) = _
    rw [Integer.toString_exact i h 65 (by omega)]
  obtain ⟨d1, _, d3⟩ := Integer.decText_spec i.natAbs
  refine ⟨if i < 0 then [45] else [], Integer.decText i.natAbs, [], [], ?_, ?_, ?_, Or.inl rfl, Or.inl rfl⟩
  · rw [e]
    unfold Integer.intText
    simp only [List.append_nil]
    split <;> rfl
  · split
    · exact Or.inr rfl
    · exact Or.inl rfl
  · by_cases h0 : i.natAbs = 0
    · left; rw [h0, Integer.decText]; rfl
    · exact Or.inr ⟨d1, d3 h0⟩

theorem digitLoop_len : ∀ (f n : Nat) (d : Bytes), Integer.digitLoop f n = some d → d.length ≤ f
  | 0, _, _, h => by cases h
  | f + 1, n, d, h => by
    unfold Integer.digitLoop at h
    split at h
    · cases hd : Integer.digitLoop f (Integer.mulTenth n) with
      | none => rw [hd] at h; cases h
      | some d' =>
        rw [hd] at h
        simp only [Option.map_some, Option.some.injEq] at h
        have := digitLoop_len f _ d' hd
        rw [← h]; simp; omega
    · injection h with h; rw [← h]; simp

theorem num_int_short (i : Int) : (num.intText i).length ≤ 1023 := by
  show (match Integer.toString 65 i [] with | some (.ok t) => t | _ => []).length ≤ _
  unfold Integer.toString
  by_cases hm : i = Integer.INT_MIN
  · rw [if_pos hm]; exact Nat.zero_le _
  · rw [if_neg hm]
    simp only [List.map_nil, Integer.padFormat]
    by_cases h0 : i.natAbs ≠ 0
    · rw [if_pos h0]
      cases hd : Integer.digitLoop 65 i.natAbs with
      | none => exact Nat.zero_le _
      | some d =>
        have := digitLoop_len _ _ _ hd
        simp only [Option.map_some, Integer.reverse_eq]
        split
        · simp only [List.length_cons, List.length_reverse]; omega
        · simp only [List.length_reverse]; omega
    · rw [if_neg h0]
      simp only [Option.map_some, Integer.reverse_eq]
      split <;> simp

theorem num_float_short (w : Word) : (num.fltText w).length ≤ 1023 := by
  show (FloatText.toText w).length ≤ _
  by_cases h : FloatText.Finite w
  · obtain ⟨ip, fp, e, _, _, h1, _, h2, _⟩ := FloatText.toText_value h
    rw [e]
    simp only [List.length_append, List.length_cons]
    have : (if Vm.Ieee.neg? w = true then [(45 : UInt8)] else []).length ≤ 1 := by split <;> simp
    omega
  · unfold FloatText.toText
    have : (if Vm.Ieee.neg? w = true then [(45 : UInt8)] else []).length ≤ 1 := by split <;> simp
    rw [List.length_append]
    by_cases h1 : Vm.Ieee.isNaN w = true
    · rw [if_pos h1]; simp; omega
    · rw [if_neg h1]
      by_cases h2 : Vm.Ieee.isInf w = true
      · rw [if_pos h2]; simp; omega
      · exact absurd ⟨by simpa using h1, by simpa using h2⟩ h

mutual
theorem num_short : ∀ (v : V Word), Short (jv num v)
  | .undef => by rw [jv]; trivial
  | .null => by rw [jv]; trivial
  | .bool _ => by rw [jv]; trivial
  | .int i => by rw [jv]; exact num_int_short i
  | .float f => by rw [jv]; exact num_float_short f
  | .str _ => by rw [jv]; trivial
  | .fn => by rw [jv]; trivial
  | .arr l => by rw [jv, Short]; exact num_shortL l
  | .obj fs bs => by rw [jv, Short]; exact num_shortF fs (jms num bs) (by have := num_shortF bs [] trivial; simpa using this)
theorem num_shortL : ∀ (l : List (V Word)), Shorts (jvs num l)
  | [] => by rw [jvs]; trivial
  | v :: l => by rw [jvs, Shorts]; exact ⟨num_short v, num_shortL l⟩
theorem num_shortF : ∀ (l : List (Bytes × V Word)) (r : List (Bytes × JVal)), ShortMs r → ShortMs (jms num l ++ r)
  | [], r, h => by rw [jms]; exact h
  | (x, v) :: l, r, h => by
    by_cases hv : v = .fn
    · subst hv; rw [jms]; exact num_shortF l r h
    · rw [jms_cons hv, List.cons_append, ShortMs]; exact ⟨num_short v, num_shortF l r h⟩
end

/-! ### C48 -/

mutual
/-- What the property is about: no function; an object has distinct names. -/
def Data {F : Type} : V F → Prop
  | .fn => False
  | .arr l => DataL l
  | .obj fs bs => DataF fs ∧ DataF bs ∧ ((fs ++ bs).map Prod.fst).Nodup
  | _ => True
def DataL {F : Type} : List (V F) → Prop
  | [] => True
  | v :: l => Data v ∧ DataL l
def DataF {F : Type} : List (Bytes × V F) → Prop
  | [] => True
  | (_, v) :: l => Data v ∧ DataF l
end

/-- The full property: the text of a value is a JSON text. -/
def TextIsJson {F : Type} (N : Num F) : Prop := ∀ (fmt : Bool) (v : V F), Data v → ∃ j, Text (serialize N fmt v) j

/-- The text of a plain value is a JSON text, and it is the text of that value: with `null` for `undefined`, and without
the functions in objects. -/
theorem text_is_json_partial {F : Type} (N : Num F) (fmt : Bool) (v : V F) (h : Plain N v) : Text (serialize N fmt v) (jv N v) := by
  unfold serialize
  have he := write_easy N fmt v 0 h
  rw [unescape_id _ fun c hc => (he c hc).1]
  have := Text.mk ws_nil (write_value N fmt v 0 h) ws_nil
  simpa using this

/-- No JSON text begins with `"` `"` `"`. -/
theorem no_three_quotes : ¬ ∃ j, Text [34, 34, 34] j := by
  rintro ⟨j, h⟩
  generalize ht : ([34, 34, 34] : Bytes) = t at h
  cases h with
  | @mk a t b v ha hv hb =>
    cases a with
    | cons c a =>
      simp only [List.cons_append, List.cons.injEq] at ht
      have := ha c (by simp)
      rw [← ht.1] at this
      revert this; decide
    | nil =>
      rw [List.nil_append] at ht
      cases hv with
      | null => simp at ht
      | tru => simp at ht
      | fls => simp at ht
      | num h =>
        obtain ⟨c, r, e, hc, _⟩ := number_chars h
        rw [e] at ht
        simp only [List.cons_append, List.cons.injEq] at ht
        rw [← ht.1] at hc
        revert hc; decide
      | arr0 => simp at ht
      | arr => simp at ht
      | obj0 => simp at ht
      | obj => simp at ht
      | @str k x hk =>
        simp only [List.cons_append, List.append_assoc, List.cons.injEq, true_and] at ht
        cases hk with
        | nil =>
          simp only [List.nil_append, List.cons.injEq, true_and] at ht
          have := hb 34 (by rw [← ht]; simp)
          revert this; decide
        | plain h1 h2 h3 _ =>
          simp only [List.cons_append, List.cons.injEq] at ht
          exact h2 ht.1.symm
        | esc _ _ =>
          simp only [List.cons_append, List.cons.injEq] at ht
          exact absurd ht.1 (by decide)

/-- The text of the string `"` is `"""`. -/
theorem text_is_json_violated {F : Type} (N : Num F) : ¬ TextIsJson N := by
  intro h
  obtain ⟨j, hj⟩ := h false (.str [34]) trivial
  have e : serialize N false (.str [34]) = [34, 34, 34] := by
    unfold serialize; rw [write]; rfl
  rw [e] at hj
  exact no_three_quotes ⟨j, hj⟩

/-- An object with a field of its class and one added by the script: no comma between the two groups,
`{"a":true"b":true}`. -/
theorem text_comma_violated {F : Type} (N : Num F) : serialize N false (.obj [([97], .bool true)] [([98], .bool true)]) =
    [123, 34, 97, 34, 58, 116, 114, 117, 101, 34, 98, 34, 58, 116, 114, 117, 101, 125] := by
  unfold serialize; simp only [write, writeFields]; rfl

/-- A function in an array: `[true,]`. -/
theorem text_function_violated {F : Type} (N : Num F) : serialize N false (.arr [.bool true, .fn]) =
    [91, 116, 114, 117, 101, 44, 93] := by
  unfold serialize; simp only [write, writeElems]; rfl

/- An object of nested values meets the hypothesis. -/
example : Plain num (.obj [([97], .arr [.bool true, .float 0xC006000000000000#64, .undef, .null, .int (-12), .str [104, 105],
    .obj [] []]), ([102], .fn), ([98], .null)] []) := by
  simp only [Plain, PlainF, PlainL, PlainStr]
  refine ⟨⟨by decide, ⟨trivial, num_float ⟨by decide +kernel, by decide +kernel⟩, trivial, trivial, num_int (by decide), by decide,
    ⟨trivial, trivial, Or.inl (fun p hp => by cases hp)⟩, trivial⟩, by decide, trivial, trivial⟩, trivial,
    Or.inr (fun p hp => by cases hp)⟩

/-! ### C65 -/

/-- The full property: a JSON text is accepted and gives the value it stands for. -/
def Accepts {F : Type} (N : Num F) : Prop := ∀ (t : Bytes) (j : JVal), Text t j → deserialize N t = R.ok (toV N j)

/-- A JSON text without backslash and carriage return, and without numbers of more than 1023 bytes, is accepted and gives
the value it stands for. -/
theorem accepts_partial {F : Type} (N : Num F) (hN : N.parse [110, 117, 108, 108] = none) {t : Bytes} {j : JVal}
    (h : Text t j) (he : Easy t) (hs : Short j) : deserialize N t = R.ok (toV N j) := by
  unfold deserialize
  rw [unescape_id _ fun c hc => (he c hc).1]
  cases h with
  | @mk a t b v ha hv hb =>
    obtain ⟨e1, e23⟩ := easy_append.1 he
    obtain ⟨e2, e3⟩ := easy_append.1 e23
    obtain ⟨b', _, _, hr⟩ := accept_value N hN hv e2 hs (fuel (a ++ (t ++ b))) a b [] (bl_of ha e1) (bl_of hb e3) (Or.inl rfl)
      (by unfold fuel; simp only [List.append_nil]; omega)
    rw [List.append_nil] at hr
    rw [hr]
    rfl

/-- `"a\nb"` (with the escape of JSON) is refused. -/
theorem accepts_violated {F : Type} (N : Num F) : ¬ Accepts N := by
  intro h
  have ht : Text [34, 97, 92, 110, 98, 34] (.str [97, 10, 98]) :=
    Text.mk (a := []) (t := [34, 97, 92, 110, 98, 34]) (b := []) ws_nil
      (Value.str (t := [97, 92, 110, 98]) (.plain (by decide) (by decide) (by decide)
        (.esc (by decide) (.plain (by decide) (by decide) (by decide) .nil)))) ws_nil
  have := h _ _ ht
  have e : deserialize N [34, 97, 92, 110, 98, 34] = R.err := by rfl
  rw [e] at this
  cases this

/-- `[1\r ]`: a carriage return before a blank is refused. -/
theorem accepts_cr_violated : (∃ j, Text [91, 49, 13, 32, 93] j) ∧
    (match deserialize num [91, 49, 13, 32, 93] with | some .err => true | _ => false) = true := by
  refine ⟨⟨.arr [.num [49]], Text.mk (a := []) (t := [91, 49, 13, 32, 93]) (b := []) ws_nil (Value.arr (t := [49, 13, 32])
    (Elems.one (a := []) (t := [49]) (b := [13, 32]) ws_nil (.num ?_) ?_)) ws_nil⟩, by decide +kernel⟩
  · exact ⟨[], [49], [], [], rfl, Or.inl rfl, Or.inr ⟨⟨by simp, by decide⟩, by decide⟩, Or.inl rfl, Or.inl rfl⟩
  · intro c hc; revert c; decide

/-- The converse fails too: `[1,] x` is no JSON text and is accepted. -/
theorem accepts_more_violated : (match deserialize num [91, 49, 44, 93, 32, 120] with
    | some (.ok (.arr [.float f])) => f == Vm.Ieee.ofInt 1
    | _ => false) = true := by decide +kernel

/- A text with blanks, a nested array and an object meets the hypotheses. -/
example : Text [32, 91, 116, 114, 117, 101, 44, 32, 123, 34, 97, 34, 58, 49, 125, 10, 93] (.arr [.bool true, .obj [([97], .num [49])]]) ∧
    Easy [32, 91, 116, 114, 117, 101, 44, 32, 123, 34, 97, 34, 58, 49, 125, 10, 93] ∧
    Short (.arr [.bool true, .obj [([97], .num [49])]]) := by
  refine ⟨?_, by unfold Easy; decide, by simp [Short, Shorts, ShortMs]⟩
  have n1 : IsNumber [49] :=
    ⟨[], [49], [], [], rfl, Or.inl rfl, Or.inr ⟨⟨by simp, by decide⟩, by decide⟩, Or.inl rfl, Or.inl rfl⟩
  have o : Value [123, 34, 97, 34, 58, 49, 125] (.obj [([97], .num [49])]) :=
    Value.obj (t := [34, 97, 34, 58, 49]) (Members.one (a := []) (k := [97]) (b := []) (c := []) (t := [49]) (d := []) ws_nil
      (.plain (by decide) (by decide) (by decide) .nil) ws_nil ws_nil (.num n1) ws_nil)
  exact Text.mk (a := [32]) (b := []) (by unfold Ws; decide)
    (Value.arr (t := [116, 114, 117, 101, 44, 32, 123, 34, 97, 34, 58, 49, 125, 10])
      (Elems.more (a := []) (t := [116, 114, 117, 101]) (b := []) ws_nil .tru ws_nil
        (Elems.one (a := [32]) (b := [10]) (by unfold Ws; decide) o (by unfold Ws; decide)))) ws_nil

/-! ### C47 -/

/-- The full property: what is read from the text of a value is the value. -/
def RoundTrip {F : Type} (N : Num F) : Prop :=
  ∀ (fmt : Bool) (v : V F), Data v → deserialize N (serialize N fmt v) = R.ok v

/-- What is read from the text of a plain value: `null` became `undefined`, an integer the float of its text, a float what
its text is parsed to, functions in objects are gone, everything else is as it was. -/
theorem roundtrip_value_partial (fmt : Bool) (v : V Word) (h : Plain num v) :
    deserialize num (serialize num fmt v) = R.ok (toV num (jv num v)) := by
  have he := write_easy num fmt v 0 h
  have ht := text_is_json_partial num fmt v h
  refine accepts_partial num num_null ht ?_ (num_short v)
  unfold serialize
  rw [unescape_id _ fun c hc => (he c hc).1]
  exact he

/-- The same for any conversions of numbers. -/
theorem roundtrip_general {F : Type} (N : Num F) (hN : N.parse [110, 117, 108, 108] = none) (fmt : Bool) (v : V F)
    (h : Plain N v) (hs : Short (jv N v)) : deserialize N (serialize N fmt v) = R.ok (toV N (jv N v)) := by
  have he := write_easy N fmt v 0 h
  refine accepts_partial N hN (text_is_json_partial N fmt v h) ?_ hs
  unfold serialize
  rw [unescape_id _ fun c hc => (he c hc).1]
  exact he

/-- Plain values without `null` and integers, whose floats survive printing, come back as they were. -/
theorem roundtrip_partial (fmt : Bool) (v : V Word) (h : Plain num v) (hx : Exact num v) :
    deserialize num (serialize num fmt v) = R.ok v := by
  rw [roundtrip_value_partial fmt v h, exact_back num v hx]

/-- `null` comes back as `undefined`. -/
theorem roundtrip_null_violated : ¬ RoundTrip num := by
  intro h
  have := h false .null trivial
  rw [roundtrip_value_partial false .null trivial, jv, toV] at this
  cases this

/-- The integer 7 comes back as the float 7. -/
theorem roundtrip_int_violated : ¬ RoundTrip num := by
  intro h
  have := h false (.int 7) trivial
  rw [roundtrip_value_partial false (.int 7) (num_int (by decide)), jv, toV] at this
  cases hp : num.parse (num.intText 7) with
  | none => rw [hp] at this; cases this
  | some f => rw [hp] at this; cases this

/-- The float 0.1 comes back as another float. -/
theorem roundtrip_float_violated : ¬ RoundTrip num := by
  intro h
  have := h false (.float 0x3FB999999999999A#64) trivial
  rw [roundtrip_value_partial false (.float 0x3FB999999999999A#64)
    (num_float (w := 0x3FB999999999999A#64) ⟨by decide +kernel, by decide +kernel⟩), jv, toV] at this
  have e : num.parse (num.fltText 0x3FB999999999999A#64) = some 0x3FB99999A0000000#64 := by decide +kernel
  rw [e] at this
  injection this with this
  injection this with this
  injection this with this
  revert this
  decide

/-- The string `"` comes back empty. -/
theorem roundtrip_string_violated {F : Type} (N : Num F) : ¬ RoundTrip N := by
  intro h
  have := h false (.str [34]) trivial
  have e1 : serialize N false (.str [34]) = [34, 34, 34] := by
    unfold serialize; rw [write]; rfl
  have e2 : deserialize N [34, 34, 34] = R.ok (.str []) := by rfl
  rw [e1, e2] at this
  cases this

/- An object with an array of a boolean, the float -2.75, `undefined` and a string meets both hypotheses. -/
example : Plain num (.obj [([97], .arr [.bool true, .float 0xC006000000000000#64, .undef, .str [104, 105]]), ([98], .undef)] []) ∧
    Exact num (.obj [([97], .arr [.bool true, .float 0xC006000000000000#64, .undef, .str [104, 105]]), ([98], .undef)] []) := by
  constructor
  · simp only [Plain, PlainF, PlainL, PlainStr]
    exact ⟨⟨by decide, ⟨trivial, num_float ⟨by decide +kernel, by decide +kernel⟩, trivial, by decide, trivial⟩, by decide,
      trivial, trivial⟩, trivial, Or.inr (fun p hp => by cases hp)⟩
  · simp only [Exact, ExactF, ExactL]
    exact ⟨⟨⟨trivial, by decide +kernel, trivial, trivial, trivial⟩, trivial, trivial⟩, by decide, trivial⟩

/-! ### C64 -/

/-- The full property: every text gives a value or an error. -/
def Defined {F : Type} (N : Num F) : Prop := ∀ t : Bytes, (∃ v, deserialize N t = R.ok v) ∨ deserialize N t = R.err

/-- Deserialising ends on every text. -/
theorem deserialize_ends {F : Type} (N : Num F) (t : Bytes) : deserialize N t ≠ none := by
  unfold deserialize
  obtain ⟨o, ho, _⟩ := (read_done N (fuel (unescapeChars t))).1 (unescapeChars t) (by unfold fuel; omega)
  rw [ho]
  cases o <;> exact fun e => by cases e

/-- A text that, unescaped, has no slash and no run of more than 1023 bytes without blank, comma or closing bracket gives
a value or an error. -/
theorem defined_partial {F : Type} (N : Num F) (t : Bytes) (h : Readable (unescapeChars t)) :
    (∃ v, deserialize N t = R.ok v) ∨ deserialize N t = R.err := by
  unfold deserialize
  obtain ⟨o, ho, hu, _⟩ := (read_done N (fuel (unescapeChars t))).1 (unescapeChars t) (by unfold fuel; omega)
  rw [ho]
  cases o with
  | ok p => exact Or.inl ⟨p.1, rfl⟩
  | err => exact Or.inr rfl
  | ub => exact absurd rfl (hu h)

/-- A comment that is not closed is read beyond the end of the text. -/
theorem defined_comment_violated {F : Type} (N : Num F) : deserialize N [47, 42, 97] = R.ub := by rfl

/-- So is a number followed by `//` at the end. -/
theorem defined_line_comment_violated {F : Type} (N : Num F) : deserialize N [49, 47, 47] = R.ub := by rfl

theorem digits_token : ∀ (k n : Nat), k < n → advToEnd n (List.replicate k 49) = R.ok []
  | 0, n + 1, _ => by rfl
  | k + 1, n + 1, h => by
    have e : List.replicate (k + 1) (49 : UInt8) = 49 :: List.replicate k 49 := rfl
    rw [e]
    unfold advToEnd
    simp only [(not_start (c := 49) (s := List.replicate k 49) (by decide)).1, List.isEmpty_cons, Bool.false_eq_true, if_false]
    rw [bind_ok]
    simp only [(not_start (c := 49) (s := List.replicate k 49) (by decide)).2, Bool.false_eq_true, if_false]
    rw [if_neg (by decide)]
    exact digits_token k n (by omega)

/-- A number of 1024 digits or more overruns the buffer. -/
theorem defined_number_violated {F : Type} (N : Num F) (k : Nat) (hk : 1024 ≤ k) :
    deserialize N (List.replicate k 49) = R.ub := by
  obtain ⟨m, rfl⟩ : ∃ m, k = m + 5 := ⟨k - 5, by omega⟩
  unfold deserialize
  have hu : unescapeChars (List.replicate (m + 5) 49) = List.replicate (m + 5) 49 := by
    apply unescape_id
    intro c hc
    rw [List.mem_replicate] at hc
    rw [hc.2]; decide
  rw [hu]
  have hs : skip (List.replicate (m + 5) 49) = R.ok (List.replicate (m + 5) 49) :=
    skip_hard (hard_of (c := 49) (r := List.replicate (m + 4) 49) (by decide))
  unfold fuel
  unfold read
  rw [hs]
  have hv : readValue N (List.replicate (m + 5) 49) = R.ub := by
    unfold readValue
    rw [digits_token _ _ (by rw [List.length_replicate]; omega)]
    have h0 : (List.replicate (m + 5) (49 : UInt8)).head? = some 49 := rfl
    have h4 : (List.replicate (m + 5) (49 : UInt8)).take 4 = [49, 49, 49, 49] := rfl
    have h5 : (List.replicate (m + 5) (49 : UInt8)).take 5 = [49, 49, 49, 49, 49] := rfl
    rw [h0, h4, h5, if_neg (by decide), if_neg (by decide), if_neg (by decide)]
    simp only [R.bind, R.ok, List.length_replicate, List.length_nil, Nat.sub_zero]
    rw [if_neg (by omega), if_pos (by omega)]
  simp only [R.bind, R.ok]
  have h0 : (List.replicate (m + 5) (49 : UInt8)).head? = some 49 := rfl
  rw [h0, if_neg (by decide), if_neg (by decide), hv]
  rfl

theorem defined_violated {F : Type} (N : Num F) : ¬ Defined N := by
  intro h
  rcases h [47, 42, 97] with ⟨v, hv⟩ | hv
  · rw [defined_comment_violated] at hv; cases hv
  · rw [defined_comment_violated] at hv; cases hv

/- `{"a":[1, tru` meets the hypothesis; it gives an error. -/
example : Readable (unescapeChars [123, 34, 97, 34, 58, 91, 49, 44, 32, 116, 114, 117]) := by
  refine ⟨by unfold Clean; decide, ?_⟩
  intro pre tok post e _
  have := congrArg List.length e
  have h12 : (unescapeChars [123, 34, 97, 34, 58, 91, 49, 44, 32, 116, 114, 117]).length = 12 := by decide
  rw [h12] at this
  simp only [List.length_append] at this
  omega

/-! ### C49 -/

/-- The full property: serialising ends for every graph without dangling references. -/
def Terminates {F : Type} (N : Num F) : Prop :=
  ∀ (fmt strict : Bool) (h : Nat → Option (Node F)) (name : Bytes) (v : HV F), Valid h → Known h v →
    ∃ n, graphSerialize N fmt strict h name n v ≠ none

/-- Serialising a graph ends exactly if one cannot walk from the value for ever, except through the object one began with. -/
theorem serialize_ends_iff {F : Type} (N : Num F) (fmt strict : Bool) (h : Nat → Option (Node F)) (name : Bytes) (a : Nat)
    (hv : Valid h) (ha : h a ≠ none) :
    (∃ n, graphSerialize N fmt strict h name n (.ref a) ≠ none) ↔ ¬ Endless h a := by
  by_cases ho : IsObj h a
  · obtain ⟨fs, bs, hh⟩ := ho
    have ho : IsObj h a := ⟨fs, bs, hh⟩
    have hser : ∀ n, graphSerialize N fmt strict h name n (.ref a) =
        graphObject (graphWrite N fmt strict h (some (a, name)) n) fmt 0 fs bs := by
      intro n; unfold graphSerialize; simp only [hh]
    have top : ∀ b, IsTop h (some (a, name)) b ↔ IsObj h a ∧ b = a := by
      intro b
      constructor
      · rintro ⟨h1, n, e⟩
        injection e with e
        injection e with e1 _
        subst e1
        exact ⟨h1, rfl⟩
      · rintro ⟨h1, rfl⟩; exact ⟨h1, name, rfl⟩
    have known : ∀ u ∈ (Node.obj fs bs).vals, Known h u := by
      intro u hu c hc
      subst hc
      exact hv a c ⟨_, hh, hu⟩
    constructor
    · rintro ⟨n, hn⟩ ⟨p, p0, hp⟩
      rw [hser] at hn
      have s0 := hp 0
      rw [p0] at s0
      obtain ⟨⟨nd, hnd, hm⟩, hne⟩ := s0
      rw [hh] at hnd
      injection hnd with hnd
      subst hnd
      have hfin : ∀ u ∈ (Node.obj fs bs).vals, Fine (graphWrite N fmt strict h (some (a, name)) n (0 + 1) u) := fun u hu =>
        graph_fine N fmt strict hv _ n _ u (known u hu)
      have hw := object_all hfin hn _ hm (fun e => by cases e)
      have hacc := ends_acc N fmt strict hv n _ (p 1) (known _ hm _ rfl) (fun ht => hne ((top _).1 ht)) hw
      exact no_walk hacc (fun i => p (i + 1)) rfl fun i => ⟨(hp (i + 1)).1, fun ht => (hp (i + 1)).2 ((top _).1 ht)⟩
    · intro hne
      have kid : ∀ v ∈ (Node.obj fs bs).vals, Ends N fmt strict h (some (a, name)) v := by
        intro v hvm
        by_cases hr : ∃ b, v = .ref b
        · obtain ⟨b, rfl⟩ := hr
          by_cases hb : IsTop h (some (a, name)) b
          · obtain ⟨_, rfl⟩ := (top b).1 hb
            refine ⟨1, fun n hn ind => ?_⟩
            obtain ⟨m, rfl⟩ : ∃ m, n = m + 1 := ⟨n - 1, by omega⟩
            rw [write_top ho]; exact fun e => by cases e
          · apply acc_ends
            apply Classical.byContradiction
            intro hacc
            obtain ⟨p, p0, hp⟩ := walk_of_not_acc hacc
            refine hne ⟨fun i => match i with | 0 => a | i + 1 => p i, rfl, fun i => ?_⟩
            cases i with
            | zero =>
              show Edge h a (p 0) ∧ ¬ (IsObj h a ∧ p 0 = a)
              rw [p0]
              exact ⟨⟨_, hh, hvm⟩, fun hx => hb ((top b).2 hx)⟩
            | succ i => exact ⟨(hp i).1, fun hx => (hp i).2 ((top _).2 hx)⟩
        · refine ⟨1, fun n hn ind => ?_⟩
          obtain ⟨m, rfl⟩ : ∃ m, n = m + 1 := ⟨n - 1, by omega⟩
          obtain ⟨t, e⟩ := write_plain (N := N) (fmt := fmt) (strict := strict) (h := h) (top := some (a, name)) (v := v)
            (fun b e => hr ⟨b, e⟩) m ind
          rw [e]; exact fun e => by cases e
      obtain ⟨n0, hn0⟩ := all_end _ kid
      refine ⟨n0, ?_⟩
      rw [hser]
      exact object_some fun v hvm => hn0 n0 (Nat.le_refl _) v hvm _
  · have hser : ∀ n, graphSerialize N fmt strict h name n (.ref a) = graphWrite N fmt strict h none n 0 (.ref a) := by
      intro n
      unfold graphSerialize
      cases hh : h a with
      | none => exact absurd hh ha
      | some nd =>
        cases nd with
        | arr l => simp only [hh]
        | obj fs bs => exact absurd ⟨fs, bs, hh⟩ ho
    have nt : ∀ b, ¬ IsTop h none b := by rintro b ⟨_, _, e⟩; cases e
    constructor
    · rintro ⟨n, hn⟩ ⟨p, p0, hp⟩
      rw [hser] at hn
      exact no_walk (ends_acc N fmt strict hv n 0 a ha (nt a) hn) p p0 fun i => ⟨(hp i).1, nt _⟩
    · intro hne
      have hacc : Acc (Step h none) a := by
        apply Classical.byContradiction
        intro hacc
        obtain ⟨p, p0, hp⟩ := walk_of_not_acc hacc
        exact hne ⟨p, p0, fun i => ⟨(hp i).1, fun hx => ho hx.1⟩⟩
      obtain ⟨n0, h0⟩ := acc_ends N fmt strict hacc
      exact ⟨n0, by rw [hser]; exact h0 n0 (Nat.le_refl _) 0⟩

/-- So it ends for graphs without cycles, and for those whose cycles all go through the object one began with. -/
theorem terminates_partial {F : Type} (N : Num F) (fmt strict : Bool) (h : Nat → Option (Node F)) (name : Bytes) (a : Nat)
    (hv : Valid h) (ha : h a ≠ none) (rank : Nat → Nat)
    (hr : ∀ x y, Edge h x y → rank y < rank x ∨ (IsObj h a ∧ y = a)) :
    ∃ n, graphSerialize N fmt strict h name n (.ref a) ≠ none := by
  rw [serialize_ends_iff N fmt strict h name a hv ha]
  rintro ⟨p, _, hp⟩
  have dec : ∀ i, rank (p (i + 1)) < rank (p i) := by
    intro i
    rcases hr _ _ (hp i).1 with h1 | h1
    · exact h1
    · exact absurd h1 (hp i).2
  have : ∀ i, rank (p i) + i ≤ rank (p 0) := by
    intro i
    induction i with
    | zero => simp
    | succ i ih => have := dec i; omega
  have := this (rank (p 0) + 1)
  omega

/-- What is written is the text of the tree the graph stands for, with a text in place of the object one began with. -/
theorem graph_text {F : Type} (N : Num F) (fmt strict : Bool) (h : Nat → Option (Node F)) (name : Bytes) (a : Nat)
    (fs bs : List (Bytes × HV F)) (us vs : List (Bytes × V F)) (ha : h a = some (.obj fs bs))
    (h1 : TreeFs h (some (a, name)) fs us) (h2 : TreeFs h (some (a, name)) bs vs) :
    ∃ n0, ∀ n, n0 ≤ n → graphSerialize N fmt strict h name n (.ref a) = R.ok (write N fmt strict 0 (.obj us vs)) := by
  obtain ⟨n1, e1⟩ := treeFs_text N fmt strict h1
  obtain ⟨n2, e2⟩ := treeFs_text N fmt strict h2
  refine ⟨n1 + n2, fun n hn => ?_⟩
  unfold graphSerialize
  simp only [ha]
  unfold graphObject
  rw [e1 n (by omega), e2 n (by omega), bind_ok, bind_ok, write]

/-- The same for what is not an object. -/
theorem graph_text_other {F : Type} (N : Num F) (fmt strict : Bool) (h : Nat → Option (Node F)) (name : Bytes)
    (v : HV F) (t : V F) (hno : ∀ a, v = .ref a → ¬ IsObj h a) (ht : Tree h none v t) :
    ∃ n0, ∀ n, n0 ≤ n → graphSerialize N fmt strict h name n v = R.ok (write N fmt strict 0 t) := by
  obtain ⟨n0, e⟩ := tree_text N fmt strict ht
  refine ⟨n0, fun n hn => ?_⟩
  have : graphSerialize N fmt strict h name n v = graphWrite N fmt strict h none n 0 v := by
    unfold graphSerialize
    cases v with
    | ref a =>
      simp only
      cases hh : h a with
      | none => rfl
      | some nd =>
        cases nd with
        | arr l => rfl
        | obj fs bs => exact absurd ⟨fs, bs, hh⟩ (hno a rfl)
    | _ => rfl
  rw [this, e n hn]

/-- An array that contains itself. -/
def selfArray {F : Type} : Nat → Option (Node F) := fun a => if a = 0 then some (.arr [.ref 0]) else none

theorem terminates_violated {F : Type} (N : Num F) : ¬ Terminates N := by
  intro ht
  have hv : Valid (selfArray (F := F)) := by
    rintro a b ⟨nd, ha, hm⟩
    unfold selfArray at ha
    split at ha
    · injection ha with ha
      subst ha
      simp only [Node.vals, List.mem_singleton, HV.ref.injEq] at hm
      subst hm
      simp [selfArray]
    · cases ha
  have h0 : (selfArray (F := F)) 0 ≠ none := by simp [selfArray]
  obtain ⟨n, hn⟩ := ht false true selfArray [] (.ref 0) hv (fun a e => by injection e with e; subst e; exact h0)
  refine (serialize_ends_iff N false true selfArray [] 0 hv h0).1 ⟨n, hn⟩ ⟨fun _ => 0, rfl, fun i => ⟨⟨_, rfl, by simp [Node.vals]⟩, ?_⟩⟩
  rintro ⟨⟨fs, bs, e⟩, _⟩
  simp [selfArray] at e

/-- Two objects that refer to each other, inside a third one. -/
def twoObjects {F : Type} : Nat → Option (Node F)
  | 0 => some (.obj [([97], .ref 1)] [])
  | 1 => some (.obj [([98], .ref 2)] [])
  | 2 => some (.obj [([99], .ref 1)] [])
  | _ => none

theorem terminates_objects_violated {F : Type} (N : Num F) (fmt strict : Bool) (name : Bytes) (n : Nat) :
    graphSerialize N fmt strict twoObjects name n (.ref 0) = none := by
  have hv : Valid (twoObjects (F := F)) := by
    rintro a b ⟨nd, ha, hm⟩
    match a, ha with
    | 0, ha => injection ha with ha; subst ha; simp [Node.vals] at hm; subst hm; simp [twoObjects]
    | 1, ha => injection ha with ha; subst ha; simp [Node.vals] at hm; subst hm; simp [twoObjects]
    | 2, ha => injection ha with ha; subst ha; simp [Node.vals] at hm; subst hm; simp [twoObjects]
    | a + 3, ha => cases ha
  apply Classical.byContradiction
  intro hn
  refine (serialize_ends_iff N fmt strict twoObjects name 0 hv (by simp [twoObjects])).1 ⟨n, hn⟩
    ⟨fun i => if i = 0 then 0 else if i % 2 = 1 then 1 else 2, rfl, fun i => ?_⟩
  by_cases h0 : i = 0
  · subst h0
    exact ⟨⟨_, rfl, by simp [Node.vals]⟩, fun h => by simp at h⟩
  · by_cases h1 : i % 2 = 1
    · simp only [if_neg h0, if_pos h1, if_neg (show ¬ i + 1 = 0 by omega), if_neg (show ¬ (i + 1) % 2 = 1 by omega)]
      exact ⟨⟨_, rfl, by simp [Node.vals]⟩, fun h => by simp at h⟩
    · simp only [if_neg h0, if_neg h1, if_neg (show ¬ i + 1 = 0 by omega), if_pos (show (i + 1) % 2 = 1 by omega)]
      exact ⟨⟨_, rfl, by simp [Node.vals]⟩, fun h => by simp at h⟩

/- An object that contains itself in an array meets the hypotheses of `terminates_partial` (rank of the object 1, of the array
0); the text of the inner reference is `"ScriptObject@Object"`. -/
def selfObject : Nat → Option (Node Word)
  | 0 => some (.obj [([97], .ref 1)] [])
  | 1 => some (.arr [.ref 0, .bool true])
  | _ => none

example : Valid selfObject ∧ selfObject 0 ≠ none ∧
    (∀ x y, Edge selfObject x y → (fun a => if a = 0 then 1 else 0) y < (fun a => if a = 0 then 1 else 0) x ∨
      (IsObj selfObject 0 ∧ y = 0)) := by
  refine ⟨?_, by simp [selfObject], ?_⟩
  · rintro a b ⟨nd, ha, hm⟩
    match a, ha with
    | 0, ha => injection ha with ha; subst ha; simp [Node.vals] at hm; subst hm; simp [selfObject]
    | 1, ha => injection ha with ha; subst ha; simp [Node.vals] at hm; subst hm; simp [selfObject]
    | a + 2, ha => cases ha
  · rintro a b ⟨nd, ha, hm⟩
    match a, ha with
    | 0, ha => injection ha with ha; subst ha; simp [Node.vals] at hm; subst hm; left; decide
    | 1, ha => injection ha with ha; subst ha; simp [Node.vals] at hm; subst hm; right; exact ⟨⟨_, _, rfl⟩, rfl⟩
    | a + 2, ha => cases ha
example : TreeFs selfObject (some (0, [79])) [([97], .ref 1)] [([97], .arr [.str (selfText [79]), .bool true])] :=
  .cons (.arr rfl (.cons (.self rfl ⟨_, _, rfl⟩) (.cons (.bool true) .nil))) .nil

end Verif.Json
