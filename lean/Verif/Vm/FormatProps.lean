import Verif.Vm.FormatLemmas
/-
C102: formatted text. C103: formatting any text is defined.
-/
namespace Verif.FormatProps
open Verif Verif.Str Verif.Format Verif.FormatSpec

/-! ### C102 -/

/-- C102 in full: every format text is filled with its arguments; a last piece without `}` stands for itself. -/
def FormatFills : Prop :=
  ∀ (ps : List Piece) (tail : Bytes) (args : List Arg), (∀ p ∈ ps, p.Plain) → (125 : UInt8) ∉ tail →
    (∀ n, .int n ∈ args → Integer.IsInt n) →
    format (written ps ++ tail) args = some (.ok (meaning args ps ++ tail))

/-- C102 (partial): for numbers below 2^31 in the text, integers below 6755399441055749, and texts without backslash in them.
Missing: larger numbers and backslashes; see the counterexamples below. -/
theorem format_partial (ps : List Piece) (tail : Bytes) (args : List Arg) (hp : ∀ p ∈ ps, p.Plain) (ht : (125 : UInt8) ∉ tail)
    (hs : ∀ i w z, .arg i w z ∈ ps → i < 2 ^ 31 ∧ w.getD 0 < 2 ^ 31 ∧ z.getD 0 < 2 ^ 31)
    (hi : ∀ n, .int n ∈ args → n.natAbs < 6755399441055749)
    (hb : (92 : UInt8) ∉ written ps ++ tail ∧ (92 : UInt8) ∉ meaning args ps ++ tail) :
    format (written ps ++ tail) args = some (.ok (meaning args ps ++ tail)) := by
  simp only [format]
  rw [unescape_id hb.1]
  by_cases ha : args = []
  · subst ha
    rw [if_pos rfl, ← meaning_none]
    simp only [Option.map_some, Out.map]
    rw [unescape_id hb.2]
  · rw [if_neg ha, loop_pieces args (fun a h => by cases a with | int n => exact hi n h | text t => trivial) ht ps _
      (fun p h => ⟨hp p h, by cases p with | text t => trivial | arg i w z => exact hs i w z h⟩) (by omega)]
    simp only [Option.map_some, Out.map]
    rw [unescape_id hb.2]

/-- With backslashes, for a text that is escaped: the result is unescaped once more. -/
theorem format_escaped (ps : List Piece) (tail : Bytes) (args : List Arg) (hp : ∀ p ∈ ps, p.Plain) (ht : (125 : UInt8) ∉ tail)
    (hs : ∀ i w z, .arg i w z ∈ ps → i < 2 ^ 31 ∧ w.getD 0 < 2 ^ 31 ∧ z.getD 0 < 2 ^ 31)
    (hi : ∀ n, .int n ∈ args → n.natAbs < 6755399441055749) :
    format (escape (written ps ++ tail)) args = some (.ok (unescapeChars (meaning args ps ++ tail))) := by
  simp only [format]
  rw [unescapeChars_escape]
  by_cases ha : args = []
  · subst ha
    rw [if_pos rfl, ← meaning_none]
    rfl
  · rw [if_neg ha, loop_pieces args (fun a h => by cases a with | int n => exact hi n h | text t => trivial) ht ps _
      (fun p h => ⟨hp p h, by cases p with | text t => trivial | arg i w z => exact hs i w z h⟩) (by omega)]
    rfl

/-- The digits of a number below 10. -/
theorem digit_text {n : Nat} (h : n < 10) : Integer.decText n = [UInt8.ofNat (48 + n)] := by
  rw [Integer.decText, if_pos h]

/-- `String::format("a{1}{0,3:d2}{", -7, "xy")` is `axy-07{`. -/
example : format ([97, 123, 49, 125, 123, 48, 44, 51, 58, 100, 50, 125, 123]) [.int (-7), .text [120, 121]] =
    some (.ok [97, 120, 121, 45, 48, 55, 123]) := by
  have h := format_partial [.text [97], .arg 1 none none, .arg 0 (some 3) (some 2)] [123] [.int (-7), .text [120, 121]]
    (by simp [Piece.Plain]) (by decide) (by
      intro i w z h
      simp at h
      rcases h with ⟨rfl, rfl, rfl⟩ | ⟨rfl, rfl, rfl⟩ <;> decide) (by simp)
    (by simp [written, Piece.written, meaning, Piece.meaning, shown, padLeft, digit_text])
  simpa [written, Piece.written, meaning, Piece.meaning, shown, padLeft, digit_text] using h

/-- An argument with a backslash in it is changed: `String::format("{0}", s)` for `s` of the characters `\` `q` is empty. -/
theorem format_backslash_violated : format [123, 48, 125] [.text [92, 113]] = some (.ok []) := by decide +kernel

/-- `{4294967296}` is taken as `{0}`. -/
theorem format_index_violated :
    format [123, 52, 50, 57, 52, 57, 54, 55, 50, 57, 54, 125] [.text [120]] = some (.ok [120]) := by decide +kernel

/-- `{0:d2,3}`, zeros in front of the width, disappears. -/
theorem format_order_violated : format [97, 123, 48, 58, 100, 50, 44, 51, 125, 98] [.int 7] = some (.ok [97, 98]) := by decide +kernel

/-- The text `{"a":{0}}` cannot be filled: an error, whatever the argument. -/
theorem format_braces_violated (a : Arg) : format [123, 34, 97, 34, 58, 123, 48, 125, 125] [a] = some .err := by
  cases a <;> rfl

/-- C102 in full does not hold. -/
theorem format_fills_violated : ¬ FormatFills := by
  intro h
  have := h [.arg 0 none none] [] [.text [92, 113]] (by simp [Piece.Plain]) (by simp) (by simp)
  have hv := format_backslash_violated
  simp [written, Piece.written, meaning, Piece.meaning, shown, padLeft, digit_text] at this
  rw [hv] at this
  simp at this

/-! ### C103 -/

/-- C103 in full: formatting any text with any arguments comes to an end and is defined. -/
def FormatDefined : Prop :=
  ∀ (s : Bytes) (args : List Arg), (∀ n, .int n ∈ args → Integer.IsInt n) → ∃ o, format s args = some o ∧ o ≠ .ub

/-- Formatting comes to an end: the loop needs at most one turn more than there are characters. -/
theorem format_ends (s : Bytes) (args : List Arg) : ∃ o, format s args = some o := by
  simp only [format]
  by_cases ha : args = []
  · rw [if_pos ha]; exact ⟨_, rfl⟩
  · rw [if_neg ha]
    cases h : loop args ((unescapeChars s).length + 1) (unescapeChars s) with
    | none => exact absurd h (loop_ends args _ _ (by omega))
    | some o => exact ⟨_, rfl⟩

theorem unescape_length : ∀ (n : Nat) (l : Bytes), l.length ≤ n → (unescapeChars l).length ≤ l.length
  | 0, l, h => by
    have : l = [] := List.length_eq_zero_iff.1 (by omega)
    subst this; exact Nat.le_refl _
  | n + 1, [], _ => Nat.le_refl _
  | n + 1, [c], _ => by simp [unescapeChars]
  | n + 1, c :: e :: rest, h => by
    simp only [List.length_cons] at h
    have h1 := unescape_length n rest (by omega)
    have h2 := unescape_length n (e :: rest) (by simp only [List.length_cons]; omega)
    unfold unescapeChars
    simp only [List.length_cons] at h2 ⊢
    repeat' split
    all_goals first | (simp only [List.length_cons]; omega) | omega

/-- C103 (partial): for texts of at most 450 characters and integers other than the least. Missing: longer texts and the least
integer; see the counterexamples below. -/
theorem format_defined_partial (s : Bytes) (args : List Arg) (hs : s.length ≤ 450)
    (hi : ∀ n, .int n ∈ args → Integer.IsInt n ∧ n ≠ Integer.INT_MIN) : ∃ o, format s args = some o ∧ o ≠ .ub := by
  have hl := unescape_length _ s (Nat.le_refl _)
  simp only [format]
  by_cases ha : args = []
  · rw [if_pos ha]; exact ⟨_, rfl, by simp [Out.map]⟩
  · rw [if_neg ha]
    have hd := loop_defined args hi ((unescapeChars s).length + 1) (unescapeChars s) (by omega)
    cases h : loop args ((unescapeChars s).length + 1) (unescapeChars s) with
    | none => exact absurd h (loop_ends args _ _ (by omega))
    | some o =>
      rw [h] at hd
      refine ⟨_, rfl, ?_⟩
      cases o with
      | ok x => simp [Out.map]
      | err => simp [Out.map]
      | ub => exact absurd rfl hd

example : ∃ o, format [123, 120, 125] [.int 5] = some o ∧ o ≠ .ub :=
  format_defined_partial _ _ (by decide) (by intro n h; simp at h; subst h; simp [Integer.IsInt, Integer.INT_MIN, Integer.INT_MAX])

/-- 450 or more characters in braces that are no number overrun the buffer of the error message, whatever the arguments. -/
theorem format_long_violated (n : Nat) (hn : 450 ≤ n) (a : Arg) (as : List Arg) :
    format (123 :: List.replicate n 120 ++ [125]) (a :: as) = some .ub := by
  have hm : ∀ c : UInt8, c ≠ 120 → c ∉ List.replicate n (120 : UInt8) := fun c hc h => hc (List.eq_of_mem_replicate h)
  have hp : Integer.parse (List.replicate n 120) = none := by
    obtain ⟨m, rfl⟩ : ∃ m, n = m + 1 := ⟨n - 1, by omega⟩
    rw [List.replicate_succ]
    have : Integer.isInteger (120 :: List.replicate m 120) = .invalid := by
      obtain ⟨m, rfl⟩ : ∃ k, m = k + 1 := ⟨m - 1, by omega⟩
      rw [List.replicate_succ]
      rfl
    unfold Integer.parse
    rw [this]
  have hi : item (a :: as) (List.replicate n 120) = .ub := by
    simp only [item, parts]
    rw [cut_none (hm 58 (by decide)), cut_none (hm 44 (by decide))]
    simp only [hp, wrong, List.length_replicate]
    rw [if_neg (by omega)]
  simp only [format]
  rw [unescape_id (by simp), if_neg (by simp), loop]
  have h1 : cut 123 (123 :: List.replicate n 120 ++ [125]) = some ([], List.replicate n 120 ++ [125]) := rfl
  rw [h1]
  simp only
  rw [cut_at _ (hm 125 (by decide))]
  simp only [hi]
  rfl

/-- Formatting the least integer is undefined. -/
theorem format_least_violated : format [123, 48, 125] [.int Integer.INT_MIN] = some .ub := by decide +kernel

/-- C103 in full does not hold. -/
theorem format_defined_violated : ¬ FormatDefined := by
  intro h
  obtain ⟨o, e, hu⟩ := h [123, 48, 125] [.int Integer.INT_MIN] (by intro n h; simp at h; subst h; simp [Integer.IsInt, Integer.INT_MIN, Integer.INT_MAX])
  rw [format_least_violated] at e
  cases e
  exact hu rfl

end Verif.FormatProps
