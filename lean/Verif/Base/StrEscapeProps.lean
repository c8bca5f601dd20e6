import Verif.Base.StrEditProps
/-
C53: escape sequences in string literals.
-/
namespace Verif.Str
open Verif

/-- How one character is written inside a script string literal. -/
def escapeChar (c : UInt8) : Bytes :=
  if c = 10 then [92, 110]        -- newline: \n
  else if c = 9 then [92, 116]    -- tab: \t
  else if c = 92 then [92, 92]    -- backslash
  else if c = 34 then [92, 34]    -- double quote
  else if c = 39 then [92, 39]    -- quote
  else [c]

/-- The literal text of a string value. -/
def escape (l : Bytes) : Bytes := l.flatMap escapeChar

theorem unescape_plain {c : UInt8} (h : c ≠ 92) (r : Bytes) : unescapeChars (c :: r) = c :: unescapeChars r := by
  cases r with
  | nil => simp [unescapeChars]
  | cons e r => rw [unescapeChars, if_neg h]

theorem unescapeChars_escape (l : Bytes) : unescapeChars (escape l) = l := by
  induction l with
  | nil => rfl
  | cons c l ih =>
    rw [escape, List.flatMap_cons, show l.flatMap escapeChar = escape l from rfl]
    unfold escapeChar
    split
    · rename_i h; subst h
      show unescapeChars (92 :: 110 :: escape l) = _
      rw [unescapeChars]; simp [ih]
    split
    · rename_i h; subst h
      show unescapeChars (92 :: 116 :: escape l) = _
      rw [unescapeChars]; simp [ih]
    split
    · rename_i h; subst h
      show unescapeChars (92 :: 92 :: escape l) = _
      rw [unescapeChars]; simp [ih]
    split
    · rename_i h; subst h
      show unescapeChars (92 :: 34 :: escape l) = _
      rw [unescapeChars]; simp [ih]
    split
    · rename_i h; subst h
      show unescapeChars (92 :: 39 :: escape l) = _
      rw [unescapeChars]; simp [ih]
    · rename_i _ _ h _ _
      show unescapeChars (c :: escape l) = _
      rw [unescape_plain h, ih]

theorem escape_nz {l : Bytes} (h : NZ l) : NZ (escape l) := by
  intro c hc
  rw [escape, List.mem_flatMap] at hc
  obtain ⟨a, ha, hc⟩ := hc
  have := h a ha
  unfold escapeChar at hc
  split at hc
  · simp at hc; rcases hc with rfl | rfl <;> decide
  split at hc
  · simp at hc; rcases hc with rfl | rfl <;> decide
  split at hc
  · simp at hc; subst hc; decide
  split at hc
  · simp at hc; rcases hc with rfl | rfl <;> decide
  split at hc
  · simp at hc; rcases hc with rfl | rfl <;> decide
  · simp at hc; subst hc; exact this

/-- **C53** (missing: unknown escape sequences, see below). For every string value, storing its literal text
in a script string gives exactly the value. -/
theorem literal_escapes_partial (l : Bytes) (h : NZ l) :
    ∃ t, soSet (ofChars (escape l)) = .ok t ∧ Rep t l := by
  have hs := rep_ofChars (escape_nz h)
  have hu := rep_unescape hs
  rw [unescapeChars_escape] at hu
  exact hu

/-- An unknown escape sequence silently deletes both characters: `"a\qb"` is `"ab"`. -/
theorem unknown_escape_dropped_violated (r : Bytes) : unescapeChars (92 :: 113 :: r) = unescapeChars r := by
  rw [unescapeChars]; simp

example : escape [104, 10, 34] = [104, 92, 110, 92, 34] := by decide

end Verif.Str
