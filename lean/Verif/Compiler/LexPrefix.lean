import Verif.Compiler.LexerProps
/-
C132: prefix and postfix operators are recognised by their spelling.

Specification: `Begins w s` (the text `s` begins with the spelling `w`) and `WordAt` (`LexTokens.lean`).
-/
namespace Verif.Lex
open Verif Verif.Str

/-- The text begins with the spelling. -/
def Begins (w : String) (s : Bytes) : Prop := ∃ t, s = spell w ++ t

theorem wordOp_bool (w s : Bytes) : ∃ b, wordOp w s = .ok b ∧ (b = true ↔ WordAt w s) := wordOp_iff w s

/-- The spellings of prefix operators, `+-` and `-+` (one entry of the table, an error in a script) included. -/
def prefixes : List Bytes := ["--", "++", "+-/-+", "!", "typeof", "+", "-", "~"].map spell

/-- What may stand before an operand: each prefix operator is recognised exactly where it is written, `++` and `--` before `+` and `-`,
`!` unless `=` follows, `typeof` as a word followed by a space or the end of a line; `+-` and `-+` are recognised as such,
to be refused. -/
theorem prefix_exact (s : Bytes) :
    (isPre s = .ok (some (spell "++")) ↔ Begins "++" s) ∧
    (isPre s = .ok (some (spell "--")) ↔ Begins "--" s) ∧
    (isPre s = .ok (some (spell "+-/-+")) ↔ Begins "+-" s ∨ Begins "-+" s) ∧
    (isPre s = .ok (some (spell "!")) ↔ Begins "!" s ∧ ¬ Begins "!=" s) ∧
    (isPre s = .ok (some (spell "typeof")) ↔ WordAt (spell "typeof") s) ∧
    (isPre s = .ok (some (spell "+")) ↔ Begins "+" s ∧ ¬ Begins "++" s ∧ ¬ Begins "+-" s) ∧
    (isPre s = .ok (some (spell "-")) ↔ Begins "-" s ∧ ¬ Begins "--" s ∧ ¬ Begins "-+" s) ∧
    (isPre s = .ok (some (spell "~")) ↔ Begins "~" s) ∧
    ∃ o, isPre s = .ok o ∧ ∀ w, o = some w → w ∈ prefixes := by
  have e1 : spell "++" = [43, 43] := by decide +kernel
  have e2 : spell "--" = [45, 45] := by decide +kernel
  have e3 : spell "+-/-+" = [43, 45, 47, 45, 43] := by decide +kernel
  have e4 : spell "!" = [33] := by decide +kernel
  have e5 : spell "typeof" = typeofStr := by decide +kernel
  have e6 : spell "+" = [43] := by decide +kernel
  have e7 : spell "-" = [45] := by decide +kernel
  have e8 : spell "~" = [126] := by decide +kernel
  have e9 : spell "+-" = [43, 45] := by decide +kernel
  have e10 : spell "-+" = [45, 43] := by decide +kernel
  have e11 : spell "!=" = [33, 61] := by decide +kernel
  have ep : prefixes = [[45, 45], [43, 43], [43, 45, 47, 45, 43], [33], typeofStr, [43], [45], [126]] := by decide +kernel
  obtain ⟨b, hb, hb'⟩ := wordOp_bool typeofStr s
  have hw : WordAt typeofStr s → s.head? = some 116 := by
    rintro ⟨c, t, rfl, -⟩; rfl
  unfold Begins
  rw [e1, e2, e3, e4, e5, e6, e7, e8, e9, e10, e11, ep, ← hb']
  rw [← hb'] at hw
  unfold isPre preRows
  simp only [firstRow, decIncInvalid, hb]
  rcases s with _ | ⟨x, _ | ⟨y, t⟩⟩
  · have : b = false := by cases b <;> simp_all
    subst this
    simp [runPat, peek, typeofStr]
  · have hy : ∀ c : UInt8, c ∈ ([33, 43, 45, 126] : List UInt8) → x = c → b = false := by
      rintro c hc rfl
      cases b
      · rfl
      · have := hw rfl; simp only [List.head?_cons, Option.some.injEq] at this; subst this; exact absurd hc (by decide)
    by_cases h1 : x = 33
    · rw [hy 33 (by decide) h1]; subst h1; simp [runPat, peek, typeofStr]
    · by_cases h2 : x = 43
      · rw [hy 43 (by decide) h2]; subst h2; simp [runPat, peek, typeofStr]
      · by_cases h3 : x = 45
        · rw [hy 45 (by decide) h3]; subst h3; simp [runPat, peek, typeofStr]
        · by_cases h4 : x = 126
          · rw [hy 126 (by decide) h4]; subst h4; simp [runPat, peek, typeofStr]
          · cases b <;> simp [runPat, peek, typeofStr, h1, h2, h3, h4]
  · have hy : ∀ c : UInt8, c ∈ ([33, 43, 45, 126] : List UInt8) → x = c → b = false := by
      rintro c hc rfl
      cases b
      · rfl
      · have := hw rfl; simp only [List.head?_cons, Option.some.injEq] at this; subst this; exact absurd hc (by decide)
    by_cases h1 : x = 33
    · rw [hy 33 (by decide) h1]; subst h1
      by_cases k : y = 61
      · subst k; simp [runPat, peek, typeofStr]
      · simp [runPat, peek, typeofStr, k]
    · by_cases h2 : x = 43
      · rw [hy 43 (by decide) h2]; subst h2
        by_cases k : y = 43
        · subst k; simp [runPat, peek, typeofStr]
        · by_cases k' : y = 45
          · subst k'; simp [runPat, peek, typeofStr]
          · simp [runPat, peek, typeofStr, k, k']
      · by_cases h3 : x = 45
        · rw [hy 45 (by decide) h3]; subst h3
          by_cases k : y = 43
          · subst k; simp [runPat, peek, typeofStr]
          · by_cases k' : y = 45
            · subst k'; simp [runPat, peek, typeofStr]
            · simp [runPat, peek, typeofStr, k, k']
        · by_cases h4 : x = 126
          · rw [hy 126 (by decide) h4]; subst h4; simp [runPat, peek, typeofStr]
          · cases b <;> simp [runPat, peek, typeofStr, h1, h2, h3, h4]

/-- What may stand behind an operand: `++` and `--` exactly where they are written; `+-` and `-+` are recognised, to be refused; nothing else. -/
theorem postfix_exact (s : Bytes) :
    (isPost s = .ok (some (spell "++")) ↔ Begins "++" s) ∧
    (isPost s = .ok (some (spell "--")) ↔ Begins "--" s) ∧
    (isPost s = .ok (some (spell "+-/-+")) ↔ Begins "+-" s ∨ Begins "-+" s) ∧
    ∃ o, isPost s = .ok o ∧ ∀ w, o = some w → w ∈ ["--", "++", "+-/-+"].map spell := by
  have e1 : spell "++" = [43, 43] := by decide +kernel
  have e2 : spell "--" = [45, 45] := by decide +kernel
  have e3 : spell "+-/-+" = [43, 45, 47, 45, 43] := by decide +kernel
  have e9 : spell "+-" = [43, 45] := by decide +kernel
  have e10 : spell "-+" = [45, 43] := by decide +kernel
  unfold Begins
  simp only [List.map_cons, List.map_nil]
  rw [e1, e2, e3, e9, e10]
  unfold isPost postRows
  simp only [firstRow, decIncInvalid]
  rcases s with _ | ⟨x, _ | ⟨y, t⟩⟩
  · simp [runPat, peek]
  · by_cases h2 : x = 43
    · subst h2; simp [runPat, peek]
    · by_cases h3 : x = 45
      · subst h3; simp [runPat, peek]
      · simp [runPat, peek, h2, h3]
  · by_cases h2 : x = 43
    · subst h2
      by_cases k : y = 43
      · subst k; simp [runPat, peek]
      · by_cases k' : y = 45
        · subst k'; simp [runPat, peek]
        · simp [runPat, peek, k, k']
    · by_cases h3 : x = 45
      · subst h3
        by_cases k : y = 43
        · subst k; simp [runPat, peek]
        · by_cases k' : y = 45
          · subst k'; simp [runPat, peek]
          · simp [runPat, peek, k, k']
      · simp [runPat, peek, h2, h3]

/-- The characters that separate the parts of a statement are `, ; ( ) [ ]`; those that end a word are blanks, line ends, the end of the
text and `. ( ) { } [ ] : ;`. -/
theorem delimiters_exact (c : UInt8) :
    (isSeparator c = true ↔ c ∈ spell ",;()[]") ∧ (isSpecial c = true ↔ c = 0 ∨ c ∈ spell " \t\n\r.(){}[]:;") := by
  have e1 : spell ",;()[]" = [44, 59, 40, 41, 91, 93] := by decide +kernel
  have e2 : spell " \t\n\r.(){}[]:;" = [32, 9, 10, 13, 46, 40, 41, 123, 125, 91, 93, 58, 59] := by decide +kernel
  rw [e1, e2]
  constructor
  · simp [isSeparator]
  · simp only [isSpecial, List.contains_eq_mem, decide_eq_true_eq, List.mem_cons, List.not_mem_nil, or_false]
    grind

example : isPre (spell "typeof x") = .ok (some (spell "typeof")) ∧ isPre (spell "!a") = .ok (some (spell "!")) ∧
    isPre (spell "- 3") = .ok (some (spell "-")) ∧ isPre (spell "x") = .ok none ∧ isPost (spell "++;") = .ok (some (spell "++")) := by
  decide +kernel

end Verif.Lex
