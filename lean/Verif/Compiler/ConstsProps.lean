import Verif.Compiler.ConstsLemmas
/-
C127 and C128: constant strings and object literals.
-/
namespace Verif.Consts
open Verif Verif.ConstsSpec

/-- **C127** (missing: see `Fine` and the theorems below). Whatever literals, field names and sums of literals a script has, in
whatever order, each stands for the text that is written, and still does when all are compiled: those that look alike share one
string object and no others. -/
theorem constants_mean_what_is_written_partial (ps : List Piece) (h : AllFine [] ps) :
    ∃ T is, run [] [] (ps.map source) = .ok (T, is) ∧ is.length = ps.length ∧
      ∀ n : Nat, n < ps.length → textOf T is n = ((meanings [] ps)[n]?).getD [] := by
  obtain ⟨T, is, U, h1, h2, h3, h4, h5⟩ := run_ok ps (T := []) (is := []) (ms := []) (by simp [Inv]) ⟨rfl, by simp⟩ h
  exact ⟨T, is, h1, by simpa using h5, fun n _ => h4.text n⟩

/-- Two literals that look alike are one constant, whatever the table holds. -/
theorem literals_share (T : Table) (t rest rest' : Bytes)
    (hf : Fine [] (.literal t rest)) :
    ∃ T' i, literal T (Str.escape t ++ 34 :: rest) = .ok (T', i, rest) ∧
      literal T' (Str.escape t ++ 34 :: rest') = .ok (T', i, rest') := by
  obtain ⟨hz, hl, hn⟩ := hf
  have hs : ∀ r, scan 34 (Str.escape t ++ 34 :: r) = (Str.escape t, 34 :: r) := by
    intro r
    rw [scan_escape t 34 r hz (fun _ => by decide), if_neg hl]
  have hfind : ∃ i, (register T (34 :: Str.escape t ++ [34]) (Str.escape t)).2 = i ∧
      find (register T (34 :: Str.escape t ++ [34]) (Str.escape t)).1 (34 :: Str.escape t ++ [34]) = some i := by
    refine ⟨_, rfl, ?_⟩
    unfold register
    cases hf : find T (34 :: Str.escape t ++ [34]) with
    | some i => simpa using hf
    | none =>
      simp only [find] at hf ⊢
      rw [List.findIdx?_append, hf]
      simp [List.findIdx?_cons]
  obtain ⟨i, hi, hfi⟩ := hfind
  refine ⟨(register T (34 :: Str.escape t ++ [34]) (Str.escape t)).1, i, ?_, ?_⟩
  · unfold literal
    rw [hs]
    simp only
    rw [if_neg (by omega), if_neg (by omega), hi]
  · unfold literal
    rw [hs]
    simp only
    rw [if_neg (by omega), if_neg (by omega), register, hfi]

-- `"a\n\"b"`, `{"a\n\"b": .., c: ..}`, `"x" + 1`, `"c"`: six pieces
def sample : List Piece :=
  [.literal [97, 10, 34, 98] [59], .quoted [97, 10, 34, 98] [58], .plain [99] [58], .literal [120] [43],
   .sum (.earlier 3) (.other [49]), .literal [99] []]

example : AllFine [] sample := by
  refine ⟨?_, ?_, ?_, ?_, ?_, ?_, trivial⟩
  · exact ⟨by simp [Lex.NoNul], by decide, by decide⟩
  · exact ⟨by simp [Lex.NoNul], by decide, by decide⟩
  · exact ⟨⟨99, [], rfl, by unfold Lex.NameStart; decide, by simp⟩, by simp [Lex.NameChar, Lex.NameStart],
      by simp [Lex.NoNul], by decide +kernel⟩
  · exact ⟨by simp [Lex.NoNul], by decide, by decide⟩
  · exact ⟨by decide, by decide, by decide⟩
  · exact ⟨by simp [Lex.NoNul], by decide, by decide⟩

example : run [] [] (sample.map source) =
    .ok ([⟨[34, 97, 92, 110, 92, 34, 98, 34], [97, 10, 34, 98]⟩, ⟨[34, 99, 34], [99]⟩, ⟨[34, 120, 34], [120]⟩,
      ⟨[34, 120, 49, 34], [120, 49]⟩], [0, 0, 1, 2, 3, 1]) := by decide +kernel

example : meanings [] sample = [[97, 10, 34, 98], [97, 10, 34, 98], [99], [120], [120, 49], [99]] := by decide +kernel

/-- A literal that ends in a backslash is not closed by its quote: without another quote behind it the script is refused. -/
theorem literal_backslash_violated (T : Table) (t rest : Bytes) (hz : Lex.NoNul t) (hl : t.getLast? = some 92)
    (hq : (34 : UInt8) ∉ rest) : literal T (Str.escape t ++ 34 :: rest) = .err := by
  unfold literal
  rw [scan_escape t 34 rest hz (fun _ => by decide), if_pos hl]
  simp only
  split
  · next r hr => exact absurd hr (scan_rest rest 34 hq _)
  · rfl

-- `"a\\";`
example : Lex.NoNul [97, 92] ∧ ([97, 92] : Bytes).getLast? = some 92 ∧ (34 : UInt8) ∉ ([59] : Bytes) := by
  exact ⟨by simp [Lex.NoNul], rfl, by decide⟩

/-- With another quote behind it the literal takes the text up to that one, its own quote included: `"a\\"+"b"` begins with the
literal of `a\\"+`. -/
theorem literal_backslash_takes_more_violated (T : Table) :
    ∃ T' i, literal T [97, 92, 92, 34, 43, 34, 98, 34] = .ok (T', i, [98, 34]) := ⟨_, _, rfl⟩

/-- The same in the name of a field ends in a null pointer that is followed. -/
theorem field_backslash_violated (T : Table) (t rest : Bytes) (hz : Lex.NoNul t) (hl : t.getLast? = some 92)
    (hq : (34 : UInt8) ∉ rest) : fieldName T (34 :: (Str.escape t ++ 34 :: rest)) = .ub := by
  unfold fieldName
  rw [keyword_none_quote]
  simp only [Out.bind_ok, Option.isSome_none, Bool.false_eq_true, if_false]
  rw [scan_escape t 34 rest hz (fun _ => by decide), if_pos hl]
  simp only
  rw [if_neg (by simp)]
  split
  · next r hr => exact absurd hr (scan_rest rest 34 hq _)
  · rfl

/-- A literal of 4096 characters is read past the end of the buffer it is copied to; longer ones are refused. -/
theorem literal_long_violated (T : Table) (t rest : Bytes) (hz : Lex.NoNul t) (hl : t.getLast? ≠ some 92) :
    ((Str.escape t).length = 4096 → literal T (Str.escape t ++ 34 :: rest) = .ub) ∧
    (4096 < (Str.escape t).length → literal T (Str.escape t ++ 34 :: rest) = .err) := by
  have h : literal T (Str.escape t ++ 34 :: rest) = if 4096 < (Str.escape t).length then .err
      else if (Str.escape t).length = 4096 then .ub else
      .ok ((register T (34 :: Str.escape t ++ [34]) (Str.escape t)).1, (register T (34 :: Str.escape t ++ [34]) (Str.escape t)).2,
        rest) := by
    unfold literal
    rw [scan_escape t 34 rest hz (fun _ => by decide), if_neg hl]
    rfl
  rw [h]
  constructor
  · intro e
    rw [if_neg (by omega), if_pos e]
  · intro e
    rw [if_pos e]

theorem scan_line : ∀ (w : Bytes) (p : UInt8) (rest : Bytes), (34 : UInt8) ∉ w → ∀ r, (scan p (w ++ 10 :: rest)).2 ≠ 34 :: r
  | [], p, rest, _, r => by
    rw [List.nil_append, scan, if_pos (Or.inr (Or.inr rfl))]
    simp
  | c :: w, p, rest, h, r => by
    rw [List.mem_cons, not_or] at h
    rw [List.cons_append, scan]
    split
    · simp only [ne_eq, List.cons.injEq, not_and]
      exact fun e => absurd e.symm h.1
    · exact scan_line w c rest h.2 r

/-- A literal ends on the line it begins on, whatever follows. -/
theorem literal_line (T : Table) (w rest : Bytes) (h : (34 : UInt8) ∉ w) : literal T (w ++ 10 :: rest) = .err := by
  unfold literal
  simp only
  split
  · next r hr => exact absurd hr (scan_line w 34 rest h _)
  · rfl

/-- A keyword is no name for a field unless it is in quotes. -/
theorem field_keyword (T : Table) (k t : Bytes) (hk : k ∈ Lex.reserved)
    (ht : t = [] ∨ (∃ c u, t = c :: u ∧ c ∈ ([32, 9, 46, 40, 41, 123, 125, 91, 93, 10, 13, 58, 59] : List UInt8)) ∨ [47, 42] <+: t) :
    fieldName T (k ++ t) = .err := by
  unfold fieldName
  rw [(Lex.keyword_partial (k ++ t) k).2 t hk rfl ht]
  rfl

-- `{if: 1}` and `{"if": 1}`
example : fieldName [] [105, 102, 58] = .err ∧ fieldName [] [34, 105, 102, 34, 58] = .ok ([⟨[34, 105, 102, 34], [105, 102]⟩], 0, [58]) := by
  decide +kernel

/-- `""` is no name for a field. -/
theorem field_empty_violated (T : Table) (rest : Bytes) : fieldName T (34 :: 34 :: rest) = .err := by
  unfold fieldName
  rw [keyword_none_quote]
  simp only [Out.bind_ok, Option.isSome_none, Bool.false_eq_true, if_false]
  rw [scan, if_pos (Or.inl ⟨rfl, by decide⟩)]
  rfl

/-- A sum of literals is unescaped again: `"\\" + "n"`, written `"\\n" + ""`, is a line feed. -/
theorem sum_backslash_violated : ∃ T is, run [] [] ([Piece.literal [92, 110] [43], .literal [] [59],
    .sum (.earlier 0) (.earlier 1)].map source) = .ok (T, is) ∧ textOf T is 0 = [92, 110] ∧ textOf T is 2 = [10] := by
  refine ⟨[⟨[34, 92, 92, 110, 34], [92, 110]⟩, ⟨[34, 34], []⟩, ⟨[34, 92, 110, 34], [10]⟩], [0, 1, 2], ?_, ?_, ?_⟩ <;>
    decide +kernel

/-- A method that edits a literal edits all that look like it, field names too: after `"a".append("b")` the field `a` of the object
`{a: ..}` is called `ab`. -/
theorem edit_changes_others_violated : ∃ T is, run [] [] ([Piece.literal [97] [46], .edit 0 [97, 98], .plain [97] [58],
    .literal [97] [59]].map source) = .ok (T, is) ∧ textOf T is 2 = [97, 98] ∧ textOf T is 3 = [97, 98] := by
  refine ⟨[⟨[34, 97, 34], [97, 98]⟩], [0, 0, 0, 0], ?_, ?_, ?_⟩ <;> decide +kernel

/-- The full claim does not hold. -/
theorem means_what_is_written_violated : ¬ MeansWhatIsWritten := by
  intro h
  obtain ⟨T, is, h1, -⟩ := h [.literal [92] []] ⟨by simp [WellFormed, Lex.NoNul], trivial⟩
  have : run [] [] ([Piece.literal [92] []].map source) = .err := by
    simp only [List.map_cons, source, run, step]
    rw [literal_backslash_violated [] [92] [] (by simp [Lex.NoNul]) rfl (by simp)]
    rfl
  rw [this] at h1
  cases h1

/-- **C128** (missing: see `Fine` and the theorems above). The object of an object literal has the fields that are written, once
each, in the order in which their names first appear, each with the value written last for it; `o["name"]` with the same text and
`o.name` give it, other names give an error, whatever was compiled before, within and after. -/
theorem objects_are_as_written_partial {α : Type} (before : List Piece) (fs : List (Field α)) (later : List Piece)
    (hb : AllFine [] before) (hl : AllFine [] later)
    (hf : ∀ f ∈ fs, IsFieldName f.name ∧ Fine [] f.name ∧ AllFine [] f.pieces) :
    ∃ T0 js0 T1 is T2 js2 o, run [] [] (before.map source) = .ok (T0, js0) ∧ names T0 (compiled fs) = .ok (T1, is) ∧
      run T1 [] (later.map source) = .ok (T2, js2) ∧ build T2 [] is = .ok o ∧ IsAsWritten T2 o fs := by
  obtain ⟨T0, js0, U0, a1, a2, -, -, -⟩ := run_ok before (T := []) (is := []) (ms := []) (by simp [Inv]) ⟨rfl, by simp⟩ hb
  obtain ⟨T1, is, U1, b1, b2, rfl, b4, b5⟩ := names_ok fs a2 hf
  obtain ⟨T2, js2, U2, c1, c2, rfl, -, -⟩ := run_ok later (is := []) (ms := []) b2 ⟨rfl, by simp⟩ hl
  refine ⟨T0, js0, _, is, _, js2, puts [] (written fs), a1, b1, c1, ?_, ?_, ?_, ?_⟩
  · exact build_ok is (written fs) _ [] (by simp [b4, written]) (fun n x e hx he => ⟨(b5 n x e hx he).1.grow U2, (b5 n x e hx he).2⟩)
  · rw [keys_puts, List.filter_eq_self.2 (by simp)]
    rfl
  · intro k
    rw [get_puts]
    cases lastFor (written fs) k <;> rfl
  · intro k rest hk
    obtain ⟨T3, i, U3, d1, d2, rfl, c, d4, d5⟩ := literal_ok (rest := rest) c2 hk
    unfold index
    rw [d1]
    simp only [Out.bind_ok]
    rw [d4]
    simp only
    rw [d5, get_puts]
    cases lastFor (written fs) k <;> rfl

/-- The order of first appearance: every name once, and no others. -/
theorem firstOrder_exact : ∀ ks : List Bytes, (firstOrder ks).Nodup ∧ ∀ k, k ∈ firstOrder ks ↔ k ∈ ks
  | [] => by simp [firstOrder]
  | k :: ks => by
    obtain ⟨h1, h2⟩ := firstOrder_exact ks
    refine ⟨?_, ?_⟩
    · rw [firstOrder, List.nodup_cons]
      exact ⟨by simp, h1.filter _⟩
    · intro j
      rw [firstOrder, List.mem_cons, List.mem_cons, List.mem_filter, h2]
      by_cases hj : j = k
      · simp [hj]
      · simp [hj]

-- `{"a b": 1, c: "c"+.., "a b": 3}`
def fields : List (Field Nat) :=
  [⟨.quoted [97, 32, 98] [58], [], 1⟩, ⟨.plain [99] [58], [.literal [99] [44]], 2⟩, ⟨.quoted [97, 32, 98] [58], [], 3⟩]

example : ∀ f ∈ fields, IsFieldName f.name ∧ Fine [] f.name ∧ AllFine [] f.pieces := by
  intro f hf
  simp only [fields, List.mem_cons, List.not_mem_nil, or_false] at hf
  rcases hf with rfl | rfl | rfl
  · exact ⟨trivial, ⟨by simp [Lex.NoNul], by decide, by decide⟩, trivial⟩
  · exact ⟨trivial, ⟨⟨99, [], rfl, by unfold Lex.NameStart; decide, by simp⟩, by simp [Lex.NameChar, Lex.NameStart],
      by simp [Lex.NoNul], by decide +kernel⟩, ⟨by simp [Lex.NoNul], by decide, by decide⟩, trivial⟩
  · exact ⟨trivial, ⟨by simp [Lex.NoNul], by decide, by decide⟩, trivial⟩

example : firstOrder ((written fields).map (·.1)) = [[97, 32, 98], [99]] ∧ lastFor (written fields) [97, 32, 98] = some 3 ∧
    lastFor (written fields) [99] = some 2 ∧ lastFor (written fields) [100] = none := by decide +kernel

/-- The full claim does not hold: `{"\\": ..}`. -/
theorem objects_are_as_written_violated : ¬ ObjectsAreAsWritten := by
  intro h
  obtain ⟨T0, js0, T1, is, T2, js2, o, h1, h2, -⟩ := h [] [⟨.quoted [92] [], [], 0⟩] [] trivial trivial (by
    intro f hf
    rw [List.mem_singleton] at hf
    subst hf
    exact ⟨trivial, by simp [WellFormed, Lex.NoNul], by simp [meaning], trivial⟩)
  have : names T0 (compiled [(⟨.quoted [92] [], [], 0⟩ : Field Nat)]) = .ub := by
    simp only [compiled, List.map_cons, names, nameSource, source]
    rw [field_backslash_violated T0 [92] [] (by simp [Lex.NoNul]) rfl (by simp)]
    rfl
  rw [this] at h2
  cases h2

/-- Nor after a method edited a literal: `"a".append("b"); o = {a: 7}` gives an object whose field is `ab`, and `o.a` is an error. -/
theorem object_after_edit_violated : ∃ T js T1 is, run [] [] ([Piece.literal [97] [46], .edit 0 [97, 98]].map source) = .ok (T, js) ∧
    names T (compiled [(⟨.plain [97] [58], [], 7⟩ : Field Nat)]) = .ok (T1, is) ∧
    build T1 [] is = .ok [([97, 98], 7)] ∧ get [(([97, 98] : Bytes), 7)] [97] = none := by
  refine ⟨[⟨[34, 97, 34], [97, 98]⟩], [0, 0], [⟨[34, 97, 34], [97, 98]⟩], [(0, 7)], ?_, ?_, ?_, ?_⟩ <;> decide +kernel

end Verif.Consts
