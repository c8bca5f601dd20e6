import Verif.Compiler.ParseRec
import Verif.Compiler.ParseMono
/-
Properties C90, C91 and C92: what compiling a text does, whatever the text is. Property C151: where strings end.

The model is `Parse.lean`: every position the parser moves to is computed; what it asks about the program
compiled so far (is the name known, does the type exist, ...) is answered by an arbitrary environment `E`, which
may change its state with every question. So the theorems hold for every such program.

* `compile fuel x text`: the verdict for the text `text` in the state `x` of the environment. `none`: the fuel is
  spent. `accepted u`: `compile` returns normally, and the parser left `u` unread, `none` when it gave up.
-/
namespace Verif.Parse
open Verif Verif.Str Verif.Lex

variable {E : Sem}

/-! ### Every text -/

theorem any_ok : Ok ⟨True, True⟩ NoNul where
  noNul := id
  nonempty := fun _ => trivial
  cons := fun h _ c hc => h c (List.mem_cons_of_mem _ hc)
  semi := fun h => .inl fun c hc => h c (List.mem_cons_of_mem _ hc)
  semi2 := fun h _ c hc => h c (List.mem_cons_of_mem _ hc)
  comment := fun h _ _ _ c hc => h c (List.mem_append_right _ hc)
  block := fun _ => .inl trivial
  all := fun _ _ _ h ht c hc => h c (ht.subset hc)
  quote := fun _ => trivial
  cls := fun _ _ => ⟨trivial, trivial⟩
  static := fun _ _ => trivial
  const := fun _ _ => trivial
  len := fun _ => .inl trivial
  crlf := fun _ => .inl trivial

/-- **C90.** Compiling ends, with one verdict, for every text and whatever has been compiled before: every amount
of fuel from a bound linear in the length of the text on gives the same verdict. -/
theorem compile_ends (x : E.State) (text : Bytes) (h : ∀ c ∈ text, c ≠ 0) :
    ∃ v, ∀ fuel, 256 * (text.length + 3) ≤ fuel → compile fuel x text = some v := by
  obtain ⟨r, st, h1, -, -⟩ := parser_spec (E := E) any_ok (s := text) h (Nat.le_refl _) ⟨false, x⟩
  have hv : ∃ v, compile (256 * (text.length + 3)) x text = some v := by
    unfold compile
    rw [h1]
    cases r <;> exact ⟨_, rfl⟩
  obtain ⟨v, hv⟩ := hv
  exact ⟨v, fun fuel hf => compile_mono hf x text hv⟩

/-- Fuel only cuts: two amounts of fuel that give a verdict give the same one. -/
theorem compile_unique (x : E.State) (text : Bytes) {f g : Nat} {v w : Verdict} (hv : compile f x text = some v)
    (hw : compile g x text = some w) : v = w := by
  rcases Nat.le_total f g with h | h
  · have := compile_mono h x text hv
    rw [this] at hw
    exact Option.some.inj hw
  · have := compile_mono h x text hw
    rw [this] at hv
    exact (Option.some.inj hv).symm

/-! ### The end of the text -/

/-- **C91**, in full: compiling a text never reads behind its end and has no other undefined behaviour. It does
not hold, see `never_behind_violated`. -/
def NeverBehind : Prop :=
  ∀ (E : Sem) (x : E.State) (text : Bytes), (∀ c ∈ text, c ≠ 0) → ∀ fuel, compile fuel x text ≠ some .ub

/-- An environment that answers every question with yes, but for the ones that ask for something unusual. -/
def kind : Sem := ⟨Unit, fun q _ _ => (some (q != .constant && q != .nativeNoCtor), ())⟩

/-- The text `function f(`: the parser moves over the parenthesis that is not there. No question is asked: it
happens in every state of the engine. -/
theorem open_parameters_ub (x : E.State) :
    compile 40 x [102, 117, 110, 99, 116, 105, 111, 110, 32, 102, 40] = some .ub := rfl

/-- The text `-`: a token is read at the end of the text. -/
theorem lone_minus_ub (x : E.State) : compile 40 x [45] = some .ub := rfl

/-- The text `for(;`: the character behind the end of the text decides whether there is a condition. -/
theorem for_semicolon_ub : compile (E := kind) 40 () [102, 111, 114, 40, 59] = some .ub := by decide +kernel

/-- The text `class `: the blanks behind a name that is missing are skipped at a null pointer. -/
theorem class_no_name_ub : compile (E := kind) 40 () [99, 108, 97, 115, 115, 32] = some .ub := by decide +kernel

/-- The text `const A::x;`: the missing value is reported through a null pointer. -/
theorem const_member_ub : compile (E := kind) 40 () [99, 111, 110, 115, 116, 32, 65, 58, 58, 120, 59] = some .ub := by
  decide +kernel

theorem never_behind_violated : ¬NeverBehind := fun h =>
  h kind () [102, 117, 110, 99, 116, 105, 111, 110, 32, 102, 40] (by decide) 40 (open_parameters_ub _)

/-- Texts that end with a line `;;`, shorter than 1024 characters, in which block comments are closed, without
double quotes, `class` and `const`. -/
structure Tame (s : Bytes) : Prop where
  last : [59, 59] = s ∨ [10, 59, 59] <:+ s
  noNul : ∀ c ∈ s, c ≠ 0
  short : s.length < 1024
  closed : ∀ a b, s = a ++ 47 :: 42 :: b → [42, 47] <:+: b
  noQuote : (34 : UInt8) ∉ s
  noClass : ¬kClass <:+: s
  noConst : ¬kConst <:+: s

theorem Tame.sub {s t : Bytes} (h : Tame s) (ht : t <:+ s) (hl : [59, 59] = t ∨ [10, 59, 59] <:+ t) : Tame t where
  last := hl
  noNul := fun c hc => h.noNul c (ht.subset hc)
  short := Nat.lt_of_le_of_lt ht.length_le h.short
  closed := by
    rintro a b rfl
    obtain ⟨u, hu⟩ := ht
    exact h.closed (u ++ a) b (by rw [← hu]; simp)
  noQuote := fun hq => h.noQuote (ht.subset hq)
  noClass := fun hb => h.noClass (hb.trans ht.isInfix)
  noConst := fun hb => h.noConst (hb.trans ht.isInfix)

/-- What is left of the last lines behind the first character. -/
theorem last_tail {c : UInt8} {s : Bytes} (h : [59, 59] = c :: s ∨ [10, 59, 59] <:+ c :: s) :
    ([59, 59] = s ∨ [10, 59, 59] <:+ s) ∨ c = 59 ∧ s = [59] := by
  rcases h with h | ⟨u, h⟩
  · injection h with h1 h2
    exact .inr ⟨h1.symm, h2.symm⟩
  · cases u with
    | nil =>
      injection h with h1 h2
      exact .inl (.inl h2)
    | cons d u =>
      injection h with h1 h2
      exact .inl (.inr ⟨u, h2⟩)

theorem tame_ok : Ok ⟨True, False⟩ Tame where
  noNul := fun h => h.noNul
  nonempty := by
    intro h
    rcases h.last with h | ⟨u, h⟩ <;> simp at h
  cons := by
    intro c s h hc
    rcases last_tail h.last with hl | hl
    · exact h.sub (List.suffix_cons _ _) hl
    · exact absurd hl.1 hc
  semi := by
    intro s h
    rcases last_tail h.last with hl | hl
    · exact .inl (h.sub (List.suffix_cons _ _) hl)
    · exact .inr hl.2
  semi2 := by
    intro c s h hc
    rcases last_tail h.last with hl | hl
    · exact h.sub (List.suffix_cons _ _) hl
    · injection hl.2 with h1 _
      exact absurd h1 hc
  comment := by
    intro w r h hp hw _
    refine h.sub (List.suffix_append _ _) (.inr ?_)
    rcases h.last with hl | ⟨u, hl⟩
    · rw [← hl] at hp
      exact absurd hp (by decide)
    · rcases List.append_eq_append_iff.1 hl with ⟨a, h1, h2⟩ | ⟨a, h1, h2⟩
      · cases a with
        | nil => exact ⟨[], by simpa using h2⟩
        | cons d a =>
          injection h2 with h3 h4
          subst h3
          exact absurd (by rw [h1]; simp) hw
      · exact ⟨a, h2.symm⟩
  block := by
    intro u h
    refine .inr ⟨h.closed [] u rfl, ?_⟩
    rintro t w rfl
    refine h.sub ⟨47 :: 42 :: (t ++ [42, 47]), by simp⟩ (.inr ?_)
    rcases h.last with hl | ⟨v, hl⟩
    · cases hl
    · have hl' : v ++ [10, 59, 59] = (47 :: 42 :: (t ++ [42, 47])) ++ w := by rw [hl]; simp
      rcases List.append_eq_append_iff.1 hl' with ⟨a, h1, h2⟩ | ⟨a, h1, h2⟩
      · have h3 : (v ++ a) = 47 :: 42 :: t ++ [42] ++ [47] := by rw [← h1]; simp
        rcases List.eq_nil_or_concat a with rfl | ⟨a', x, rfl⟩
        · exact ⟨[], by simpa using h2⟩
        · rw [List.concat_eq_append, ← List.append_assoc] at h3
          have hx : x = 47 := by
            have := (List.append_inj' h3 rfl).2
            simpa using this
          subst hx
          have : (47 : UInt8) ∈ ([10, 59, 59] : Bytes) := by rw [h2]; simp
          exact absurd this (by decide)
      · exact ⟨a, h2.symm⟩
  all := fun h => h.elim
  quote := fun h => absurd (by simp) h.noQuote
  cls := fun h hp => absurd hp.isInfix h.noClass
  static := fun _ _ => trivial
  const := fun h hp => absurd hp.isInfix h.noConst
  len := fun h => .inr h.short
  crlf := fun _ => .inl trivial

/-- **C91**, what holds: a text whose last line is `;;`, of less than 1024 characters, in which every block
comment is closed, without double quotes, `class` and `const` is compiled without reading behind its end and without any other undefined
behaviour, whatever has been compiled before. Missing: all other texts, see the theorems above. -/
theorem never_behind_partial (x : E.State) (text : Bytes) (hz : ∀ c ∈ text, c ≠ 0) (hl : [10, 59, 59] <:+ text)
    (hs : text.length < 1024) (hb : ∀ a b, text = a ++ 47 :: 42 :: b → [42, 47] <:+: b) (hq : 34 ∉ text) (hc : ¬[99, 108, 97, 115, 115] <:+: text)
    (hk : ¬[99, 111, 110, 115, 116] <:+: text) (fuel : Nat) : compile fuel x text ≠ some .ub := by
  intro hu
  have hG : Tame text := ⟨.inr hl, hz, hs, hb, hq, hc, hk⟩
  have hm := compile_mono (Nat.le_max_left fuel (256 * (text.length + 3))) x text hu
  obtain ⟨r, st, h1, -, h3⟩ := parser_spec (E := E) tame_ok hG (Nat.le_max_right fuel _) ⟨false, x⟩
  unfold compile at hm
  rw [h1] at hm
  cases r with
  | val p => simp only [Option.some.injEq] at hm; split at hm <;> cases hm
  | null => simp only [Option.some.injEq] at hm; split at hm <;> cases hm
  | thrown => cases hm
  | ub => exact h3

/-- The text `var a=[1,f(2)]` followed by a line `;;` is such a text, and is accepted. -/
example : compile (E := kind) 60 () [118, 97, 114, 32, 97, 61, 91, 49, 44, 102, 40, 50, 41, 93, 10, 59, 59] =
    some (.accepted (some [])) := by decide +kernel
example : [10, 59, 59] <:+ ([118, 97, 114, 32, 97, 61, 91, 49, 44, 102, 40, 50, 41, 93, 10, 59, 59] : Bytes) ∧
    (34 : UInt8) ∉ ([118, 97, 114, 32, 97, 61, 91, 49, 44, 102, 40, 50, 41, 93, 10, 59, 59] : Bytes) := by decide
/-- The hypothesis on comments: `/* */` followed by the last line. -/
example : ∀ a b, ([47, 42, 32, 42, 47, 10, 59, 59] : Bytes) = a ++ 47 :: 42 :: b → [42, 47] <:+: b := by
  intro a b h
  match a, h with
  | [], h => injection h with _ h; injection h with _ h; subst h; decide
  | [_], h => simp at h
  | [_, _], h => simp at h
  | [_, _, _], h => simp at h
  | [_, _, _, _], h => simp at h
  | [_, _, _, _, _], h => simp at h
  | [_, _, _, _, _, _], h => simp at h
  | _ :: _ :: _ :: _ :: _ :: _ :: _ :: a, h => have := congrArg List.length h; simp at this; omega

/-- One semicolon is not enough: `for(` followed by a line `;` is read behind its end. -/
theorem one_semicolon_ub : compile (E := kind) 60 () [102, 111, 114, 40, 10, 59] = some .ub := by decide +kernel

/-! ### The whole text -/

/-- **C92**, in full: a text that is accepted has been read to its end. It does not hold, see
`accepted_read_violated`. -/
def AcceptedIsRead : Prop :=
  ∀ (E : Sem) (x : E.State) (text : Bytes), (∀ c ∈ text, c ≠ 0) →
    ∀ fuel u, compile fuel x text = some (.accepted u) → u = some []

/-- The text `static(`: the parser gives up without an error, in every state of the engine. -/
theorem static_silent (x : E.State) : compile 40 x [115, 116, 97, 116, 105, 99, 40] = some (.accepted none) := rfl

/-- The text `static(} nonsense`: the rest is not looked at. -/
theorem static_silent_rest (x : E.State) :
    compile 60 x [115, 116, 97, 116, 105, 99, 40, 125, 32, 110, 111, 110, 115, 101, 110, 115, 101] = some (.accepted none) := rfl

/-- The text `class A{ function (`. -/
theorem class_silent : compile (E := kind) 60 ()
    [99, 108, 97, 115, 115, 32, 65, 123, 32, 102, 117, 110, 99, 116, 105, 111, 110, 32, 40] = some (.accepted none) := by
  decide +kernel

/-- The text `function`, a carriage return, a blank, `(`: the blanks are skipped twice, and the second time the
parenthesis is reached. -/
theorem return_silent (x : E.State) :
    compile 40 x [102, 117, 110, 99, 116, 105, 111, 110, 13, 32, 40] = some (.accepted none) := rfl

theorem accepted_read_violated : ¬AcceptedIsRead := fun h =>
  absurd (h kind () [115, 116, 97, 116, 105, 99, 40] (by decide) 40 none (static_silent _)) (by decide)

/-- Texts without `static` and `class`, in which a carriage return is followed by a line feed. -/
structure Plain (s : Bytes) : Prop where
  noNul : ∀ c ∈ s, c ≠ 0
  crlf : CrLf s
  noStatic : ¬kStatic <:+: s
  noClass : ¬kClass <:+: s

theorem Plain.sub {s t : Bytes} (h : Plain s) (ht : t <:+ s) : Plain t where
  noNul := fun c hc => h.noNul c (ht.subset hc)
  crlf := h.crlf.suffix ht
  noStatic := fun hb => h.noStatic (hb.trans ht.isInfix)
  noClass := fun hb => h.noClass (hb.trans ht.isInfix)

theorem plain_ok : Ok ⟨False, True⟩ Plain where
  noNul := fun h => h.noNul
  nonempty := fun _ => trivial
  cons := fun h _ => h.sub (List.suffix_cons _ _)
  semi := fun h => .inl (h.sub (List.suffix_cons _ _))
  semi2 := fun h _ => h.sub (List.suffix_cons _ _)
  comment := fun h _ _ _ => h.sub (List.suffix_append _ _)
  block := fun _ => .inl trivial
  all := fun _ _ _ h ht => h.sub ht
  quote := fun _ => trivial
  cls := fun h hp => absurd hp.isInfix h.noClass
  static := fun h hp => absurd hp.isInfix h.noStatic
  const := fun _ _ => trivial
  len := fun _ => .inl trivial
  crlf := fun h => .inr h.crlf

/-- **C92**, what holds: a text in which neither `static` nor `class` occurs, and every carriage return is followed
by a line feed, is read to its end when it is accepted. Missing: texts with `static` or `class`, and lone carriage
returns, see the theorems above. -/
theorem accepted_read_partial (x : E.State) (text : Bytes) (hz : ∀ c ∈ text, c ≠ 0)
    (hcr : ∀ i : Nat, text[i]? = some 13 → text[i + 1]? = some 10) (hs : ¬[115, 116, 97, 116, 105, 99] <:+: text)
    (hc : ¬[99, 108, 97, 115, 115] <:+: text) (fuel : Nat) (u : Option Bytes)
    (hu : compile fuel x text = some (.accepted u)) : u = some [] := by
  have hG : Plain text := ⟨hz, hcr, hs, hc⟩
  have hm := compile_mono (Nat.le_max_left fuel (256 * (text.length + 3))) x text hu
  obtain ⟨r, st, h1, -, h3⟩ := parser_spec (E := E) plain_ok hG (Nat.le_max_right fuel _) ⟨false, x⟩
  unfold compile at hm
  rw [h1] at hm
  cases r with
  | val p =>
    obtain ⟨hp1, -, hp3⟩ := h3
    simp only [Option.some.injEq] at hm
    split at hm
    · cases hm
    · rename_i he
      simp at he
      injection hm with hm
      rcases hp3 rfl with h | h
      · rw [← hm, hd_zero (hp1.noNul plain_ok) h]
      · exact absurd h he.2
  | null =>
    rcases h3 with h3 | h3
    · simp [h3] at hm
    · exact h3.elim
  | thrown => cases hm
  | ub => cases hm

/-- The text `for(var i=0;i<9;i++){f(i)}`. -/
example : compile (E := kind) 80 () [102, 111, 114, 40, 118, 97, 114, 32, 105, 61, 48, 59, 105, 60, 57, 59, 105, 43, 43, 41,
    123, 102, 40, 105, 41, 125] = some (.accepted (some [])) := by decide +kernel

/-! ### Keywords -/

/-- The characters of a word. -/
def word (s : String) : Bytes := s.toList.map fun c => c.toNat.toUInt8

/-- The keywords are the words of the language. -/
theorem keywords_as_written :
    kFunction = word "function" ∧ kThis = word "this" ∧ kNew = word "new" ∧ kStatic = word "static" ∧ kClass = word "class" ∧
    kVar = word "var" ∧ kConst = word "const" ∧ kRef = word "ref" ∧ kIf = word "if" ∧ kElse = word "else" ∧ kFor = word "for" ∧
    kWhile = word "while" ∧ kDo = word "do" ∧ kSwitch = word "switch" ∧ kCase = word "case" ∧ kDefault = word "default" ∧
    kBreak = word "break" ∧ kContinue = word "continue" ∧ kReturn = word "return" ∧ kDelete = word "delete" ∧
    kImport = word "import" ∧ kExtends = word "extends" := by decide +kernel

/-- So are the operators in front of a value. -/
theorem prefixes_as_written : opInc = word "++" ∧ opDec = word "--" ∧ opNeg = word "-" ∧ opBwc = word "~" ∧ opNot = word "!" := by
  decide +kernel

/-! ### Where strings end -/

/-- Every quote in the text behind the character `prev` has a backslash in front of it; there is no line end and no NUL. -/
def Inside (prev : UInt8) (b : Bytes) : Prop :=
  ∀ (l r : Bytes) (c : UInt8), b = l ++ c :: r → c ≠ 0 ∧ c ≠ 10 ∧ (c = 34 → (prev :: l).getLast? = some 92)

/-- A string that does not end with a backslash ends at the first quote that has no backslash in front of it. -/
theorem string_end : ∀ (b : Bytes) (prev : UInt8) (rest : Bytes), Inside prev b → (prev :: b).getLast? ≠ some 92 →
    quoteEnd prev (b ++ 34 :: rest) = 34 :: rest
  | [], prev, rest, _, h2 => by
    have : prev ≠ 92 := fun h => h2 (by rw [h]; rfl)
    unfold quoteEnd
    rw [List.nil_append]
    simp [this]
  | c :: b, prev, rest, h1, h2 => by
    have hc := h1 [] b c rfl
    have h3 : ¬ (((c == 34 && prev != 92) || c == 0 || c == 10) = true) := by
      intro h
      simp only [Bool.or_eq_true, Bool.and_eq_true, beq_iff_eq, bne_iff_ne] at h
      rcases h with (⟨ha, hb⟩ | h) | h
      · exact hb (Option.some.inj (hc.2.2 ha))
      · exact hc.1 h
      · exact hc.2.1 h
    show quoteEnd prev (c :: (b ++ 34 :: rest)) = _
    rw [quoteEnd, if_neg h3]
    refine string_end b c rest ?_ ?_
    · intro l r d e
      have := h1 (c :: l) r d (by rw [e]; rfl)
      rw [List.getLast?_cons_cons] at this
      exact this
    · rw [List.getLast?_cons_cons] at h2
      exact h2

/-- A line end ends the scan as well: the string is not closed. -/
theorem string_line_end : ∀ (b : Bytes) (prev : UInt8) (rest : Bytes), Inside prev b → quoteEnd prev (b ++ 10 :: rest) = 10 :: rest
  | [], prev, rest, _ => by unfold quoteEnd; rw [List.nil_append]; simp
  | c :: b, prev, rest, h1 => by
    have hc := h1 [] b c rfl
    have h3 : ¬ (((c == 34 && prev != 92) || c == 0 || c == 10) = true) := by
      intro h
      simp only [Bool.or_eq_true, Bool.and_eq_true, beq_iff_eq, bne_iff_ne] at h
      rcases h with (⟨ha, hb⟩ | h) | h
      · exact hb (Option.some.inj (hc.2.2 ha))
      · exact hc.1 h
      · exact hc.2.1 h
    show quoteEnd prev (c :: (b ++ 10 :: rest)) = _
    rw [quoteEnd, if_neg h3]
    refine string_line_end b c rest ?_
    intro l r d e
    have := h1 (c :: l) r d (by rw [e]; rfl)
    rw [List.getLast?_cons_cons] at this
    exact this

/-- The inside of a string as it is written: characters, and characters with a backslash in front. -/
inductive Written : Bytes → Prop where
  | nil : Written []
  | plain {c : UInt8} {b : Bytes} : c ≠ 34 → c ≠ 92 → c ≠ 10 → c ≠ 0 → Written b → Written (c :: b)
  | escaped {c : UInt8} {b : Bytes} : c ≠ 10 → c ≠ 0 → Written b → Written (92 :: c :: b)

/-- C151, full: a string ends at the quote behind it. -/
def StringsEnd : Prop := ∀ b rest : Bytes, Written b → quoteEnd 34 (b ++ 34 :: rest) = 34 :: rest

/-- C151: the string of one escaped backslash does not end at its quote. -/
theorem strings_end_violated : ¬ StringsEnd := by
  intro h
  exact absurd (h [92, 92] [59] (.escaped (by decide) (by decide) .nil)) (by decide)

/-- In what is written every quote has a backslash in front of it, and there is no line end and no NUL. -/
theorem written_inside {b : Bytes} (h : Written b) : ∀ prev : UInt8, Inside prev b := by
  induction h with
  | nil => intro prev l r c e; cases l <;> cases e
  | @plain c b h1 _ h3 h4 _ ih =>
    intro prev l r d e
    cases l with
    | nil => cases e; exact ⟨h4, h3, fun x => absurd x h1⟩
    | cons k l =>
      cases e
      have := ih c l r d rfl
      rw [List.getLast?_cons_cons]
      exact this
  | @escaped c b h1 h2 _ ih =>
    intro prev l r d e
    cases l with
    | nil => cases e; exact ⟨by decide, by decide, fun x => absurd x (by decide)⟩
    | cons k l =>
      cases l with
      | nil => cases e; exact ⟨h2, h1, fun _ => rfl⟩
      | cons k' l =>
        cases e
        have := ih c l r d rfl
        rw [List.getLast?_cons_cons, List.getLast?_cons_cons]
        exact this

/-- C151: a string as it is written ends at the quote behind it, unless its last character is a backslash.
Missing: strings that end with an escaped backslash, see `strings_end_violated`. -/
theorem strings_end_partial (b rest : Bytes) (h : Written b) (hl : b.getLast? ≠ some 92) : quoteEnd 34 (b ++ 34 :: rest) = 34 :: rest := by
  refine string_end b 34 rest (written_inside h 34) ?_
  cases b with
  | nil => decide
  | cons c b => rw [List.getLast?_cons_cons]; exact hl

/-- C151: a string that is not closed in its line is not closed by a quote in a later one. -/
theorem strings_line_end (b rest : Bytes) (h : Written b) : quoteEnd 34 (b ++ 10 :: rest) = 10 :: rest :=
  string_line_end b 34 rest (written_inside h 34)

/-- A case of `strings_end_partial`: `a\"b`. -/
example : Written [97, 92, 34, 98] :=
  .plain (by decide) (by decide) (by decide) (by decide) (.escaped (by decide) (by decide) (.plain (by decide) (by decide) (by decide) (by decide) .nil))

/-- A case of `string_end`: the string `a\"b`. -/
example : Inside 34 [97, 92, 34, 98] ∧ ([34, 97, 92, 34, 98] : Bytes).getLast? ≠ some 92 := by
  refine ⟨?_, by decide⟩
  intro l r c h
  match l, h with
  | [], h => cases h; decide
  | [_], h => cases h; decide
  | [_, _], h => cases h; decide
  | [_, _, _], h => cases h; decide
  | _ :: _ :: _ :: _ :: l, h => cases l <;> cases h

/-- A string cannot end with a backslash, not even with an escaped one: `x="\\";` is refused, `x="\\ ";` is accepted. -/
theorem backslash_end_rejected :
    compile (E := kind) 60 () [120, 61, 34, 92, 92, 34, 59] = some .rejected ∧
    compile (E := kind) 60 () [120, 61, 34, 92, 92, 32, 34, 59] = some (.accepted (some [])) := by
  constructor <;> decide +kernel

/-! ### Conditions -/

/-- The text `x=a?b:c;` is accepted. -/
example : compile (E := kind) 60 () [120, 61, 97, 63, 98, 58, 99, 59] = some (.accepted (some [])) := by decide +kernel

/-- But not `if(a?b:c){}`: the closing parenthesis is expected where the question mark is. -/
theorem ternary_condition_rejected :
    compile (E := kind) 60 () [105, 102, 40, 97, 63, 98, 58, 99, 41, 123, 125] = some .rejected := by decide +kernel

/-- A name that begins with `import` cannot begin a statement: `imports=1;` is refused. -/
theorem import_name_rejected :
    compile (E := kind) 60 () [105, 109, 112, 111, 114, 116, 115, 61, 49, 59] = some .rejected := by decide +kernel

/-- A condition of one character is not read: `for(;a;){}` is refused, `for(;aa;){}` is accepted. -/
theorem short_condition_rejected :
    compile (E := kind) 60 () [102, 111, 114, 40, 59, 97, 59, 41, 123, 125] = some .rejected ∧
    compile (E := kind) 60 () [102, 111, 114, 40, 59, 97, 97, 59, 41, 123, 125] = some (.accepted (some [])) := by
  constructor <;> decide +kernel

end Verif.Parse
