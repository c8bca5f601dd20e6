import Verif.Module.Json
import Verif.Module.JsonSpec
import Verif.Base.StrEscapeProps
/-
The reader on JSON texts: it accepts those without a backslash and a carriage return and gives the value they stand
for.
-/
namespace Verif.Json
open Verif.Str (Bytes unescapeChars)

/-! ### What the reader makes of a JSON value -/

/-- The list of members with the value of this name replaced, or with the name added at the end. -/
def assign {F : Type} (k : Bytes) (v : V F) : List (Bytes × V F) → List (Bytes × V F)
  | [] => [(k, v)]
  | p :: r => if p.1 = k then (k, v) :: r else p :: assign k v r

theorem put_eq {F : Type} (k : Bytes) (v : V F) : ∀ l, put k v l = assign k v l
  | [] => rfl
  | (k', v') :: r => by
    rw [put, assign, put_eq k v r]
    by_cases h : k' = k
    · subst h; simp only [if_true]
    · rw [if_neg h, if_neg h]

mutual
/-- `null` is read as `undefined`, a number as a float, of two members with one name the last counts. -/
def toV {F : Type} (N : Num F) : JVal → V F
  | .null => .undef
  | .bool b => .bool b
  | .num t => match N.parse t with | some f => .float f | none => .undef
  | .str s => .str s
  | .arr l => .arr (toVs N l)
  | .obj l => .obj (toMs N [] l) []
def toVs {F : Type} (N : Num F) : List JVal → List (V F)
  | [] => []
  | v :: l => toV N v :: toVs N l
def toMs {F : Type} (N : Num F) (acc : List (Bytes × V F)) : List (Bytes × JVal) → List (Bytes × V F)
  | [] => acc
  | (k, v) :: l => toMs N (assign k (toV N v) acc) l
end

mutual
/-- No number is longer than 1023 bytes. -/
def Short : JVal → Prop
  | .num t => t.length ≤ 1023
  | .arr l => Shorts l
  | .obj l => ShortMs l
  | _ => True
def Shorts : List JVal → Prop
  | [] => True
  | v :: l => Short v ∧ Shorts l
def ShortMs : List (Bytes × JVal) → Prop
  | [] => True
  | (_, v) :: l => Short v ∧ ShortMs l
end

/-- No backslash and no carriage return. -/
def Easy (t : Bytes) : Prop := ∀ c ∈ t, c ≠ 92 ∧ c ≠ 13

theorem easy_append {a b : Bytes} : Easy (a ++ b) ↔ Easy a ∧ Easy b := by
  unfold Easy
  constructor
  · intro h; exact ⟨fun c hc => h c (by simp [hc]), fun c hc => h c (by simp [hc])⟩
  · rintro ⟨h1, h2⟩ c hc
    rcases List.mem_append.mp hc with hc | hc
    · exact h1 c hc
    · exact h2 c hc

theorem easy_cons {c : UInt8} {b : Bytes} : Easy (c :: b) ↔ (c ≠ 92 ∧ c ≠ 13) ∧ Easy b := by
  simp only [Easy, List.mem_cons, forall_eq_or_imp]

/-! ### Blanks -/

/-- Blanks without carriage return. -/
def Bl (w : Bytes) : Prop := ∀ c ∈ w, c = 32 ∨ c = 9 ∨ c = 10

theorem bl_of {w : Bytes} (h : Ws w) (he : Easy w) : Bl w := by
  intro c hc
  rcases h c hc with h1 | h1 | h1 | h1
  · exact Or.inl h1
  · exact Or.inr (Or.inl h1)
  · exact Or.inr (Or.inr h1)
  · exact absurd h1 (he c hc).2

/-- Something that is neither a blank nor the start of a comment. -/
def Hard (r : Bytes) : Prop := r = [] ∨ ∃ c r', r = c :: r' ∧ c ≠ 32 ∧ c ≠ 9 ∧ c ≠ 10 ∧ c ≠ 13 ∧ c ≠ 47

theorem blanks_space {c : UInt8} (h : c = 32 ∨ c = 9) (n : Nat) (s : Bytes) : blanks n (c :: s) = blanks n s := by
  cases n with
  | zero => rfl
  | succ n =>
    have : (c :: s).dropWhile (fun c => c == 32 || c == 9) = s.dropWhile (fun c => c == 32 || c == 9) := by
      rw [List.dropWhile_cons, if_pos]
      rcases h with rfl | rfl <;> rfl
    unfold blanks
    rw [this]

theorem blanks_line (n : Nat) (s : Bytes) : blanks (n + 1) (10 :: s) = blanks n s := by
  conv => lhs; unfold blanks
  have : (10 :: s).dropWhile (fun c : UInt8 => c == 32 || c == 9) = 10 :: s := by
    rw [List.dropWhile_cons, if_neg (by decide)]
  rw [this]
  simp [isSingle, isStart, R.bind, R.ok]

theorem blanks_hard {r : Bytes} (h : Hard r) (n : Nat) : blanks (n + 1) r = R.ok r := by
  unfold blanks
  rcases h with rfl | ⟨c, r', rfl, h1, h2, h3, h4, h5⟩
  · simp [isSingle, isStart, R.bind, R.ok]
  · have : (c :: r').dropWhile (fun c : UInt8 => c == 32 || c == 9) = c :: r' := by
      rw [List.dropWhile_cons, if_neg (by simp [h1, h2])]
    rw [this]
    simp [isSingle, isStart, R.bind, R.ok, h3, h4, h5]

theorem blanks_skip {r : Bytes} (hr : Hard r) : ∀ (w : Bytes) (n : Nat), Bl w → w.length < n → blanks n (w ++ r) = R.ok r
  | [], n, _, h => by
    obtain ⟨m, rfl⟩ : ∃ m, n = m + 1 := ⟨n - 1, by simp at h; omega⟩
    exact blanks_hard hr m
  | c :: w, n, hw, h => by
    have hw' : Bl w := fun x hx => hw x (by simp [hx])
    simp only [List.length_cons] at h
    rcases hw c (by simp) with hc | hc | hc
    · rw [List.cons_append, blanks_space (Or.inl hc)]; exact blanks_skip hr w n hw' (by omega)
    · rw [List.cons_append, blanks_space (Or.inr hc)]; exact blanks_skip hr w n hw' (by omega)
    · obtain ⟨m, rfl⟩ : ∃ m, n = m + 1 := ⟨n - 1, by omega⟩
      rw [List.cons_append, hc, blanks_line]; exact blanks_skip hr w m hw' (by omega)

theorem skip_bl {w r : Bytes} (hw : Bl w) (hr : Hard r) : skip (w ++ r) = R.ok r := by
  unfold skip
  exact blanks_skip hr w _ hw (by rw [List.length_append]; omega)

theorem skip_hard {r : Bytes} (hr : Hard r) : skip r = R.ok r := blanks_hard hr _

/-! ### Strings -/

theorem chars_easy {t v : Bytes} (h : Chars t v) (he : Easy t) : v = t ∧ ∀ c ∈ t, 32 ≤ c ∧ c ≠ 34 ∧ c ≠ 92 := by
  induction h with
  | nil => exact ⟨rfl, by simp⟩
  | plain h1 h2 h3 _ ih =>
    obtain ⟨e, h⟩ := ih (easy_cons.mp he).2
    refine ⟨by rw [e], ?_⟩
    intro c hc
    rcases List.mem_cons.mp hc with rfl | hc
    · exact ⟨h1, h2, h3⟩
    · exact h c hc
  | esc _ _ _ => exact absurd rfl (easy_cons.mp he).1.1

theorem readQuoted_chars : ∀ (t : Bytes) (prev : UInt8) (r : Bytes), prev ≠ 92 →
    (∀ c ∈ t, 32 ≤ c ∧ c ≠ 34 ∧ c ≠ 92) → readQuoted prev (t ++ 34 :: r) = some (t, r)
  | [], prev, r, hp, _ => by
    rw [List.nil_append, readQuoted, if_neg (by decide), if_pos ⟨rfl, hp⟩]
  | c :: t, prev, r, hp, h => by
    obtain ⟨h1, h2, h3⟩ := h c (by simp)
    have hne : ¬ (c = 10 ∨ c = 13) := by
      rintro (rfl | rfl) <;> exact absurd h1 (by decide)
    rw [List.cons_append, readQuoted, if_neg hne, if_neg (fun h => h2 h.1),
      readQuoted_chars t c r h3 (fun x hx => h x (by simp [hx]))]
    rfl

theorem unescape_id : ∀ (t : Bytes), (∀ c ∈ t, c ≠ 92) → unescapeChars t = t
  | [], _ => rfl
  | c :: t, h => by
    rw [Str.unescape_plain (h c (by simp)), unescape_id t (fun x hx => h x (by simp [hx]))]

theorem readString_chars {t v b r : Bytes} (h : Chars t v) (he : Easy t) (hb : Bl b) (hr : Hard r) :
    readString (34 :: (t ++ 34 :: (b ++ r))) = R.ok (v, r) := by
  obtain ⟨e, hc⟩ := chars_easy h he
  unfold readString
  rw [List.head?_cons, if_pos rfl, List.tail_cons, readQuoted_chars t 34 (b ++ r) (by decide) hc]
  simp only [skip_bl hb hr, e]
  rfl

/-! ### Numbers -/

/-- What may follow a value: nothing, a comma or a closing bracket. -/
def Stop (r : Bytes) : Prop := r = [] ∨ ∃ c r', r = c :: r' ∧ (c = 44 ∨ c = 93 ∨ c = 125)

theorem Stop.hard {r : Bytes} (h : Stop r) : Hard r := by
  rcases h with h | ⟨c, r', h, hc⟩
  · exact Or.inl h
  · refine Or.inr ⟨c, r', h, ?_⟩
    rcases hc with rfl | rfl | rfl <;> decide

/-- The first byte of `b ++ r`, if there is one, ends a number. -/
theorem stop_end {b r : Bytes} (hb : Bl b) (hr : Stop r) :
    b ++ r = [] ∨ ∃ c s, b ++ r = c :: s ∧ c ≠ 47 ∧ endChars.contains c = true := by
  cases b with
  | nil =>
    rcases hr with h | ⟨c, r', h, hc⟩
    · exact Or.inl h
    · refine Or.inr ⟨c, r', h, ?_⟩
      rcases hc with rfl | rfl | rfl <;> decide
  | cons c b =>
    refine Or.inr ⟨c, b ++ r, rfl, ?_⟩
    rcases hb c (by simp) with rfl | rfl | rfl <;> decide

theorem not_start {c : UInt8} {s : Bytes} (h : c ≠ 47) : isStart (c :: s) = false ∧ isSingle (c :: s) = false := by
  simp [isStart, isSingle, h]

theorem advToEnd_token {e : Bytes} (he : e = [] ∨ ∃ c s, e = c :: s ∧ c ≠ 47 ∧ endChars.contains c = true) :
    ∀ (tok : Bytes) (n : Nat), (∀ c ∈ tok, c ≠ 47 ∧ endChars.contains c = false) → tok.length < n →
      advToEnd n (tok ++ e) = R.ok e
  | [], n, _, h => by
    obtain ⟨m, rfl⟩ : ∃ m, n = m + 1 := ⟨n - 1, by simp at h; omega⟩
    rcases he with rfl | ⟨c, s, rfl, hc, hce⟩
    · rfl
    · unfold advToEnd
      rw [List.nil_append, if_neg (by simp), (not_start hc).1]
      simp only [Bool.false_eq_true, if_false, R.bind, R.ok, (not_start hc).2]
      rw [if_pos hce]
  | c :: tok, n, h, hn => by
    obtain ⟨m, rfl⟩ : ∃ m, n = m + 1 := ⟨n - 1, by simp at hn; omega⟩
    have hc := h c (by simp)
    unfold advToEnd
    rw [List.cons_append, if_neg (by simp), (not_start hc.1).1]
    simp only [Bool.false_eq_true, if_false, R.bind, R.ok, (not_start hc.1).2]
    rw [if_neg (by rw [hc.2]; simp)]
    exact advToEnd_token he tok m (fun x hx => h x (by simp [hx])) (by simp at hn; omega)

/-- A token that is not a string and not a truth value. -/
theorem readValue_token {F : Type} (N : Num F) {c : UInt8} {tok e : Bytes}
    (he : e = [] ∨ ∃ c s, e = c :: s ∧ c ≠ 47 ∧ endChars.contains c = true)
    (ht : ∀ x ∈ c :: tok, x ≠ 47 ∧ endChars.contains x = false) (h34 : c ≠ 34) (h116 : c ≠ 116) (h102 : c ≠ 102)
    (hlen : (c :: tok).length ≤ 1023) :
    readValue N (c :: tok ++ e) =
      R.ok (match N.parse (c :: tok) with | some f => V.float f | none => .undef, e) := by
  unfold readValue
  rw [if_neg (by simp [h34]), if_neg (by simp [h116]), if_neg (by simp [h102]),
    advToEnd_token he (c :: tok) _ ht (by simp; omega)]
  have hk : (c :: tok ++ e).length - e.length = (c :: tok).length := by
    rw [List.length_append]; omega
  simp only [R.bind, R.ok, hk]
  have : ¬ (c :: tok).length = 0 := by simp
  rw [if_neg this, if_neg (by omega), List.take_left' rfl]
  rfl

theorem number_chars {t : Bytes} (h : IsNumber t) :
    ∃ c r, t = c :: r ∧ (c = 45 ∨ (48 ≤ c ∧ c ≤ 57)) ∧
      ∀ x ∈ t, x = 45 ∨ x = 43 ∨ x = 46 ∨ x = 101 ∨ x = 69 ∨ (48 ≤ x ∧ x ≤ 57) := by
  obtain ⟨s, i, f, e, rfl, hs, hi, hf, he⟩ := h
  have hid : Digits i := by
    rcases hi with rfl | hi
    · exact ⟨by simp, by simp⟩
    · exact hi.1
  have hall : ∀ x ∈ s ++ (i ++ (f ++ e)), x = 45 ∨ x = 43 ∨ x = 46 ∨ x = 101 ∨ x = 69 ∨ (48 ≤ x ∧ x ≤ 57) := by
    intro x hx
    simp only [List.mem_append] at hx
    rcases hx with hx | hx | hx | hx
    · rcases hs with rfl | rfl
      · cases hx
      · simp at hx; simp [hx]
    · have := hid.2 x hx; simp [this]
    · rcases hf with rfl | ⟨d, hd, rfl⟩
      · cases hx
      · rcases List.mem_cons.mp hx with rfl | hx
        · simp
        · have := hd.2 x hx; simp [this]
    · rcases he with rfl | ⟨m, sg, d, hm, hsg, hd, rfl⟩
      · cases hx
      · rcases List.mem_cons.mp hx with rfl | hx
        · rcases hm with rfl | rfl <;> simp
        · rcases List.mem_append.mp hx with hx | hx
          · rcases hsg with rfl | rfl | rfl
            · cases hx
            · simp at hx; simp [hx]
            · simp at hx; simp [hx]
          · have := hd.2 x hx; simp [this]
  rcases hs with rfl | rfl
  · obtain ⟨hne, hd⟩ := hid
    cases i with
    | nil => exact absurd rfl hne
    | cons c i =>
      refine ⟨c, i ++ (f ++ e), rfl, Or.inr (hd c (by simp)), hall⟩
  · exact ⟨45, i ++ (f ++ e), rfl, Or.inl rfl, hall⟩

theorem numchar_ok {x : UInt8} (h : x = 45 ∨ x = 43 ∨ x = 46 ∨ x = 101 ∨ x = 69 ∨ (48 ≤ x ∧ x ≤ 57)) :
    x ≠ 47 ∧ endChars.contains x = false := by
  have key : ∀ y : UInt8, (y = 47 ∨ endChars.contains y = true) →
      ¬ (y = 45 ∨ y = 43 ∨ y = 46 ∨ y = 101 ∨ y = 69 ∨ (48 ≤ y ∧ y ≤ 57)) := by
    intro y hy
    simp only [endChars, List.contains_cons, List.contains_nil, Bool.or_false, Bool.or_eq_true, beq_iff_eq] at hy
    rcases hy with rfl | rfl | rfl | rfl | rfl | rfl | rfl | rfl <;> decide
  constructor
  · intro e; exact key x (Or.inl e) h
  · cases hc : endChars.contains x with
    | false => rfl
    | true => exact absurd h (key x (Or.inr hc))

/-! ### The first byte of a value -/

theorem digit_first {c : UInt8} (h : c = 45 ∨ (48 ≤ c ∧ c ≤ 57)) :
    c ≠ 32 ∧ c ≠ 9 ∧ c ≠ 10 ∧ c ≠ 13 ∧ c ≠ 47 ∧ c ≠ 93 ∧ c ≠ 125 ∧ c ≠ 34 ∧ c ≠ 91 ∧ c ≠ 123 ∧ c ≠ 116 ∧ c ≠ 102 := by
  refine ⟨?_, ?_, ?_, ?_, ?_, ?_, ?_, ?_, ?_, ?_, ?_, ?_⟩ <;>
    · rintro rfl; revert h; decide

theorem value_first {t : Bytes} {v : JVal} (h : Value t v) :
    ∃ c r, t = c :: r ∧ c ≠ 32 ∧ c ≠ 9 ∧ c ≠ 10 ∧ c ≠ 13 ∧ c ≠ 47 ∧ c ≠ 93 := by
  cases h with
  | null => exact ⟨_, _, rfl, by decide⟩
  | tru => exact ⟨_, _, rfl, by decide⟩
  | fls => exact ⟨_, _, rfl, by decide⟩
  | num h =>
    obtain ⟨c, r, e, hc, _⟩ := number_chars h
    have := digit_first hc
    exact ⟨c, r, e, this.1, this.2.1, this.2.2.1, this.2.2.2.1, this.2.2.2.2.1, this.2.2.2.2.2.1⟩
  | str _ => exact ⟨_, _, rfl, by decide⟩
  | arr0 _ => exact ⟨_, _, rfl, by decide⟩
  | arr _ => exact ⟨_, _, rfl, by decide⟩
  | obj0 _ => exact ⟨_, _, rfl, by decide⟩
  | obj _ => exact ⟨_, _, rfl, by decide⟩

theorem value_hard {t : Bytes} {v : JVal} (h : Value t v) (r : Bytes) : Hard (t ++ r) := by
  obtain ⟨c, s, rfl, h1, h2, h3, h4, h5, _⟩ := value_first h
  exact Or.inr ⟨c, s ++ r, rfl, h1, h2, h3, h4, h5⟩

/-! ### The main induction -/

theorem hard_of {c : UInt8} {r : Bytes} (h : c ≠ 32 ∧ c ≠ 9 ∧ c ≠ 10 ∧ c ≠ 13 ∧ c ≠ 47) : Hard (c :: r) :=
  Or.inr ⟨c, r, rfl, h⟩

/-- The reader on a value with blanks around it. -/
def ReadsValue {F : Type} (N : Num F) (t : Bytes) (v : JVal) : Prop :=
  ∀ (n : Nat) (a b r : Bytes), Bl a → Bl b → Stop r → 2 * (a ++ (t ++ (b ++ r))).length + 1 ≤ n →
    ∃ b', Bl b' ∧ b'.length ≤ b.length ∧ read N n (a ++ (t ++ (b ++ r))) = R.ok (toV N v, b' ++ r)

def ReadsElems {F : Type} (N : Num F) (t : Bytes) (l : List JVal) : Prop :=
  ∀ (r : Bytes), ∃ s, skip (t ++ 93 :: r) = R.ok s ∧ s.length ≤ (t ++ 93 :: r).length ∧ s.head? ≠ some 93 ∧
    ∀ (n : Nat) (acc : List (V F)), 2 * s.length + 2 ≤ n →
      readElems N n s acc = R.ok (.arr (acc ++ toVs N l), r)

def ReadsMembers {F : Type} (N : Num F) (t : Bytes) (l : List (Bytes × JVal)) : Prop :=
  ∀ (r : Bytes), ∃ s, skip (t ++ 125 :: r) = R.ok s ∧ s.length ≤ (t ++ 125 :: r).length ∧ s.head? ≠ some 125 ∧
    ∀ (n : Nat) (acc : List (Bytes × V F)), 2 * s.length + 2 ≤ n →
      readMembers N n s acc = R.ok (.obj (toMs N acc l) [], r)

/-- A value that is neither array nor object. -/
theorem reads_simple {F : Type} {N : Num F} {t : Bytes} {v : JVal} (hf : ∃ c r, t = c :: r ∧ c ≠ 91 ∧ c ≠ 123 ∧
      c ≠ 32 ∧ c ≠ 9 ∧ c ≠ 10 ∧ c ≠ 13 ∧ c ≠ 47)
    (hv : ∀ b r, Bl b → Stop r → ∃ b', Bl b' ∧ b'.length ≤ b.length ∧
      readValue N (t ++ (b ++ r)) = R.ok (toV N v, b' ++ r)) : ReadsValue N t v := by
  intro n a b r ha hb hr hn
  obtain ⟨m, rfl⟩ : ∃ m, n = m + 1 := ⟨n - 1, by omega⟩
  obtain ⟨b', hb', hl, h⟩ := hv b r hb hr
  refine ⟨b', hb', hl, ?_⟩
  obtain ⟨c, s, rfl, h1, h2, h3⟩ := hf
  unfold read
  rw [List.cons_append] at h ⊢
  rw [skip_bl ha (hard_of h3)]
  simp only [R.bind, R.ok] at h ⊢
  rw [if_neg (by simp [h1]), if_neg (by simp [h2])]
  exact h

theorem first_ne {c d : UInt8} {r : Bytes} (h : c ≠ d) : (c :: r).head? ≠ some d := by
  simp [h]

mutual
theorem accept_value {F : Type} (N : Num F) (hN : N.parse [110, 117, 108, 108] = none) {t : Bytes} {v : JVal}
    (h : Value t v) (he : Easy t) (hs : Short v) : ReadsValue N t v := by
  match h with
  | .null =>
    refine reads_simple ⟨110, _, rfl, by decide⟩ fun b r hb hr => ⟨b, hb, Nat.le_refl _, ?_⟩
    have := readValue_token N (c := 110) (tok := [117, 108, 108]) (stop_end hb hr) (by decide) (by decide) (by decide)
      (by decide) (by decide)
    rw [hN] at this
    exact this
  | .tru =>
    exact reads_simple ⟨116, _, rfl, by decide⟩ fun b r hb hr => ⟨b, hb, Nat.le_refl _, rfl⟩
  | .fls =>
    exact reads_simple ⟨102, _, rfl, by decide⟩ fun b r hb hr => ⟨b, hb, Nat.le_refl _, rfl⟩
  | .num hnum =>
    obtain ⟨c, s, e, hc, hall⟩ := number_chars hnum
    have hd := digit_first hc
    refine reads_simple ⟨c, s, e, ?_⟩ fun b r hb hr => ⟨b, hb, Nat.le_refl _, ?_⟩
    · exact ⟨hd.2.2.2.2.2.2.2.2.1, hd.2.2.2.2.2.2.2.2.2.1, hd.1, hd.2.1, hd.2.2.1, hd.2.2.2.1, hd.2.2.2.2.1⟩
    · subst e
      exact readValue_token N (stop_end hb hr) (fun x hx => numchar_ok (hall x hx)) hd.2.2.2.2.2.2.2.1
        hd.2.2.2.2.2.2.2.2.2.2.1 hd.2.2.2.2.2.2.2.2.2.2.2 hs
  | .str (t := t) (v := w) hch =>
    have het : Easy t := (easy_append.mp (easy_cons.mp he).2).1
    refine reads_simple ⟨34, _, rfl, by decide⟩ fun b r hb hr => ⟨[], (by intro c hc; cases hc), by simp, ?_⟩
    obtain ⟨e, hcc⟩ := chars_easy hch het
    have h1 : (34 :: (t ++ [34])) ++ (b ++ r) = 34 :: (t ++ 34 :: (b ++ r)) := by simp
    rw [h1]
    unfold readValue
    rw [List.head?_cons, if_pos rfl, readString_chars hch het hb hr.hard]
    simp only [R.bind, R.ok, toV, List.nil_append]
    rw [unescape_id w (by rw [e]; exact fun c hc => (hcc c hc).2.2)]
  | .arr0 (w := w) hw =>
    intro n a b r ha hb hr hn
    obtain ⟨m, rfl⟩ : ∃ m, n = m + 1 := ⟨n - 1, by omega⟩
    have hew : Bl w := bl_of hw (easy_append.mp (easy_cons.mp he).2).1
    refine ⟨b, hb, Nat.le_refl _, ?_⟩
    unfold read
    have h1 : (91 :: (w ++ [93])) ++ (b ++ r) = 91 :: (w ++ 93 :: (b ++ r)) := by simp
    rw [h1, skip_bl ha (hard_of (by decide))]
    simp only [R.bind, R.ok, List.head?_cons, if_true, List.tail_cons]
    have h2 : skip (w ++ 93 :: (b ++ r)) = R.ok (93 :: (b ++ r)) := skip_bl hew (hard_of (by decide))
    rw [h2]
    rfl
  | .obj0 (w := w) hw =>
    intro n a b r ha hb hr hn
    obtain ⟨m, rfl⟩ : ∃ m, n = m + 1 := ⟨n - 1, by omega⟩
    have hew : Bl w := bl_of hw (easy_append.mp (easy_cons.mp he).2).1
    refine ⟨b, hb, Nat.le_refl _, ?_⟩
    unfold read
    have h1 : (123 :: (w ++ [125])) ++ (b ++ r) = 123 :: (w ++ 125 :: (b ++ r)) := by simp
    rw [h1, skip_bl ha (hard_of (by decide))]
    have h2 : skip (w ++ 125 :: (b ++ r)) = R.ok (125 :: (b ++ r)) := skip_bl hew (hard_of (by decide))
    simp only [R.bind, R.ok, List.head?_cons, List.tail_cons]
    rw [if_neg (by decide), if_pos trivial, h2]
    rfl
  | .arr (t := t) (l := l) hl =>
    intro n a b r ha hb hr hn
    obtain ⟨m, rfl⟩ : ∃ m, n = m + 1 := ⟨n - 1, by omega⟩
    have het : Easy t := (easy_append.mp (easy_cons.mp he).2).1
    obtain ⟨s, hsk, hlen, hh, hrd⟩ := accept_elems N hN hl het hs (b ++ r)
    refine ⟨b, hb, Nat.le_refl _, ?_⟩
    unfold read
    have h1 : (91 :: (t ++ [93])) ++ (b ++ r) = 91 :: (t ++ 93 :: (b ++ r)) := by simp
    rw [h1] at hn ⊢
    rw [skip_bl ha (hard_of (by decide))]
    simp only [R.bind, R.ok, List.head?_cons, List.tail_cons] at hsk hrd ⊢
    rw [if_pos trivial, hsk]
    simp only
    rw [if_neg hh, hrd m [] (by simp only [List.length_append, List.length_cons] at hn hlen; omega)]
    rfl
  | .obj (t := t) (l := l) hl =>
    intro n a b r ha hb hr hn
    obtain ⟨m, rfl⟩ : ∃ m, n = m + 1 := ⟨n - 1, by omega⟩
    have het : Easy t := (easy_append.mp (easy_cons.mp he).2).1
    obtain ⟨s, hsk, hlen, hh, hrd⟩ := accept_members N hN hl het hs (b ++ r)
    refine ⟨b, hb, Nat.le_refl _, ?_⟩
    unfold read
    have h1 : (123 :: (t ++ [125])) ++ (b ++ r) = 123 :: (t ++ 125 :: (b ++ r)) := by simp
    rw [h1] at hn ⊢
    rw [skip_bl ha (hard_of (by decide))]
    simp only [R.bind, R.ok, List.head?_cons, List.tail_cons] at hsk hrd ⊢
    rw [if_neg (by decide), if_pos trivial, hsk]
    simp only
    rw [if_neg hh, hrd m [] (by simp only [List.length_append, List.length_cons] at hn hlen; omega)]
    rfl

theorem accept_elems {F : Type} (N : Num F) (hN : N.parse [110, 117, 108, 108] = none) {t : Bytes} {l : List JVal}
    (h : Elems t l) (he : Easy t) (hs : Shorts l) : ReadsElems N t l := by
  match h with
  | .one (a := a) (t := t) (b := b) (v := v) ha hv hb =>
    intro r
    simp only [easy_append] at he
    have hab := bl_of ha he.1
    have hbb := bl_of hb he.2.2
    have ih := accept_value N hN hv he.2.1 hs.1
    obtain ⟨c, s, e, hc⟩ := value_first hv
    refine ⟨t ++ (b ++ 93 :: r), ?_, ?_, ?_, ?_⟩
    · have : a ++ (t ++ b) ++ 93 :: r = a ++ (t ++ (b ++ 93 :: r)) := by simp
      rw [this]
      exact skip_bl hab (value_hard hv _)
    · simp
    · rw [e]; exact first_ne hc.2.2.2.2.2
    · intro n acc hn
      obtain ⟨m, rfl⟩ : ∃ m, n = m + 1 := ⟨n - 1, by omega⟩
      have hst : Stop (93 :: r) := Or.inr ⟨93, r, rfl, by decide⟩
      obtain ⟨b', hb', hl, hrd⟩ := ih m [] b (93 :: r) (by intro c hc; cases hc) hbb hst
        (by simp only [List.nil_append]; omega)
      unfold readElems
      rw [List.nil_append] at hrd
      rw [hrd]
      have h2 : skip (b' ++ 93 :: r) = R.ok (93 :: r) := skip_bl hb' hst.hard
      simp only [R.bind, R.ok] at h2 ⊢
      rw [h2]
      rfl
  | .more (a := a) (t := t) (b := b) (u := u) (v := v) (l := l) ha hv hb hu =>
    intro r
    simp only [easy_append, easy_cons] at he
    have hab := bl_of ha he.1
    have hbb := bl_of hb he.2.2.1
    have ih := accept_value N hN hv he.2.1 hs.1
    obtain ⟨s2, hsk, hlen, hh, hrd2⟩ := accept_elems N hN hu he.2.2.2.2 hs.2 r
    obtain ⟨c, s, e, hc⟩ := value_first hv
    refine ⟨t ++ (b ++ 44 :: (u ++ 93 :: r)), ?_, ?_, ?_, ?_⟩
    · have : a ++ (t ++ (b ++ 44 :: u)) ++ 93 :: r = a ++ (t ++ (b ++ 44 :: (u ++ 93 :: r))) := by simp
      rw [this]
      exact skip_bl hab (value_hard hv _)
    · simp
    · rw [e]; exact first_ne hc.2.2.2.2.2
    · intro n acc hn
      obtain ⟨m, rfl⟩ : ∃ m, n = m + 1 := ⟨n - 1, by omega⟩
      have hst : Stop (44 :: (u ++ 93 :: r)) := Or.inr ⟨44, _, rfl, by decide⟩
      obtain ⟨b', hb', hl, hrd⟩ := ih m [] b (44 :: (u ++ 93 :: r)) (by intro c hc; cases hc) hbb hst
        (by simp only [List.nil_append]; omega)
      unfold readElems
      rw [List.nil_append] at hrd
      rw [hrd]
      have h2 : skip (b' ++ 44 :: (u ++ 93 :: r)) = R.ok (44 :: (u ++ 93 :: r)) := skip_bl hb' hst.hard
      simp only [R.bind, R.ok] at h2 hsk hrd2 ⊢
      rw [h2]
      simp only [List.head?_cons, if_true, List.tail_cons]
      rw [hsk]
      simp only
      rw [if_neg hh, hrd2 m _ (by simp only [List.length_append, List.length_cons] at hn hlen; omega)]
      simp [toVs]

theorem accept_members {F : Type} (N : Num F) (hN : N.parse [110, 117, 108, 108] = none) {t : Bytes}
    {l : List (Bytes × JVal)} (h : Members t l) (he : Easy t) (hs : ShortMs l) : ReadsMembers N t l := by
  match h with
  | .one (a := a) (k := k) (x := x) (b := b) (c := c) (t := t) (d := d) (v := v) ha hk hb hc hv hd =>
    intro r
    simp only [easy_append, easy_cons] at he
    obtain ⟨ea, _, ek, _, eb, _, ec, et, ed⟩ := he
    have ih := accept_value N hN hv et hs.1
    refine ⟨34 :: (k ++ 34 :: (b ++ 58 :: (c ++ (t ++ (d ++ 125 :: r))))), ?_, ?_, ?_, ?_⟩
    · have : a ++ 34 :: (k ++ 34 :: (b ++ 58 :: (c ++ (t ++ d)))) ++ 125 :: r =
          a ++ 34 :: (k ++ 34 :: (b ++ 58 :: (c ++ (t ++ (d ++ 125 :: r))))) := by simp
      rw [this]
      exact skip_bl (bl_of ha ea) (hard_of (by decide))
    · simp
    · exact first_ne (by decide)
    · intro n acc hn
      obtain ⟨m, rfl⟩ : ∃ m, n = m + 1 := ⟨n - 1, by omega⟩
      have hst : Stop (125 :: r) := Or.inr ⟨125, r, rfl, by decide⟩
      obtain ⟨b', hb', hl, hrd⟩ := ih m [] d (125 :: r) (by intro c hc; cases hc) (bl_of hd ed) hst
        (by simp only [List.nil_append, List.length_append, List.length_cons] at hn ⊢; omega)
      rw [List.nil_append] at hrd
      unfold readMembers
      rw [readString_chars hk ek (bl_of hb eb) (hard_of (by decide))]
      have h1 : skip (c ++ (t ++ (d ++ 125 :: r))) = R.ok (t ++ (d ++ 125 :: r)) := skip_bl (bl_of hc ec) (value_hard hv _)
      have h2 : skip (b' ++ 125 :: r) = R.ok (125 :: r) := skip_bl hb' hst.hard
      simp only [R.bind, R.ok, List.head?_cons, if_true, List.tail_cons] at h1 h2 hrd ⊢
      rw [h1]
      simp only
      rw [hrd]
      simp only
      rw [h2, put_eq]
      rfl
  | .more (a := a) (k := k) (x := x) (b := b) (c := c) (t := t) (d := d) (u := u) (v := v) (l := l) ha hk hb hc hv hd hu =>
    intro r
    simp only [easy_append, easy_cons] at he
    obtain ⟨ea, _, ek, _, eb, _, ec, et, ed, _, eu⟩ := he
    have ih := accept_value N hN hv et hs.1
    obtain ⟨s2, hsk, hlen, hh, hrd2⟩ := accept_members N hN hu eu hs.2 r
    refine ⟨34 :: (k ++ 34 :: (b ++ 58 :: (c ++ (t ++ (d ++ 44 :: (u ++ 125 :: r)))))), ?_, ?_, ?_, ?_⟩
    · have : a ++ 34 :: (k ++ 34 :: (b ++ 58 :: (c ++ (t ++ (d ++ 44 :: u))))) ++ 125 :: r =
          a ++ 34 :: (k ++ 34 :: (b ++ 58 :: (c ++ (t ++ (d ++ 44 :: (u ++ 125 :: r)))))) := by simp
      rw [this]
      exact skip_bl (bl_of ha ea) (hard_of (by decide))
    · simp
    · exact first_ne (by decide)
    · intro n acc hn
      obtain ⟨m, rfl⟩ : ∃ m, n = m + 1 := ⟨n - 1, by omega⟩
      have hst : Stop (44 :: (u ++ 125 :: r)) := Or.inr ⟨44, _, rfl, by decide⟩
      obtain ⟨b', hb', hl, hrd⟩ := ih m [] d (44 :: (u ++ 125 :: r)) (by intro c hc; cases hc) (bl_of hd ed) hst
        (by simp only [List.nil_append, List.length_append, List.length_cons] at hn ⊢; omega)
      rw [List.nil_append] at hrd
      unfold readMembers
      rw [readString_chars hk ek (bl_of hb eb) (hard_of (by decide))]
      have h1 : skip (c ++ (t ++ (d ++ 44 :: (u ++ 125 :: r)))) = R.ok (t ++ (d ++ 44 :: (u ++ 125 :: r))) :=
        skip_bl (bl_of hc ec) (value_hard hv _)
      have h2 : skip (b' ++ 44 :: (u ++ 125 :: r)) = R.ok (44 :: (u ++ 125 :: r)) := skip_bl hb' hst.hard
      simp only [R.bind, R.ok, List.head?_cons, if_true, List.tail_cons] at h1 h2 hrd hsk hrd2 ⊢
      rw [h1]
      simp only
      rw [hrd]
      simp only
      rw [h2]
      simp only [List.head?_cons, if_true, List.tail_cons]
      rw [hsk]
      simp only
      rw [if_neg hh, hrd2 m _ (by simp only [List.length_append, List.length_cons] at hn hlen; omega), put_eq]
      rfl
end

end Verif.Json
