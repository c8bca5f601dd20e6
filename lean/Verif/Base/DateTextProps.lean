/-
Properties of dates as texts (C118, C119).
-/
import Verif.Base.DateTextLemmas

namespace Verif.DateText
open Verif Verif.Time

/-! ### C118: a date that is written as a format says is read back -/

/-- C118, the full statement. -/
def ReadBack : Prop :=
  ∀ (d : When) (rs : List Run) (ts : List Text), d.Real → rs ≠ [] → Apart rs → Sound rs → Told rs d → SaysAll d rs ts →
    ReadsBack rs ts d

/-- C118 (part): for every format that starts with a letter and does not have the hour after AM or PM, every date that
exists, and every text that has the fields of the date where the format has them: reading the text gives the date.
Missing: the other formats (see the counterexamples). -/
theorem read_back_partial (d : When) (rs : List Run) (ts : List Text) (hd : d.Real) (ha : Apart rs) (hs : Sound rs)
    (ht : Told rs d) (hts : SaysAll d rs ts) (hc : ∃ c n q, rs = (c, n) :: q ∧ Char.isAlpha c = true) (ho : Ordered rs) :
    ReadsBack rs ts d := by
  obtain ⟨c, n, q, rfl, hc⟩ := hc
  unfold ReadsBack parse
  rw [if_neg (formatText_ne (apart_one ha))]
  obtain ⟨s, hs1, hs2⟩ := loop_format hd (by rw [isLetter_alpha]; exact hc) ha hts {}
  rw [hs1]
  show mkDateTime s.found.year s.found.month s.found.day s.found.hour s.found.minute s.found.second s.found.period = _
  rw [hs2]
  have hh := hour_read hd hs ho ht
  obtain ⟨h1, h2, h3, h4, h5, _⟩ := ht
  have cast : ∀ {P : Prop} {a b : Nat}, P ∨ a = b → P ∨ (b : Int) = (a : Int) := by
    intro P a b h
    rcases h with h | h
    · exact Or.inl h
    · right; omega
  rw [putAll_year d _ _ (cast h1), putAll_month d _ _ (cast h2), putAll_day d _ _ (cast h3),
    putAll_minute d _ _ (cast h4), putAll_second d _ _ (cast h5)]
  exact make_ok hd hh

/-- 29 February 2024, 15:07:09. -/
def d0 : When := ⟨2024, 2, 29, 15, 7, 9⟩

theorem d0_real : d0.Real := by unfold When.Real; decide

/-- Day first, a clock with twelve hours, two separators in a row, letters without a meaning. -/
example : parse "dd/MM/yyyy, hh:mmx:ss  tt".toList "29/02/2024, 03:07!:09__PM".toList = .ok d0.tm := by decide +kernel

def f0 : List Run := [('d', 2), ('/', 1), ('M', 2), ('/', 1), ('y', 4), (',', 1), (' ', 1), ('h', 2), (':', 1), ('m', 2),
  ('x', 1), (':', 1), ('s', 2), (' ', 2), ('t', 2)]

example : ReadsBack f0 ["29".toList, "/".toList, "02".toList, "/".toList, "2024".toList, ",".toList, " ".toList, "03".toList,
    ":".toList, "07".toList, "!".toList, ":".toList, "09".toList, "__".toList, "PM".toList] d0 := by
  refine read_back_partial d0 f0 _ d0_real ?_ ?_ ?_ ?_ ⟨_, _, _, rfl, rfl⟩ ?_
  · simp [f0, Apart]
  · simp [Sound, Names, f0, fieldOf]
  · simp [Told, Names, f0, fieldOf]
  · simp only [f0, SaysAll, Says, fieldOf]; simp [Field.text, d0, two, four, last, on12]
  · simp [f0, Ordered, Names, fieldOf]

/-- C118 is violated: AM or PM before the hour is forgotten. -/
theorem half_first_violated :
    ¬ ReadBack ∧ parse "tt hh".toList "PM 03".toList = .ok (When.tm ⟨1970, 1, 1, 3, 0, 0⟩) := by
  have hp : parse "tt hh".toList "PM 03".toList = .ok (When.tm ⟨1970, 1, 1, 3, 0, 0⟩) := by decide +kernel
  refine ⟨fun h => ?_, hp⟩
  have h1 := h ⟨1970, 1, 1, 15, 0, 0⟩ [('t', 2), (' ', 1), ('h', 2)] ["PM".toList, " ".toList, "03".toList]
    (by unfold When.Real; decide) (by simp) (by simp [Apart]) (by simp [Sound, Names, fieldOf])
    (by simp [Told, Names, fieldOf]) (by simp [SaysAll, Says, fieldOf, Field.text, two, last, on12])
  have h2 : parse "tt hh".toList "PM 03".toList = .ok (When.tm ⟨1970, 1, 1, 15, 0, 0⟩) := h1
  rw [hp] at h2
  revert h2
  decide

/-- C118 is violated: a format that starts with something else than a letter is an error. -/
theorem separator_first_violated : ¬ ReadBack ∧ parse "(yyyy)".toList "(2024)".toList = .err := by
  have hp : parse "(yyyy)".toList "(2024)".toList = .err := by decide +kernel
  refine ⟨fun h => ?_, hp⟩
  have h1 := h ⟨2024, 1, 1, 0, 0, 0⟩ [('(', 1), ('y', 4), (')', 1)] ["(".toList, "2024".toList, ")".toList]
    (by unfold When.Real; decide) (by simp) (by simp [Apart]) (by simp [Sound, Names, fieldOf])
    (by simp [Told, Names, fieldOf]) (by simp [SaysAll, Says, fieldOf, Field.text, four, last])
  have h2 : parse "(yyyy)".toList "(2024)".toList = .ok _ := h1
  rw [hp] at h2
  cases h2

/-- The format of `toString()`. -/
def own : Text := "yyyy-MM-dd HH:mm:ss".toList

/-- C118 (part, for `toString()`): every date with a year of four digits is read back from its own text. -/
theorem own_text_partial (d : When) (hd : d.Real) (hy : 1000 ≤ d.year) : parse own (toText d.tm) = .ok d.tm := by
  have hR := read_back_partial d
    [('y', 4), ('-', 1), ('M', 2), ('-', 1), ('d', 2), (' ', 1), ('H', 2), (':', 1), ('m', 2), (':', 1), ('s', 2)]
    [four d.year, ['-'], two d.month, ['-'], two d.day, [' '], two d.hour, [':'], two d.minute, [':'], two d.second] hd
    (by simp [Apart]) (by simp [Sound, Names, fieldOf]) (by simp [Told, Names, fieldOf])
    (by simp [SaysAll, Says, fieldOf, Field.text]) ⟨_, _, _, rfl, rfl⟩ (by simp [Ordered, Names, fieldOf])
  obtain ⟨hy9, hm, hdd, hh, hmi, hse⟩ := hd
  have hmo := monthLength_le d.year d.month
  have ey : getYear d.tm = (d.year : Int) := by show (d.year : Int) - 1900 + 1900 = _; omega
  have em : getMonth d.tm = (d.month : Int) := by show (d.month : Int) - 1 + 1 = _; omega
  have e : toText d.tm = List.flatten [four d.year, ['-'], two d.month, ['-'], two d.day, [' '], two d.hour, [':'],
      two d.minute, [':'], two d.second] := by
    have e1 : sprintD 2 d.tm.mday = two d.day := sprint_two (n := d.day) (by omega)
    have e2 : sprintD 2 d.tm.hour = two d.hour := sprint_two (n := d.hour) (by omega)
    have e3 : sprintD 2 d.tm.min = two d.minute := sprint_two (n := d.minute) (by omega)
    have e4 : sprintD 2 d.tm.sec = two d.second := sprint_two (n := d.second) (by omega)
    unfold toText
    rw [ey, em, sprint_year (by omega) hy, sprint_two (by omega), e1, e2, e3, e4]
    simp
  rw [e]
  exact hR

example : toText d0.tm = "2024-02-29 15:07:09".toList := by decide +kernel

/-- It is not so for other years: the text of 31 December 999 is read as another day without an error, and that of a year
of five digits is not read. -/
theorem other_years_violated :
    parse own (toText (When.tm ⟨999, 12, 31, 0, 0, 0⟩)) = .ok (When.tm ⟨999, 2, 1, 0, 0, 0⟩) ∧
      parse own (toText (When.tm ⟨10000, 1, 1, 0, 0, 0⟩)) = .err := by
  constructor <;> decide +kernel

/-! ### C119: a date is written as a format says -/

/-- C119, the full statement. -/
def WrittenAsSaid : Prop :=
  ∀ (d : When) (rs : List Run), d.Real → rs ≠ [] → Apart rs → (∀ r ∈ rs, (writes d r).isSome) →
    format d.tm (formatText rs) = written d rs

/-- C119 (part): for every format without capital letters that does not end with a single letter after another letter, and
every date that exists. Missing: the other formats (see the counterexamples). -/
theorem written_partial (d : When) (rs : List Run) (hd : d.Real) (hne : rs ≠ []) (ha : Apart rs)
    (hw : ∀ r ∈ rs, (writes d r).isSome) (hu : ∀ r ∈ rs, ¬ Char.isUpper r.1 = true) (hcl : ¬ Clipped rs) :
    format d.tm (formatText rs) = written d rs := by
  have hf : formatText rs ≠ [] := by
    cases rs with
    | nil => exact absurd rfl hne
    | cons r rs => exact formatText_ne (apart_one ha)
  unfold format
  rw [if_neg hf, formatText_lower hu, fmtLoop_format hne ha hcl]
  unfold written
  clear hf hne ha hcl
  induction rs with
  | nil => rfl
  | cons r rs ih =>
    rw [List.flatMap_cons, List.flatMap_cons, ih (fun q hq => hw q (by simp [hq])) (fun q hq => hu q (by simp [hq]))]
    obtain ⟨w, hr⟩ := Option.isSome_iff_exists.1 (hw r (by simp))
    obtain ⟨c, n⟩ := r
    rw [render_writes hd hr (hu (c, n) (by simp)), hr]
    rfl

example : format d0.tm "d.yyyy (hh:mm:ss tt) s".toList = "29.2024 (03:07:09 PM) 9".toList := by decide +kernel

example : format d0.tm (formatText [('d', 1), ('.', 1), ('y', 4), (' ', 2), ('h', 2), ('m', 2), ('s', 2), ('t', 2)]) =
    written d0 [('d', 1), ('.', 1), ('y', 4), (' ', 2), ('h', 2), ('m', 2), ('s', 2), ('t', 2)] := by
  refine written_partial _ _ d0_real (by simp) (by simp [Apart]) (by decide) (by decide) ?_
  rintro ⟨pre, c, n, x, he, _, _⟩
  have := congrArg (fun l => l.getLast?) he
  simp at this

/-- C119 is violated: the format is converted to small letters first, so that the month is written as the minutes, and the
hour of a clock with 24 hours as that of one with twelve. -/
theorem capitals_violated :
    ¬ WrittenAsSaid ∧ format d0.tm "yyyy-MM-dd HH".toList = "2024-07-29 03".toList := by
  have hp : format d0.tm "yyyy-MM-dd HH".toList = "2024-07-29 03".toList := by decide +kernel
  refine ⟨fun h => ?_, hp⟩
  have h1 := h d0 [('y', 4), ('-', 1), ('M', 2), ('-', 1), ('d', 2), (' ', 1), ('H', 2)] d0_real (by simp) (by simp [Apart])
    (by decide)
  have h2 : format d0.tm "yyyy-MM-dd HH".toList = written d0 [('y', 4), ('-', 1), ('M', 2), ('-', 1), ('d', 2), (' ', 1), ('H', 2)] := h1
  rw [hp] at h2
  revert h2
  decide +kernel

/-- C119 is violated: a single letter at the end, after another one, is dropped. -/
theorem clipped_violated : ¬ WrittenAsSaid ∧ format d0.tm "mms".toList = "07".toList := by
  have hp : format d0.tm "mms".toList = "07".toList := by decide +kernel
  refine ⟨fun h => ?_, hp⟩
  have h1 := h d0 [('m', 2), ('s', 1)] d0_real (by simp) (by simp [Apart]) (by decide)
  have h2 : format d0.tm "mms".toList = written d0 [('m', 2), ('s', 1)] := h1
  rw [hp] at h2
  revert h2
  decide +kernel

/-! ### The numbers in a text -/

/-- The number that digits stand for. -/
def number (ds : Text) : Nat := ds.foldl (fun a c => 10 * a + (c.toNat - 48)) 0

def Digits (ds : Text) : Prop := ∀ c ∈ ds, '0' ≤ c ∧ c ≤ '9'

theorem digitsVal_eq : ∀ (ds r : Text) (acc : Nat), Digits ds → (∀ c, r.head? = some c → ¬ ('0' ≤ c ∧ c ≤ '9')) →
    digitsVal acc (ds ++ r) = (ds.foldl (fun a c => 10 * a + (c.toNat - 48)) acc, ds.length)
  | [], [], acc, _, _ => rfl
  | [], c :: r, acc, _, hr => by
    have : digitVal c = none := by unfold digitVal; rw [if_neg (hr c rfl)]
    rw [List.nil_append, digitsVal, this]; rfl
  | d :: ds, r, acc, hd, hr => by
    have : digitVal d = some (d.toNat - 48) := by unfold digitVal; rw [if_pos (hd d (by simp))]
    rw [List.cons_append, digitsVal, this]
    simp only [digitsVal_eq ds r _ (fun c hc => hd c (by simp [hc])) hr, List.foldl_cons, List.length_cons]

theorem dropBlanks : ∀ (b t : Text), (∀ c ∈ b, c ∈ [' ', '\t', '\n', '\x0b', '\x0c', '\r']) →
    (∀ c, t.head? = some c → isSpace c = false) → (b ++ t).dropWhile isSpace = t
  | [], [], _, _ => rfl
  | [], c :: t, _, ht => by rw [List.nil_append, List.dropWhile_cons, ht c rfl]; rfl
  | x :: b, t, hb, ht => by
    have hx : isSpace x = true := by
      have h := hb x (by simp)
      revert h
      simp only [List.mem_cons, List.not_mem_nil, or_false]
      rintro (rfl | rfl | rfl | rfl | rfl | rfl) <;> decide
    rw [List.cons_append, List.dropWhile_cons, hx, if_pos rfl]
    exact dropBlanks b t (fun c hc => hb c (by simp [hc])) ht

/-- C118: a field is read as a number whatever blanks and sign come before its digits and whatever comes after them;
without a digit behind them it is no number. -/
theorem field_number (b sg ds r : Text) (hb : ∀ c ∈ b, c ∈ [' ', '\t', '\n', '\x0b', '\x0c', '\r'])
    (hs : sg = [] ∨ sg = ['+'] ∨ sg = ['-']) (hd : Digits ds)
    (hr : ∀ c, r.head? = some c → ¬ ('0' ≤ c ∧ c ≤ '9'))
    (hrs : ds = [] → sg = [] → ∀ c, r.head? = some c → c ∉ [' ', '\t', '\n', '\x0b', '\x0c', '\r'] ∧ c ≠ '+' ∧ c ≠ '-') :
    strtol (b ++ (sg ++ (ds ++ r))) =
      if ds = [] then none else some (if sg = ['-'] then -(number ds : Int) else number ds) := by
  have sp : ∀ c : Char, isSpace c = true → c ∈ [' ', '\t', '\n', '\x0b', '\x0c', '\r'] := by
    intro c hc
    simp only [isSpace, decide_eq_true_eq] at hc
    rcases hc with rfl | ⟨h1, h2⟩
    · simp
    · have e1 : 9 ≤ c.toNat := h1
      have e2 : c.toNat ≤ 13 := h2
      have key : ∀ k : Nat, 9 ≤ k → k ≤ 13 → Char.ofNat k ∈ [' ', '\t', '\n', '\x0b', '\x0c', '\r'] := by
        intro k h1 h2
        have : k = 9 ∨ k = 10 ∨ k = 11 ∨ k = 12 ∨ k = 13 := by omega
        rcases this with rfl | rfl | rfl | rfl | rfl <;> decide
      have := key c.toNat e1 e2
      rwa [Char.ofNat_toNat] at this
  have dsp : ∀ c : Char, ('0' ≤ c ∧ c ≤ '9') → isSpace c = false ∧ c ≠ '-' ∧ c ≠ '+' := by
    intro c hc
    refine ⟨?_, ?_, ?_⟩
    · cases h : isSpace c with
      | false => rfl
      | true =>
        have := sp c h
        simp only [List.mem_cons, List.not_mem_nil, or_false] at this
        rcases this with rfl | rfl | rfl | rfl | rfl | rfl <;> exact absurd hc (by decide)
    · rintro rfl; exact absurd hc (by decide)
    · rintro rfl; exact absurd hc (by decide)
  have hhead : ∀ c, (sg ++ (ds ++ r)).head? = some c → isSpace c = false := by
    intro c hc
    rcases hs with rfl | rfl | rfl
    · cases ds with
      | nil =>
        cases h : isSpace c with
        | false => rfl
        | true => exact absurd (sp c h) (hrs rfl rfl c hc).1
      | cons d ds =>
        simp at hc; subst hc
        exact (dsp d (hd d (by simp))).1
    · simp at hc; subst hc; decide
    · simp at hc; subst hc; decide
  have hv := digitsVal_eq ds r 0 hd hr
  have fin : ∀ neg : Bool, (if (digitsVal 0 (ds ++ r)).2 = 0 then none
      else some (if neg then -((digitsVal 0 (ds ++ r)).1 : Int) else (digitsVal 0 (ds ++ r)).1)) =
      if ds = [] then none else some (if neg then -(number ds : Int) else number ds) := by
    intro neg
    rw [hv]
    cases ds with
    | nil => rfl
    | cons d ds => simp only [List.length_cons, Nat.add_eq_zero_iff, Nat.one_ne_zero, and_false, if_false, reduceCtorEq, number]
  unfold strtol
  simp only [dropBlanks b _ hb hhead]
  rcases hs with rfl | rfl | rfl
  · have n1 : ∀ q, ds ++ r ≠ '-' :: q := by
      intro q hq
      cases ds with
      | nil => exact (hrs rfl rfl '-' (by simp at hq; rw [hq]; rfl)).2.2 rfl
      | cons d ds => simp at hq; exact (dsp d (hd d (by simp))).2.1 hq.1
    have n2 : ∀ q, ds ++ r ≠ '+' :: q := by
      intro q hq
      cases ds with
      | nil => exact (hrs rfl rfl '+' (by simp at hq; rw [hq]; rfl)).2.1 rfl
      | cons d ds => simp at hq; exact (dsp d (hd d (by simp))).2.2 hq.1
    have := fin false
    rw [List.nil_append]
    split
    · rename_i q hq; exact absurd hq (n1 q)
    · rename_i q hq; exact absurd hq (n2 q)
    · simpa using this
  · have := fin false
    simpa using this
  · have := fin true
    simpa using this

example : strtol " +07x".toList = some 7 ∧ strtol "\t-12".toList = some (-12) ∧ strtol " x1".toList = none := by decide

end Verif.DateText
