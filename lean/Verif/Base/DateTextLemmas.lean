/-
Lemmas about dates as texts.
-/
import Verif.Base.DateTextSpec

namespace Verif.DateText
open Verif Verif.Time

theorem digit_last (n : Nat) : digit n = last n := by
  have h : ∀ k, k < 10 → Char.ofNat (48 + k) = Nat.digitChar k := by decide
  exact h _ (Nat.mod_lt _ (by decide))

theorem digitVal_last (n : Nat) : digitVal (last n) = some (n % 10) := by
  have h : ∀ k, k < 10 → digitVal (Nat.digitChar k) = some k := by decide
  exact h _ (Nat.mod_lt _ (by decide))

theorem strtol_digits {c : Char} {v : Nat} (r : Text) (h : digitVal c = some v) :
    strtol (c :: r) = some ((digitsVal 0 (c :: r)).1 : Int) := by
  have hc : '0' ≤ c ∧ c ≤ '9' := by
    unfold digitVal at h
    split at h
    · assumption
    · cases h
  have h0 : (48 : UInt32) ≤ c.val := hc.1
  have h9 : c.val ≤ (57 : UInt32) := hc.2
  have hs : isSpace c = false := by
    unfold isSpace
    simp only [decide_eq_false_iff_not, not_or, not_and]
    constructor
    · rintro rfl; revert h0; decide
    · intro _ hle
      have h13 : c.val ≤ (13 : UInt32) := hle
      rw [UInt32.le_iff_toNat_le] at h0 h13
      have e1 : (48 : UInt32).toNat = 48 := rfl
      have e2 : (13 : UInt32).toNat = 13 := rfl
      omega
  have hm : c ≠ '-' := by rintro rfl; revert h0; decide
  have hp : c ≠ '+' := by rintro rfl; revert h0; decide
  have hd : (c :: r).dropWhile isSpace = c :: r := by simp [List.dropWhile, hs]
  unfold strtol
  simp only [hd]
  have hg : (digitsVal 0 (c :: r)).2 ≠ 0 := by simp [digitsVal, h]
  split
  · rename_i he; cases he; exact absurd rfl hm
  · rename_i he; cases he; exact absurd rfl hp
  · simp [hg]

theorem strtol_two (n : Nat) (h : n < 100) : strtol (two n) = some (n : Int) := by
  unfold two
  rw [strtol_digits _ (digitVal_last _)]
  simp only [digitsVal, digitVal_last]
  congr 2
  omega

theorem strtol_four (n : Nat) (h : n < 10000) : strtol (four n) = some (n : Int) := by
  unfold four
  rw [strtol_digits _ (digitVal_last _)]
  simp only [digitsVal, digitVal_last]
  congr 2
  omega

theorem isLetter_alpha (c : Char) : isLetter c = c.isAlpha := by
  unfold isLetter Char.isAlpha Char.isUpper Char.isLower
  rw [Bool.or_comm]
  simp only [Char.le_def, UInt32.le_iff_toNat_le, Bool.decide_or, Bool.decide_and]

/-! ### Reading -/

/-- What a field changes. -/
def put (d : When) : Option Field → Found → Found
  | none, f => f
  | some .year, f => { f with year := d.year }
  | some .month, f => { f with month := d.month }
  | some .day, f => { f with day := d.day }
  | some .hour24, f => { f with hour := d.hour }
  | some .hour12, f => { f with hour := on12 d.hour, period := .am }
  | some .minute, f => { f with minute := d.minute }
  | some .second, f => { f with second := d.second }
  | some .half, f => { f with period := if d.hour < 12 then .am else .pm }

theorem on12_le (h : Nat) : 1 ≤ on12 h ∧ on12 h ≤ 12 := by unfold on12; split <;> omega

theorem monthLength_le (y m : Nat) : monthLength y m ≤ 31 := by
  unfold monthLength
  split
  · split <;> omega
  · split <;> omega

theorem says_length {d : When} {r : Run} {t : Text} (h : Says d r t) : t.length = r.2 := by
  unfold Says at h
  split at h
  · rename_i k hk
    subst h
    unfold fieldOf at hk
    repeat' split at hk
    all_goals cases hk
    all_goals rename_i hr; rw [hr]
    all_goals first | rfl | (show List.length (if d.hour < 12 then "AM".toList else "PM".toList) = 2; split <;> rfl)
  · exact h

theorem replicate_eq {n m : Nat} {c x : Char} (hm : 1 ≤ m) (h : List.replicate n c = List.replicate m x) :
    (c, n) = (x, m) := by
  have hl : n = m := by simpa using congrArg List.length h
  subst hl
  obtain ⟨k, rfl⟩ : ∃ k, n = k + 1 := ⟨n - 1, by omega⟩
  simp only [List.replicate_succ, List.cons.injEq] at h
  rw [h.1]

theorem slice (pre t post : Text) : ((pre ++ (t ++ post)).drop pre.length).take t.length = t := by simp

theorem fieldOf_one (c : Char) : fieldOf (c, 1) = none := by simp [fieldOf]

theorem take_year {v : Text} {i : Nat} {f : Found} (h : i + 4 ≤ v.length) :
    take v i "yyyy".toList f = (intAt v i 4).map fun x => { f with year := x } := by
  have h' : i + "yyyy".toList.length ≤ v.length := h
  unfold take; rw [if_pos h', if_pos rfl]

theorem take_month {v : Text} {i : Nat} {f : Found} (h : i + 2 ≤ v.length) :
    take v i "MM".toList f = (intAt v i 2).map fun x => { f with month := x } := by
  have h' : i + "MM".toList.length ≤ v.length := h
  unfold take; rw [if_pos h', if_neg (by decide), if_pos rfl]

theorem take_day {v : Text} {i : Nat} {f : Found} (h : i + 2 ≤ v.length) :
    take v i "dd".toList f = (intAt v i 2).map fun x => { f with day := x } := by
  have h' : i + "dd".toList.length ≤ v.length := h
  unfold take; rw [if_pos h', if_neg (by decide), if_neg (by decide), if_pos rfl]

theorem take_hour {v : Text} {i : Nat} {f : Found} (h : i + 2 ≤ v.length) :
    take v i "HH".toList f = (intAt v i 2).map fun x => { f with hour := x } := by
  have h' : i + "HH".toList.length ≤ v.length := h
  unfold take; rw [if_pos h', if_neg (by decide), if_neg (by decide), if_neg (by decide), if_pos rfl]

theorem take_hour12 {v : Text} {i : Nat} {f : Found} (h : i + 2 ≤ v.length) :
    take v i "hh".toList f = (intAt v i 2).map fun x => { f with hour := x, period := .am } := by
  have h' : i + "hh".toList.length ≤ v.length := h
  unfold take
  rw [if_pos h', if_neg (by decide), if_neg (by decide), if_neg (by decide), if_neg (by decide), if_pos rfl]

theorem take_minute {v : Text} {i : Nat} {f : Found} (h : i + 2 ≤ v.length) :
    take v i "mm".toList f = (intAt v i 2).map fun x => { f with minute := x } := by
  have h' : i + "mm".toList.length ≤ v.length := h
  unfold take
  rw [if_pos h', if_neg (by decide), if_neg (by decide), if_neg (by decide), if_neg (by decide), if_neg (by decide),
    if_pos rfl]

theorem take_second {v : Text} {i : Nat} {f : Found} (h : i + 2 ≤ v.length) :
    take v i "ss".toList f = (intAt v i 2).map fun x => { f with second := x } := by
  have h' : i + "ss".toList.length ≤ v.length := h
  unfold take
  rw [if_pos h', if_neg (by decide), if_neg (by decide), if_neg (by decide), if_neg (by decide), if_neg (by decide),
    if_neg (by decide), if_pos rfl]

theorem take_half {v : Text} {i : Nat} {f : Found} (h : i + 2 ≤ v.length) :
    take v i "tt".toList f =
      if (v.drop i).take 2 = "AM".toList then .ok { f with period := .am }
      else if (v.drop i).take 2 = "PM".toList then .ok { f with period := .pm }
      else .err := by
  have h' : i + "tt".toList.length ≤ v.length := h
  unfold take
  rw [if_pos h', if_neg (by decide), if_neg (by decide), if_neg (by decide), if_neg (by decide), if_neg (by decide),
    if_neg (by decide), if_neg (by decide), if_pos rfl]

theorem take_none {v : Text} {i : Nat} {c : Char} {n : Nat} {f : Found} (h : fieldOf (c, n) = none) :
    take v i (List.replicate n c) f = .ok f := by
  have key : ∀ (m : Nat) (x : Char) (s : Text), s = List.replicate m x → 1 ≤ m → (c, n) ≠ (x, m) →
      ¬ List.replicate n c = s := fun m x s hs hm hne he => hne (replicate_eq hm (he.trans hs))
  have ne : ∀ (m : Nat) (x : Char), fieldOf (x, m) ≠ none → (c, n) ≠ (x, m) := by
    intro m x hx he
    rw [he] at h
    exact hx h
  unfold take
  by_cases hle : i + (List.replicate n c).length ≤ v.length
  · rw [if_pos hle, if_neg (key 4 'y' "yyyy".toList rfl (by decide) (ne _ _ (by decide))), if_neg (key 2 'M' "MM".toList rfl (by decide) (ne _ _ (by decide))),
      if_neg (key 2 'd' "dd".toList rfl (by decide) (ne _ _ (by decide))), if_neg (key 2 'H' "HH".toList rfl (by decide) (ne _ _ (by decide))),
      if_neg (key 2 'h' "hh".toList rfl (by decide) (ne _ _ (by decide))), if_neg (key 2 'm' "mm".toList rfl (by decide) (ne _ _ (by decide))),
      if_neg (key 2 's' "ss".toList rfl (by decide) (ne _ _ (by decide))), if_neg (key 2 't' "tt".toList rfl (by decide) (ne _ _ (by decide)))]
  · rw [if_neg hle]

theorem fieldOf_some {r : Run} {k : Field} (h : fieldOf r = some k) :
    r = match k with
      | .year => ('y', 4) | .month => ('M', 2) | .day => ('d', 2) | .hour24 => ('H', 2) | .hour12 => ('h', 2)
      | .minute => ('m', 2) | .second => ('s', 2) | .half => ('t', 2) := by
  unfold fieldOf at h
  by_cases h1 : r = ('y', 4)
  · rw [if_pos h1] at h; cases h; exact h1
  rw [if_neg h1] at h
  by_cases h2 : r = ('M', 2)
  · rw [if_pos h2] at h; cases h; exact h2
  rw [if_neg h2] at h
  by_cases h3 : r = ('d', 2)
  · rw [if_pos h3] at h; cases h; exact h3
  rw [if_neg h3] at h
  by_cases h4 : r = ('H', 2)
  · rw [if_pos h4] at h; cases h; exact h4
  rw [if_neg h4] at h
  by_cases h5 : r = ('h', 2)
  · rw [if_pos h5] at h; cases h; exact h5
  rw [if_neg h5] at h
  by_cases h6 : r = ('m', 2)
  · rw [if_pos h6] at h; cases h; exact h6
  rw [if_neg h6] at h
  by_cases h7 : r = ('s', 2)
  · rw [if_pos h7] at h; cases h; exact h7
  rw [if_neg h7] at h
  by_cases h8 : r = ('t', 2)
  · rw [if_pos h8] at h; cases h; exact h8
  rw [if_neg h8] at h
  cases h

theorem int_two {pre t post : Text} {v : Nat} (hv : v < 100) (ht : t = two v) :
    intAt (pre ++ (t ++ post)) pre.length 2 = .ok (v : Int) := by
  have hsl := slice pre t post
  have hl : t.length = 2 := by rw [ht]; rfl
  rw [hl] at hsl
  unfold intAt
  rw [hsl, ht, strtol_two v hv]

theorem int_four {pre t post : Text} {v : Nat} (hv : v < 10000) (ht : t = four v) :
    intAt (pre ++ (t ++ post)) pre.length 4 = .ok (v : Int) := by
  have hsl := slice pre t post
  have hl : t.length = 4 := by rw [ht]; rfl
  rw [hl] at hsl
  unfold intAt
  rw [hsl, ht, strtol_four v hv]

/-- A run of letters that has come to its end. -/
theorem take_letters {d : When} (hd : d.Real) {c : Char} {n : Nat} {t pre post : Text} (hs : Says d (c, n) t) (f : Found) :
    take (pre ++ (t ++ post)) pre.length (List.replicate n c) f = .ok (put d (fieldOf (c, n)) f) := by
  have hlen : t.length = n := says_length hs
  have hle : pre.length + n ≤ (pre ++ (t ++ post)).length := by
    simp only [List.length_append]; omega
  obtain ⟨hy, hm, hdd, hh, hmi, hse⟩ := hd
  have hmo := monthLength_le d.year d.month
  have h12 := on12_le d.hour
  unfold Says at hs
  rcases hk : fieldOf (c, n) with _ | k
  · rw [take_none hk]; rfl
  · rw [hk] at hs
    simp only at hs
    have hr := fieldOf_some hk
    cases k <;> (simp only at hr; cases hr)
    · exact (take_year hle).trans (by rw [int_four (by omega) hs]; rfl)
    · exact (take_month hle).trans (by rw [int_two (by omega) hs]; rfl)
    · exact (take_day hle).trans (by rw [int_two (by omega) hs]; rfl)
    · exact (take_hour hle).trans (by rw [int_two (by omega) hs]; rfl)
    · exact (take_hour12 hle).trans (by rw [int_two (by omega) hs]; rfl)
    · exact (take_minute hle).trans (by rw [int_two (by omega) hs]; rfl)
    · exact (take_second hle).trans (by rw [int_two (by omega) hs]; rfl)
    · refine (take_half hle).trans ?_
      have hsl := slice pre t post
      rw [hlen] at hsl
      rw [hsl, hs]
      simp only [put, Field.text]
      by_cases hlt : d.hour < 12
      · simp only [if_pos hlt, if_true]
      · simp only [if_neg hlt]; rfl

/-- The pattern while a run is pending. -/
def patOf (c : Char) (n : Nat) : Text := if isLetter c then List.replicate n c else [c]

theorem patOf_last {c : Char} {n : Nat} (h : 1 ≤ n) : (patOf c n).getLast? = some c := by
  unfold patOf
  split
  · rw [List.getLast?_replicate]; simp; omega
  · rfl

theorem patOf_ne {c : Char} {n : Nat} (h : 1 ≤ n) : patOf c n ≠ [] := by
  intro h0
  have := patOf_last (c := c) h
  rw [h0] at this
  cases this

theorem take_pending {d : When} (hd : d.Real) {c : Char} {n : Nat} {t pre post : Text} (hs : Says d (c, n) t) (f : Found) :
    take (pre ++ (t ++ post)) pre.length (patOf c n) f = .ok (put d (fieldOf (c, n)) f) := by
  unfold patOf
  split
  · exact take_letters hd hs f
  · rename_i hl
    have hf : fieldOf (c, n) = none := by
      unfold fieldOf
      repeat' split
      all_goals first
        | rfl
        | (rename_i h; cases h; exact absurd rfl hl)
    rw [hf]
    exact take_none (c := c) (n := 1) (fieldOf_one c)

theorem extend_same {c : Char} {n : Nat} (h : 1 ≤ n) : extend (patOf c n) c = patOf c (n + 1) := by
  unfold extend
  by_cases hl : isLetter c = true
  · rw [if_pos hl, if_neg (patOf_ne h), if_pos (patOf_last h)]
    simp only [patOf, if_pos hl]
    rw [← List.replicate_succ']
  · rw [if_neg hl]; simp only [patOf, if_neg hl]

theorem extend_other {c x : Char} {n : Nat} (h : 1 ≤ n) (hx : c ≠ x) : extend (patOf c n) x = patOf c n := by
  unfold extend
  split
  · rw [if_neg (patOf_ne h), if_neg]
    rw [patOf_last h]
    intro he
    cases he
    exact hx rfl
  · rfl

theorem note_pending {c x : Char} {n i j : Nat} {f : Found} (h : 1 ≤ n) :
    note i x ⟨patOf c n, j, true, f⟩ = ⟨extend (patOf c n) x, j, true, f⟩ := by
  unfold note
  split
  · simp only [if_neg (patOf_ne h)]
  · rename_i hl
    unfold extend
    rw [if_neg hl]

/-- The first character of the next run. -/
theorem step_next {value : Text} {c x : Char} {n i j : Nat} {f : Found} (last : Bool) (h : 1 ≤ n) (hx : c ≠ x) :
    parseStep value i last x ⟨patOf c n, j, true, f⟩ =
      (take value j (patOf c n) f).map fun f => ⟨patOf x 1, i, true, f⟩ := by
  have h1 : patOf x 1 = [x] := by unfold patOf; split <;> rfl
  simp only [parseStep, note_pending h, extend_other h hx, patOf_last h]
  rw [if_pos (Or.inl (Ne.symm hx)), h1]
  cases take value j (patOf c n) f <;> simp [Out.map]

/-- One more character of a run. -/
theorem step_same {value : Text} {c : Char} {n i j : Nat} {f : Found} (h : 1 ≤ n) :
    parseStep value i false c ⟨patOf c n, j, true, f⟩ = .ok ⟨patOf c (n + 1), j, true, f⟩ := by
  simp only [parseStep, note_pending h, extend_same h, patOf_last (Nat.le_add_left 1 n)]
  rw [if_neg (by simp)]
  simp [Out.map, patOf_ne (c := c) (Nat.le_add_left 1 n)]

/-- The last character of the format. -/
theorem step_last {value : Text} {c : Char} {n i j : Nat} {f : Found} (h : 1 ≤ n) :
    parseStep value i true c ⟨patOf c n, j, true, f⟩ =
      (take value j (patOf c (n + 1)) f).map fun f => ⟨patOf c 1, i, true, f⟩ := by
  have h1 : patOf c 1 = [c] := by unfold patOf; split <;> rfl
  simp only [parseStep, note_pending h, extend_same h, patOf_last (Nat.le_add_left 1 n)]
  rw [if_pos (Or.inr trivial), h1]
  cases take value j (patOf c (n + 1)) f <;> simp [Out.map]

theorem loop_same {value : Text} {c : Char} {j : Nat} {f : Found} {tail : Text} (ht : tail ≠ []) (k : Nat) :
    ∀ (n i : Nat), 1 ≤ n → parseLoop value i (List.replicate k c ++ tail) ⟨patOf c n, j, true, f⟩ =
      parseLoop value (i + k) tail ⟨patOf c (n + k), j, true, f⟩ := by
  induction k with
  | zero => intro n i _; rfl
  | succ k ih =>
    intro n i h
    have he : (List.replicate k c ++ tail).isEmpty = false := by
      cases tail with
      | nil => exact absurd rfl ht
      | cons a r => cases k <;> rfl
    rw [List.replicate_succ, List.cons_append, parseLoop, he, step_same h]
    show parseLoop value (i + 1) _ _ = _
    rw [ih (n + 1) (i + 1) (by omega), Nat.add_assoc i, Nat.add_comm 1 k, Nat.add_assoc n, Nat.add_comm 1 k]

theorem loop_last {value : Text} {c : Char} {j : Nat} {f : Found} (k : Nat) :
    ∀ (n i : Nat), 1 ≤ n → parseLoop value i (List.replicate (k + 1) c) ⟨patOf c n, j, true, f⟩ =
      (take value j (patOf c (n + k + 1)) f).map fun f => ⟨patOf c 1, i + k, true, f⟩ := by
  induction k with
  | zero =>
    intro n i h
    show parseLoop value i [c] _ = _
    rw [parseLoop]
    show (parseStep value i true c _).bind _ = _
    rw [step_last h]
    cases take value j (patOf c (n + 1)) f <;> rfl
  | succ k ih =>
    intro n i h
    rw [List.replicate_succ, parseLoop]
    have he : (List.replicate (k + 1) c).isEmpty = false := rfl
    rw [he, step_same h]
    show parseLoop value (i + 1) _ _ = _
    rw [ih (n + 1) (i + 1) (by omega)]
    have e1 : n + 1 + k + 1 = n + (k + 1) + 1 := by omega
    have e2 : i + 1 + k = i + (k + 1) := by omega
    rw [e1, e2]

theorem formatText_cons (r : Run) (rs : List Run) : formatText (r :: rs) = List.replicate r.2 r.1 ++ formatText rs := rfl

theorem formatText_ne {r : Run} {rs : List Run} (h : 1 ≤ r.2) : formatText (r :: rs) ≠ [] := by
  rw [formatText_cons]
  obtain ⟨c, n⟩ := r
  obtain ⟨k, rfl⟩ : ∃ k, n = k + 1 := ⟨n - 1, by simp at h; omega⟩
  simp [List.replicate_succ]

theorem apart_tail {r : Run} {rs : List Run} (h : Apart (r :: rs)) : Apart rs := by
  cases rs with
  | nil => trivial
  | cons q rs => exact h.2.2

theorem apart_one {r : Run} {rs : List Run} (h : Apart (r :: rs)) : 1 ≤ r.2 := by
  cases rs with
  | nil => exact h
  | cons q rs => exact h.1

/-- What the runs of a format change. -/
def putAll (d : When) (rs : List Run) (f : Found) : Found := rs.foldl (fun f r => put d (fieldOf r) f) f

/-- The rest of a run of which one character has been read, and of the format. -/
theorem loop_runs {d : When} (hd : d.Real) (rs : List Run) : ∀ (c : Char) (n : Nat) (pre t : Text) (ts : List Text) (f : Found),
    Apart ((c, n) :: rs) → Says d (c, n) t → SaysAll d rs ts →
    (n = 1 → rs = [] → fieldOf (c, n) = none) →
    ∃ s, parseLoop (pre ++ (t ++ ts.flatten)) (pre.length + 1) (List.replicate (n - 1) c ++ formatText rs)
        ⟨patOf c 1, pre.length, true, f⟩ = .ok s ∧ s.found = putAll d ((c, n) :: rs) f := by
  induction rs with
  | nil =>
    intro c n pre t ts f ha hs hts _
    have hn : 1 ≤ n := apart_one ha
    cases ts with
    | cons _ _ => exact absurd hts id
    | nil =>
    show ∃ s, parseLoop _ _ (List.replicate (n - 1) c ++ []) _ = _ ∧ _
    rw [List.append_nil]
    rcases Nat.lt_or_ge 1 n with h1 | h1
    · obtain ⟨k, rfl⟩ : ∃ k, n = k + 2 := ⟨n - 2, by omega⟩
      have e : k + 2 - 1 = k + 1 := by omega
      have e2 : 1 + k + 1 = k + 2 := by omega
      rw [e, loop_last k 1 _ (Nat.le_refl _), e2, take_pending hd hs]
      exact ⟨_, rfl, rfl⟩
    · have : n = 1 := by omega
      subst this
      refine ⟨_, rfl, ?_⟩
      simp [putAll, fieldOf_one, put]
  | cons r rs ih =>
    intro c n pre t ts f ha hs hts _
    obtain ⟨x, m⟩ := r
    have hn : 1 ≤ n := apart_one ha
    have hm : 1 ≤ m := apart_one (apart_tail ha)
    have hx : c ≠ x := ha.2.1
    cases ts with
    | nil => exact absurd hts id
    | cons u us =>
    obtain ⟨h1, h2⟩ := hts
    rw [loop_same (formatText_ne (apart_one (apart_tail ha))) (n - 1) 1 _ (Nat.le_refl _)]
    have e1 : pre.length + 1 + (n - 1) = pre.length + n := by omega
    have e2 : 1 + (n - 1) = n := by omega
    rw [e1, e2, formatText_cons]
    obtain ⟨k, rfl⟩ : ∃ k, m = k + 1 := ⟨m - 1, by omega⟩
    rw [List.replicate_succ, List.cons_append, parseLoop, step_next _ hn hx, take_pending hd hs]
    have hlen : t.length = n := says_length hs
    have ev : pre ++ (t ++ (u :: us).flatten) = (pre ++ t) ++ (u ++ us.flatten) := by simp
    have ei : pre.length + n = (pre ++ t).length := by simp [hlen]
    rw [ev, ei]
    exact ih x (k + 1) (pre ++ t) u us (put d (fieldOf (c, n)) f) (apart_tail ha) h1 h2 (by
      rintro h -; have : k = 0 := by omega
      subst this; exact fieldOf_one x)

/-- Reading a format that starts with a letter. -/
theorem loop_format {d : When} (hd : d.Real) {c : Char} {n : Nat} {rs : List Run} {ts : List Text} (hc : isLetter c = true)
    (ha : Apart ((c, n) :: rs)) (hts : SaysAll d ((c, n) :: rs) ts) (f : Found) :
    ∃ s, parseLoop ts.flatten 0 (formatText ((c, n) :: rs)) ⟨[], 0, false, f⟩ = .ok s ∧
      s.found = putAll d ((c, n) :: rs) f := by
  have hn : 1 ≤ n := apart_one ha
  cases ts with
  | nil => exact absurd hts id
  | cons t ts =>
  obtain ⟨h1, h2⟩ := hts
  obtain ⟨k, rfl⟩ : ∃ k, n = k + 1 := ⟨n - 1, by omega⟩
  rw [formatText_cons, List.replicate_succ, List.cons_append, parseLoop]
  have hp : patOf c 1 = [c] := by unfold patOf; split <;> rfl
  have hnote : note 0 c ⟨[], 0, false, f⟩ = ⟨[c], 0, true, f⟩ := by
    simp [note, hc, extend]
  have hstep : ∀ last, parseStep (t ++ ts.flatten) 0 last c ⟨[], 0, false, f⟩ = .ok ⟨patOf c 1, 0, true, f⟩ := by
    intro last
    have ht : take (t ++ ts.flatten) 0 [c] f = .ok f := take_none (c := c) (n := 1) (fieldOf_one c)
    simp only [parseStep, hnote, List.getLast?_singleton, hp]
    cases last
    · simp [Out.map]
    · simp [ht, Out.map]
  rw [show (t :: ts).flatten = t ++ ts.flatten from rfl, hstep]
  exact loop_runs hd rs c (k + 1) [] t ts f ha h1 h2 (by
    rintro h -; have : k = 0 := by omega
    subst this; exact fieldOf_one c)

theorem putAll_cons (d : When) (r : Run) (rs : List Run) (f : Found) :
    putAll d (r :: rs) f = putAll d rs (put d (fieldOf r) f) := rfl

theorem names_cons {r : Run} {rs : List Run} {k : Field} : Names (r :: rs) k ↔ fieldOf r = some k ∨ Names rs k := by
  simp [Names]

theorem putAll_year (d : When) (rs : List Run) : ∀ f : Found, (Names rs .year ∨ f.year = d.year) → (putAll d rs f).year = d.year := by
  induction rs with
  | nil => intro f h; rcases h with ⟨_, h, _⟩ | h; cases h; exact h
  | cons r rs ih =>
    intro f h
    rw [putAll_cons]
    apply ih
    rw [names_cons, or_assoc] at h
    rcases hk : fieldOf r with _ | k
    · rw [hk] at h; simpa [put] using h
    · rw [hk] at h; cases k <;> simp_all [put]

theorem putAll_month (d : When) (rs : List Run) :
    ∀ f : Found, (Names rs .month ∨ f.month = d.month) → (putAll d rs f).month = d.month := by
  induction rs with
  | nil => intro f h; rcases h with ⟨_, h, _⟩ | h; cases h; exact h
  | cons r rs ih =>
    intro f h
    rw [putAll_cons]
    apply ih
    rw [names_cons, or_assoc] at h
    rcases hk : fieldOf r with _ | k
    · rw [hk] at h; simpa [put] using h
    · rw [hk] at h; cases k <;> simp_all [put]

theorem putAll_day (d : When) (rs : List Run) : ∀ f : Found, (Names rs .day ∨ f.day = d.day) → (putAll d rs f).day = d.day := by
  induction rs with
  | nil => intro f h; rcases h with ⟨_, h, _⟩ | h; cases h; exact h
  | cons r rs ih =>
    intro f h
    rw [putAll_cons]
    apply ih
    rw [names_cons, or_assoc] at h
    rcases hk : fieldOf r with _ | k
    · rw [hk] at h; simpa [put] using h
    · rw [hk] at h; cases k <;> simp_all [put]

theorem putAll_minute (d : When) (rs : List Run) :
    ∀ f : Found, (Names rs .minute ∨ f.minute = d.minute) → (putAll d rs f).minute = d.minute := by
  induction rs with
  | nil => intro f h; rcases h with ⟨_, h, _⟩ | h; cases h; exact h
  | cons r rs ih =>
    intro f h
    rw [putAll_cons]
    apply ih
    rw [names_cons, or_assoc] at h
    rcases hk : fieldOf r with _ | k
    · rw [hk] at h; simpa [put] using h
    · rw [hk] at h; cases k <;> simp_all [put]

theorem putAll_second (d : When) (rs : List Run) :
    ∀ f : Found, (Names rs .second ∨ f.second = d.second) → (putAll d rs f).second = d.second := by
  induction rs with
  | nil => intro f h; rcases h with ⟨_, h, _⟩ | h; cases h; exact h
  | cons r rs ih =>
    intro f h
    rw [putAll_cons]
    apply ih
    rw [names_cons, or_assoc] at h
    rcases hk : fieldOf r with _ | k
    · rw [hk] at h; simpa [put] using h
    · rw [hk] at h; cases k <;> simp_all [put]

theorem putAll_hour (d : When) (rs : List Run) : ∀ f : Found, ¬ Names rs .hour12 → (Names rs .hour24 ∨ f.hour = d.hour) →
    (putAll d rs f).hour = d.hour := by
  induction rs with
  | nil => intro f _ h; rcases h with ⟨_, h, _⟩ | h; cases h; exact h
  | cons r rs ih =>
    intro f hn h
    rw [putAll_cons]
    rw [names_cons] at hn h
    rw [not_or] at hn
    apply ih _ hn.2
    rw [or_assoc] at h
    rcases hk : fieldOf r with _ | k
    · rw [hk] at h; simpa [put] using h
    · rw [hk] at h hn; cases k <;> simp_all [put]

theorem putAll_hour12 (d : When) (rs : List Run) : ∀ f : Found, ¬ Names rs .hour24 → (Names rs .hour12 ∨ f.hour = on12 d.hour) →
    (putAll d rs f).hour = on12 d.hour := by
  induction rs with
  | nil => intro f _ h; rcases h with ⟨_, h, _⟩ | h; cases h; exact h
  | cons r rs ih =>
    intro f hn h
    rw [putAll_cons]
    rw [names_cons] at hn h
    rw [not_or] at hn
    apply ih _ hn.2
    rw [or_assoc] at h
    rcases hk : fieldOf r with _ | k
    · rw [hk] at h; simpa [put] using h
    · rw [hk] at h hn; cases k <;> simp_all [put]

theorem putAll_period (d : When) (rs : List Run) : ∀ f : Found, ¬ Names rs .hour12 → ¬ Names rs .half →
    (putAll d rs f).period = f.period := by
  induction rs with
  | nil => intro f _ _; rfl
  | cons r rs ih =>
    intro f h1 h2
    rw [putAll_cons]
    rw [names_cons, not_or] at h1 h2
    rw [ih _ h1.2 h2.2]
    rcases hk : fieldOf r with _ | k
    · rfl
    · rw [hk] at h1 h2; cases k <;> simp_all [put]

theorem putAll_am (d : When) (rs : List Run) : ∀ f : Found, ¬ Names rs .half → (Names rs .hour12 ∨ f.period = .am) →
    (putAll d rs f).period = .am := by
  induction rs with
  | nil => intro f _ h; rcases h with ⟨_, h, _⟩ | h; cases h; exact h
  | cons r rs ih =>
    intro f hn h
    rw [putAll_cons]
    rw [names_cons] at hn h
    rw [not_or] at hn
    apply ih _ hn.2
    rw [or_assoc] at h
    rcases hk : fieldOf r with _ | k
    · rw [hk] at h; simpa [put] using h
    · rw [hk] at h hn; cases k <;> simp_all [put]

theorem putAll_half_stays (d : When) (rs : List Run) : ∀ f : Found, ¬ Names rs .hour12 →
    f.period = (if d.hour < 12 then .am else .pm) → (putAll d rs f).period = if d.hour < 12 then .am else .pm := by
  induction rs with
  | nil => intro f _ h; exact h
  | cons r rs ih =>
    intro f hn h
    rw [putAll_cons]
    rw [names_cons, not_or] at hn
    apply ih _ hn.2
    rcases hk : fieldOf r with _ | k
    · exact h
    · rw [hk] at hn; cases k <;> simp_all [put]

theorem putAll_half (d : When) (rs : List Run) : ∀ f : Found, Ordered rs → Names rs .half →
    (putAll d rs f).period = if d.hour < 12 then .am else .pm := by
  induction rs with
  | nil => intro f _ h; obtain ⟨_, h, _⟩ := h; cases h
  | cons r rs ih =>
    intro f ho hn
    rw [putAll_cons]
    by_cases hr : fieldOf r = some .half
    · apply putAll_half_stays _ _ _ (ho.1 hr)
      rw [hr]; rfl
    · rw [names_cons] at hn
      rcases hn with hn | hn
      · exact absurd hn hr
      · exact ih _ ho.2 hn

theorem isLeap_iff (y : Nat) : isLeapYear (y : Int) = true ↔ leap y := by
  unfold isLeapYear leap
  simp only [Bool.or_eq_true, Bool.and_eq_true, beq_iff_eq, bne_iff_ne, ne_eq,
    Int.tmod_eq_emod_of_nonneg (Int.natCast_nonneg y)]
  omega

theorem make_ok {d : When} (hd : d.Real) {p : Period} {h : Int} (hh : hour24 p h = .ok (d.hour : Int)) :
    mkDateTime d.year d.month d.day h d.minute d.second p = .ok d.tm := by
  obtain ⟨hy, hm, hdd, h23, hmi, hse⟩ := hd
  have hl := isLeap_iff d.year
  unfold monthLength at hdd
  unfold mkDateTime
  rw [hh]
  rw [if_neg (by omega), if_neg (by omega)]
  rw [if_neg (by
    rintro ⟨h1, h2⟩
    rw [if_neg (by omega), if_neg (by omega)] at hdd
    omega)]
  rw [if_neg (by
    rintro ⟨h1, h2⟩
    rw [if_neg (by omega), if_pos (by omega)] at hdd
    omega)]
  rw [if_neg (by
    rintro ⟨h1, h2, h3⟩
    rw [if_pos (by omega), if_pos (hl.1 h2)] at hdd
    omega)]
  rw [if_neg (by
    rintro ⟨h1, h2, h3⟩
    rw [if_pos (by omega), if_neg (fun h => h2 (hl.2 h))] at hdd
    omega)]
  show (if (d.minute : Int) < 0 ∨ (d.minute : Int) > 59 then Out.err else _) = _
  rw [if_neg (by omega), if_neg (by omega)]
  unfold chk
  rw [if_pos (by unfold IsInt32; omega)]
  rfl

/-- The hour that is read. -/
theorem hour_read {d : When} (hd : d.Real) {rs : List Run} (hs : Sound rs) (ho : Ordered rs) (ht : Told rs d) :
    hour24 (putAll d rs {}).period (putAll d rs {}).hour = .ok (d.hour : Int) := by
  obtain ⟨_, _, _, h23, _, _⟩ := hd
  obtain ⟨_, _, _, _, _, hh⟩ := ht
  by_cases h12 : Names rs .hour12
  · have hn24 : ¬ Names rs .hour24 := fun h => hs.1 ⟨h, h12⟩
    rw [putAll_hour12 d rs _ hn24 (Or.inl h12)]
    have hp : (putAll d rs {}).period = if d.hour < 12 then .am else .pm := by
      by_cases hf : Names rs .half
      · exact putAll_half d rs _ ho hf
      · rw [putAll_am d rs _ hf (Or.inl h12), if_pos]
        rcases hh with h | ⟨_, h | h⟩ | h
        · exact absurd h hn24
        · exact absurd h hf
        · exact h
        · omega
    rw [hp]
    unfold on12
    by_cases hlt : d.hour < 12
    · rw [if_pos hlt]
      unfold hour24
      simp only []
      by_cases h0 : d.hour % 12 = 0
      · have : d.hour = 0 := by omega
        rw [if_pos h0, this]; rfl
      · rw [if_neg h0, if_neg (by omega), if_neg (by omega), if_neg (by simp)]
        congr 1; omega
    · rw [if_neg hlt]
      unfold hour24
      simp only []
      by_cases h0 : d.hour % 12 = 0
      · have : d.hour = 12 := by omega
        rw [if_pos h0, this]; rfl
      · rw [if_neg h0, if_neg (by omega), if_neg (by omega), if_pos (by constructor; trivial; omega)]
        congr 1; omega
  · have hnh : ¬ Names rs .half := fun h => h12 (hs.2 h)
    rw [putAll_period d rs _ h12 hnh, putAll_hour d rs _ h12]
    · show (if (d.hour : Int) < 0 ∨ (d.hour : Int) > 23 then Out.err else Out.ok (d.hour : Int)) = _
      rw [if_neg (by omega)]
    · rcases hh with h | ⟨h, _⟩ | h
      · exact Or.inl h
      · exact absurd h h12
      · right; rw [h]; rfl

/-! ### Writing -/

theorem decimals_small {f n : Nat} (h : n < 10) : decimals (f + 1) n = [last n] := by
  unfold decimals; rw [if_pos h, digit_last]

theorem decimals_big {f n : Nat} (h : ¬ n < 10) : decimals (f + 1) n = decimals f (n / 10) ++ [last n] := by
  rw [decimals, if_neg h, digit_last]

theorem decimals1 {n : Nat} (h : n < 10) : decimals 10 n = [last n] := decimals_small h

theorem decimals2 {n : Nat} (h : n < 100) (h1 : ¬ n < 10) : decimals 10 n = two n :=
  (decimals_big (f := 9) h1).trans (by rw [decimals_small (f := 8) (by omega)]; rfl)

theorem decimals3 {n : Nat} (h : n < 1000) (h1 : ¬ n < 100) :
    decimals 10 n = [last (n / 100), last (n / 10), last n] :=
  (decimals_big (f := 9) (by omega)).trans (by
    rw [decimals_big (f := 8) (by omega), decimals_small (f := 7) (by omega), Nat.div_div_eq_div_mul]; rfl)

theorem decimals4 {n : Nat} (h : n < 10000) (h1 : ¬ n < 1000) : decimals 10 n = four n :=
  (decimals_big (f := 9) (by omega)).trans (by
    rw [decimals_big (f := 8) (by omega), decimals_big (f := 7) (by omega), decimals_small (f := 6) (by omega)]
    simp only [Nat.div_div_eq_div_mul]
    rfl)

theorem sprint_nat (w n : Nat) : sprintD w (n : Int) =
    List.replicate (w - (decimals 10 n).length) '0' ++ decimals 10 n := by
  unfold sprintD
  have h0 : ¬ (n : Int) < 0 := by omega
  simp only [h0, if_false, Int.natAbs_natCast]

theorem last_zero : last 0 = '0' := rfl

theorem sprint_two {n : Nat} (h : n < 100) : sprintD 2 (n : Int) = two n := by
  rw [sprint_nat]
  by_cases h1 : n < 10
  · have e : n / 10 = 0 := by omega
    rw [decimals1 h1, two, e]; rfl
  · rw [decimals2 h h1]; rfl

theorem sprint_one {n : Nat} (h : n < 100) : sprintD 1 (n : Int) = oneOrTwo n := by
  rw [sprint_nat, oneOrTwo]
  by_cases h1 : n < 10
  · rw [decimals1 h1, if_pos h1]; rfl
  · rw [decimals2 h h1, if_neg h1]; rfl

theorem sprint_four {n : Nat} (h : n < 10000) : sprintD 4 (n : Int) = four n := by
  rw [sprint_nat]
  by_cases h1 : n < 10
  · have e : n / 10 = 0 := by omega
    have e2 : n / 100 = 0 := by omega
    have e3 : n / 1000 = 0 := by omega
    rw [decimals1 h1, four, e, e2, e3]; rfl
  · by_cases h2 : n < 100
    · have e2 : n / 100 = 0 := by omega
      have e3 : n / 1000 = 0 := by omega
      rw [decimals2 h2 h1, four, e2, e3]; rfl
    · by_cases h3 : n < 1000
      · have e3 : n / 1000 = 0 := by omega
        rw [decimals3 h3 h2, four, e3]; rfl
      · rw [decimals4 h h3]; rfl

theorem sprint_year {n : Nat} (h : n < 10000) (h1 : 1000 ≤ n) : sprintD 0 (n : Int) = four n := by
  rw [sprint_nat, decimals4 h (by omega)]; rfl

/-- The pattern after `n` characters of a run of a format. -/
def pend (c : Char) (n : Nat) : Text := if isLetter c then List.replicate n c else []

/-- What a run is written as. -/
def wrote (t : Tm) (r : Run) : Text := if isLetter r.1 then render t (List.replicate r.2 r.1) else List.replicate r.2 r.1

theorem pend_letter {c : Char} {n : Nat} (h : isLetter c = true) : pend c n = patOf c n := by simp [pend, patOf, h]

theorem fmt_same {t : Tm} {c : Char} {n : Nat} {out : Text} (h : 1 ≤ n) :
    fmtStep t false c (pend c n, out) = (pend c (n + 1), out ++ if isLetter c then [] else [c]) := by
  by_cases hl : isLetter c = true
  · have h1 : 1 ≤ n + 1 := by omega
    simp only [fmtStep, pend_letter hl, extend_same h, patOf_last h1, hl]
    simp [patOf_ne (c := c) h1]
  · simp [fmtStep, pend, extend, hl]

theorem fmt_same_last {t : Tm} {c : Char} {n : Nat} {out : Text} (h : 1 ≤ n) :
    (fmtStep t true c (pend c n, out)).2 =
      out ++ if isLetter c then render t (List.replicate (n + 1) c) else [c] := by
  by_cases hl : isLetter c = true
  · have h1 : 1 ≤ n + 1 := by omega
    have hp : patOf c (n + 1) = List.replicate (n + 1) c := by simp [patOf, hl]
    simp only [fmtStep, pend_letter hl, extend_same h, patOf_last h1, hl]
    simp [hp]
  · simp [fmtStep, pend, extend, hl]

theorem fmt_next {t : Tm} {c x : Char} {n : Nat} {out : Text} (last : Bool) (h : 1 ≤ n) (hx : c ≠ x)
    (hok : last = true → isLetter x = true → False) :
    fmtStep t last x (pend c n, out) =
      (pend x 1, out ++ (if isLetter c then render t (List.replicate n c) else []) ++ if isLetter x then [] else [x]) := by
  by_cases hl : isLetter c = true
  · have hp : patOf c n = List.replicate n c := by simp [patOf, hl]
    have hx' : some c ≠ some x := fun h => hx (Option.some.inj h)
    have hn : n ≠ 0 := by omega
    simp only [fmtStep, pend_letter hl, extend_other h hx, patOf_last h, hl]
    by_cases hlx : isLetter x = true
    · simp [hlx, hx, hp, pend, hn]
    · simp [hlx, hx, hp, pend, hn]
  · by_cases hlx : isLetter x = true
    · have hlast : last = false := by
        cases last
        · rfl
        · exact absurd hlx (fun h => hok rfl h)
      simp [fmtStep, pend, extend, hl, hlx, hlast]
    · simp [fmtStep, pend, extend, hl, hlx]

/-- A single letter at the end, after something that is not a letter. -/
theorem fmt_single_last {t : Tm} {c x : Char} {n : Nat} {out : Text} (hc : ¬ isLetter c = true) (hx : isLetter x = true) :
    (fmtStep t true x (pend c n, out)).2 = out ++ render t [x] := by
  simp [fmtStep, pend, extend, hc, hx]

theorem fmtLoop_same {t : Tm} {c : Char} {tail : Text} (ht : tail ≠ []) (k : Nat) : ∀ (n : Nat) (out : Text), 1 ≤ n →
    fmtLoop t (List.replicate k c ++ tail) (pend c n, out) =
      fmtLoop t tail (pend c (n + k), out ++ if isLetter c then [] else List.replicate k c) := by
  induction k with
  | zero => intro n out _; simp
  | succ k ih =>
    intro n out h
    have he : (List.replicate k c ++ tail).isEmpty = false := by
      cases tail with
      | nil => exact absurd rfl ht
      | cons a r => cases k <;> rfl
    rw [List.replicate_succ, List.cons_append, fmtLoop, he, fmt_same h, ih (n + 1) _ (by omega),
      Nat.add_assoc, Nat.add_comm 1 k]
    congr 2
    split <;> simp

theorem fmtLoop_last {t : Tm} {c : Char} (k : Nat) : ∀ (n : Nat) (out : Text), 1 ≤ n →
    (fmtLoop t (List.replicate (k + 1) c) (pend c n, out)).2 =
      out ++ if isLetter c then render t (List.replicate (n + k + 1) c) else List.replicate (k + 1) c := by
  induction k with
  | zero =>
    intro n out h
    show (fmtStep t true c (pend c n, out)).2 = _
    rw [fmt_same_last h]
    rfl
  | succ k ih =>
    intro n out h
    rw [List.replicate_succ, fmtLoop]
    have he : (List.replicate (k + 1) c).isEmpty = false := rfl
    rw [he, fmt_same h, ih (n + 1) _ (by omega)]
    have e : n + 1 + k + 1 = n + (k + 1) + 1 := by omega
    rw [e]
    split <;> simp [List.replicate_succ]

theorem clipped_tail {r : Run} {rs : List Run} (h : ¬ Clipped (r :: rs)) : ¬ Clipped rs := by
  rintro ⟨pre, c, n, x, he, h1, h2⟩
  exact h ⟨r :: pre, c, n, x, by rw [he]; rfl, h1, h2⟩

/-- The rest of a format of which one character of a run has been read. -/
theorem fmtLoop_runs {t : Tm} (rs : List Run) : ∀ (c : Char) (n : Nat) (out : Text), Apart ((c, n) :: rs) →
    ¬ Clipped ((c, n) :: rs) → (rs = [] → n = 1 → isLetter c = true → False) →
    (fmtLoop t (List.replicate (n - 1) c ++ formatText rs) (pend c 1, out ++ if isLetter c then [] else [c])).2 =
      out ++ ((c, n) :: rs).flatMap (wrote t) := by
  induction rs with
  | nil =>
    intro c n out ha _ hok
    have hn : 1 ≤ n := apart_one ha
    show (fmtLoop t (List.replicate (n - 1) c ++ []) _).2 = _
    rw [List.append_nil]
    rcases Nat.lt_or_ge 1 n with h1 | h1
    · obtain ⟨k, rfl⟩ : ∃ k, n = k + 2 := ⟨n - 2, by omega⟩
      have e : k + 2 - 1 = k + 1 := by omega
      have e2 : 1 + k + 1 = k + 2 := by omega
      rw [e, fmtLoop_last k 1 _ (Nat.le_refl _), e2]
      simp only [List.flatMap_cons, List.flatMap_nil, List.append_nil, wrote]
      split
      · simp
      · simp [List.replicate_succ]
    · have : n = 1 := by omega
      subst this
      have hl : ¬ isLetter c = true := fun h => hok rfl rfl h
      simp [fmtLoop, wrote, hl]
  | cons r rs ih =>
    intro c n out ha hcl _
    obtain ⟨x, m⟩ := r
    have hn : 1 ≤ n := apart_one ha
    have hm : 1 ≤ m := apart_one (apart_tail ha)
    have hx : c ≠ x := ha.2.1
    rw [fmtLoop_same (formatText_ne (apart_one (apart_tail ha))) (n - 1) 1 _ (Nat.le_refl _)]
    have e2 : 1 + (n - 1) = n := by omega
    rw [e2, formatText_cons]
    obtain ⟨k, rfl⟩ : ∃ k, m = k + 1 := ⟨m - 1, by omega⟩
    have hout : ((out ++ if isLetter c = true then [] else [c]) ++ if isLetter c = true then [] else List.replicate (n - 1) c) =
        out ++ if isLetter c = true then [] else List.replicate n c := by
      split
      · simp
      · obtain ⟨j, rfl⟩ : ∃ j, n = j + 1 := ⟨n - 1, by omega⟩
        simp [List.replicate_succ]
    rw [hout]
    rw [List.replicate_succ, List.cons_append, fmtLoop]
    by_cases hsp : rs = [] ∧ k = 0 ∧ isLetter x = true
    · obtain ⟨rfl, rfl, hlx⟩ := hsp
      have hlc : ¬ isLetter c = true := by
        intro h
        exact hcl ⟨[], c, n, x, rfl, by rw [← isLetter_alpha]; exact h, by rw [← isLetter_alpha]; exact hlx⟩
      show (fmtStep t true x _).2 = _
      rw [fmt_single_last hlc hlx]
      simp [wrote, hlc, hlx]
    · have hlast : (List.replicate k x ++ formatText rs).isEmpty = true → isLetter x = true → False := by
        intro he hlx
        have he' : List.replicate k x ++ formatText rs = [] := List.isEmpty_iff.1 he
        obtain ⟨h1, h2⟩ := List.append_eq_nil_iff.1 he'
        have hk : k = 0 := by simpa using h1
        have hrs : rs = [] := by
          cases rs with
          | nil => rfl
          | cons q qs => exact absurd h2 (formatText_ne (apart_one (apart_tail (apart_tail ha))))
        exact hsp ⟨hrs, hk, hlx⟩
      rw [fmt_next _ hn hx hlast]
      have hih := ih x (k + 1) (out ++ (if isLetter c = true then [] else List.replicate n c) ++
        (if isLetter c = true then render t (List.replicate n c) else [])) (apart_tail ha) (clipped_tail hcl) (by
          intro h1 h2 h3
          exact hsp ⟨h1, by omega, h3⟩)
      simp only [Nat.add_sub_cancel] at hih
      rw [hih]
      simp only [List.flatMap_cons, wrote]
      split <;> simp

theorem fmtLoop_format {t : Tm} {rs : List Run} (hne : rs ≠ []) (ha : Apart rs) (hcl : ¬ Clipped rs) :
    (fmtLoop t (formatText rs) ([], [])).2 = rs.flatMap (wrote t) := by
  cases rs with
  | nil => exact absurd rfl hne
  | cons r rs =>
  obtain ⟨c, n⟩ := r
  have hn : 1 ≤ n := apart_one ha
  obtain ⟨k, rfl⟩ : ∃ k, n = k + 1 := ⟨n - 1, by omega⟩
  rw [formatText_cons, List.replicate_succ, List.cons_append, fmtLoop]
  by_cases hsp : rs = [] ∧ k = 0 ∧ isLetter c = true
  · obtain ⟨rfl, rfl, hl⟩ := hsp
    simp [fmtLoop, fmtStep, extend, hl, wrote, formatText]
  · have hlast : (List.replicate k c ++ formatText rs).isEmpty = true → isLetter c = true → False := by
      intro he hlx
      have he' : List.replicate k c ++ formatText rs = [] := List.isEmpty_iff.1 he
      obtain ⟨h1, h2⟩ := List.append_eq_nil_iff.1 he'
      have hk : k = 0 := by simpa using h1
      have hrs : rs = [] := by
        cases rs with
        | nil => rfl
        | cons q qs => exact absurd h2 (formatText_ne (apart_one (apart_tail ha)))
      exact hsp ⟨hrs, hk, hlx⟩
    have hstep : fmtStep t (List.replicate k c ++ formatText rs).isEmpty c ([], []) =
        (pend c 1, [] ++ if isLetter c then [] else [c]) := by
      generalize (List.replicate k c ++ formatText rs).isEmpty = b at hlast
      by_cases hl : isLetter c = true
      · cases b
        · simp [fmtStep, extend, hl, pend]
        · exact absurd hl (fun h => hlast rfl h)
      · simp [fmtStep, extend, hl, pend]
    rw [hstep]
    have := fmtLoop_runs (t := t) rs c (k + 1) [] ha hcl (by
      intro h1 h2 h3; exact hsp ⟨h1, by omega, h3⟩)
    simpa using this

theorem hour12_text {w h : Nat} {f : Nat → Text} (hh : h ≤ 23) (hw : ∀ n : Nat, n < 100 → sprintD w (n : Int) = f n)
    (h12 : f 12 = "12".toList) : hour12 w (h : Int) = f (on12 h) := by
  unfold hour12 on12
  by_cases h0 : h = 0
  · subst h0; exact h12.symm
  · rw [if_neg (by omega)]
    by_cases h1 : h > 12
    · rw [if_pos (by omega), if_neg (by omega)]
      have e : (h : Int) - 12 = ((h - 12 : Nat) : Int) := by omega
      rw [e, hw _ (by omega)]
      congr 1; omega
    · rw [if_neg (by omega), hw _ (by omega)]
      congr 1
      split <;> omega

/-- The runs of small letters that mean something are written as they should be. -/
theorem render_writes {d : When} (hd : d.Real) {c : Char} {n : Nat} {w : Text} (hw : writes d (c, n) = some w)
    (hu : ¬ Char.isUpper c = true) : wrote d.tm (c, n) = w := by
  obtain ⟨hy, hm, hdd, hh, hmi, hse⟩ := hd
  have hmo := monthLength_le d.year d.month
  have h12 := on12_le d.hour
  have ey : getYear d.tm = (d.year : Int) := by show (d.year : Int) - 1900 + 1900 = _; omega
  have et : Int.tmod (getYear d.tm) 100 = ((d.year % 100 : Nat) : Int) := by
    rw [ey, Int.tmod_eq_emod_of_nonneg (Int.natCast_nonneg _)]; omega
  unfold writes at hw
  unfold wrote
  by_cases h1 : (c, n) = ('y', 4)
  · rw [if_pos h1] at hw; cases hw; cases h1
    show sprintD 4 (getYear d.tm) = _
    rw [ey, sprint_four (by omega)]
  rw [if_neg h1] at hw
  by_cases h2 : (c, n) = ('y', 2)
  · rw [if_pos h2] at hw; cases hw; cases h2
    show sprintD 2 (Int.tmod (getYear d.tm) 100) = _
    rw [et, sprint_two (by omega)]
  rw [if_neg h2] at hw
  by_cases h3 : (c, n) = ('M', 2)
  · cases h3; exact absurd rfl hu
  rw [if_neg h3] at hw
  by_cases h4 : (c, n) = ('M', 1)
  · cases h4; exact absurd rfl hu
  rw [if_neg h4] at hw
  by_cases h5 : (c, n) = ('d', 2)
  · rw [if_pos h5] at hw; cases hw; cases h5
    exact sprint_two (n := d.day) (by omega)
  rw [if_neg h5] at hw
  by_cases h6 : (c, n) = ('d', 1)
  · rw [if_pos h6] at hw; cases hw; cases h6
    exact sprint_one (n := d.day) (by omega)
  rw [if_neg h6] at hw
  by_cases h7 : (c, n) = ('H', 2)
  · cases h7; exact absurd rfl hu
  rw [if_neg h7] at hw
  by_cases h8 : (c, n) = ('H', 1)
  · cases h8; exact absurd rfl hu
  rw [if_neg h8] at hw
  by_cases h9 : (c, n) = ('h', 2)
  · rw [if_pos h9] at hw; cases hw; cases h9
    exact hour12_text (w := 2) (f := two) hh (fun n hn => sprint_two hn) rfl
  rw [if_neg h9] at hw
  by_cases h10 : (c, n) = ('h', 1)
  · rw [if_pos h10] at hw; cases hw; cases h10
    exact hour12_text (w := 1) (f := oneOrTwo) hh (fun n hn => sprint_one hn) rfl
  rw [if_neg h10] at hw
  by_cases h11 : (c, n) = ('m', 2)
  · rw [if_pos h11] at hw; cases hw; cases h11
    exact sprint_two (n := d.minute) (by omega)
  rw [if_neg h11] at hw
  by_cases h12 : (c, n) = ('m', 1)
  · rw [if_pos h12] at hw; cases hw; cases h12
    exact sprint_one (n := d.minute) (by omega)
  rw [if_neg h12] at hw
  by_cases h13 : (c, n) = ('s', 2)
  · rw [if_pos h13] at hw; cases hw; cases h13
    exact sprint_two (n := d.second) (by omega)
  rw [if_neg h13] at hw
  by_cases h14 : (c, n) = ('s', 1)
  · rw [if_pos h14] at hw; cases hw; cases h14
    exact sprint_one (n := d.second) (by omega)
  rw [if_neg h14] at hw
  by_cases h15 : (c, n) = ('t', 2)
  · rw [if_pos h15] at hw; cases hw; cases h15
    show (if (d.hour : Int) ≥ 12 then "PM".toList else "AM".toList) = _
    by_cases hlt : d.hour < 12
    · rw [if_pos hlt, if_neg (by omega)]
    · rw [if_neg hlt, if_pos (by omega)]
  rw [if_neg h15] at hw
  by_cases h16 : Char.isAlpha c = true
  · rw [if_pos h16] at hw; cases hw
  · rw [if_neg h16] at hw; cases hw
    rw [if_neg (by rw [isLetter_alpha]; exact h16)]

theorem lower_small {c : Char} (h : ¬ Char.isUpper c = true) : lower c = c := by
  unfold lower
  rw [if_neg]
  rintro ⟨h1, h2⟩
  apply h
  unfold Char.isUpper
  simp only [ge_iff_le, decide_eq_true_eq]
  exact ⟨h1, h2⟩

theorem formatText_lower {rs : List Run} (h : ∀ r ∈ rs, ¬ Char.isUpper r.1 = true) :
    (formatText rs).map lower = formatText rs := by
  induction rs with
  | nil => rfl
  | cons r rs ih =>
    rw [formatText_cons, List.map_append, ih (fun q hq => h q (by simp [hq])), List.map_replicate,
      lower_small (h r (by simp))]

end Verif.DateText
