import Verif.Base.Time
/-
C13 (TimeSpan order), C14 (DateTime validation), C15 (month arithmetic), C52 (DateTime comparison and
difference).
-/
namespace Verif.Time
open Verif

/-! ### Specification -/

/-- Elapsed seconds a time span denotes. -/
def elapsed (t : TimeSpan) : Int := t.days * 86400 + t.hours * 3600 + t.minutes * 60 + t.seconds

/-- Gregorian leap years. -/
def Leap (y : Int) : Prop := (4 ∣ y ∧ ¬ 100 ∣ y) ∨ 400 ∣ y

instance (y : Int) : Decidable (Leap y) := inferInstanceAs (Decidable (_ ∨ _))

/-- Length of a month, 1..12. -/
def daysIn (y : Int) (m : Int) : Int :=
  if m = 2 then (if Leap y then 29 else 28) else if m = 4 ∨ m = 6 ∨ m = 9 ∨ m = 11 then 30 else 31

/-- An existing calendar date and clock time. -/
def ValidDate (y mo d h mi s : Int) : Prop :=
  (1 ≤ mo ∧ mo ≤ 12) ∧ (1 ≤ d ∧ d ≤ daysIn y mo) ∧ (0 ≤ h ∧ h ≤ 23) ∧ (0 ≤ mi ∧ mi ≤ 59) ∧ (0 ≤ s ∧ s ≤ 59)

instance (y mo d h mi s : Int) : Decidable (ValidDate y mo d h mi s) := by unfold ValidDate; infer_instance

/-! ### C13 -/

/-- The comparison operators on time spans form a strict total order and its derived relations. -/
theorem timespan_total_order (a b c : TimeSpan) :
    tsLt a a = false ∧
    (tsLt a b = true → tsLt b c = true → tsLt a c = true) ∧
    (tsLt a b = true ∨ a = b ∨ tsLt b a = true) ∧
    (tsEq a b = true ↔ a = b) ∧
    tsNe a b = !tsEq a b ∧ tsGt a b = tsLt b a ∧
    (tsLe a b = true ↔ tsLt a b = true ∨ a = b) ∧ (tsGe a b = true ↔ tsLt b a = true ∨ a = b) := by
  obtain ⟨d1, h1, m1, s1⟩ := a
  obtain ⟨d2, h2, m2, s2⟩ := b
  obtain ⟨d3, h3, m3, s3⟩ := c
  have lt : ∀ (d1 h1 m1 s1 d2 h2 m2 s2 : Int), tsLt ⟨d1, h1, m1, s1⟩ ⟨d2, h2, m2, s2⟩ = true ↔
      d1 < d2 ∨ (d1 = d2 ∧ (h1 < h2 ∨ (h1 = h2 ∧ (m1 < m2 ∨ (m1 = m2 ∧ s1 < s2))))) := by
    intro d1 h1 m1 s1 d2 h2 m2 s2
    simp only [tsLt]
    repeat' split
    all_goals (simp only [Bool.false_eq_true, false_iff, true_iff]; omega)
  have ltf : ∀ x y, tsLt x y = false ↔ ¬ tsLt x y = true := by intro x y; simp
  refine ⟨?_, ?_, ?_, ?_, rfl, rfl, ?_, ?_⟩
  · rw [ltf, lt]; omega
  · simp only [lt]; omega
  · simp only [lt, TimeSpan.mk.injEq]; omega
  · simp only [tsEq, Bool.and_eq_true, beq_iff_eq, TimeSpan.mk.injEq]; omega
  · simp only [tsLe, tsGt, Bool.not_eq_true', ltf, lt, TimeSpan.mk.injEq]; omega
  · simp only [tsGe, Bool.not_eq_true', ltf, lt, TimeSpan.mk.injEq]; omega

/-- The full property: the order is the order of elapsed times, for every pair of constructible spans. -/
def TimeSpanOrderIsElapsed : Prop :=
  ∀ d1 h1 m1 s1 d2 h2 m2 s2 a b, mkTimeSpan d1 h1 m1 s1 = .ok a → mkTimeSpan d2 h2 m2 s2 = .ok b →
    (tsLt a b = true ↔ elapsed a < elapsed b) ∧ (tsEq a b = true ↔ elapsed a = elapsed b)

/-- The clock fields of the span are not negative (the days may be). -/
def NonNegClock (t : TimeSpan) : Prop :=
  (0 ≤ t.hours ∧ 0 ≤ t.minutes ∧ 0 ≤ t.seconds)

theorem mkTimeSpan_ok {d h m s : Int} {a : TimeSpan} (e : mkTimeSpan d h m s = .ok a) :
    a = ⟨d, h, m, s⟩ ∧ -23 ≤ h ∧ h ≤ 23 ∧ -59 ≤ m ∧ m ≤ 59 ∧ -59 ≤ s ∧ s ≤ 59 := by
  unfold mkTimeSpan at e
  split at e
  · cases e
  split at e
  · cases e
  split at e
  · cases e
  · rename_i x y z
    simp only [Out.ok.injEq] at e
    exact ⟨e.symm, by omega⟩

/-- **C13** (missing: spans with negative hour, minute or second fields, where it fails). -/
theorem timespan_order_elapsed_partial (d1 h1 m1 s1 d2 h2 m2 s2 : Int) (a b : TimeSpan)
    (ha : mkTimeSpan d1 h1 m1 s1 = .ok a) (hb : mkTimeSpan d2 h2 m2 s2 = .ok b)
    (pa : NonNegClock a) (pb : NonNegClock b) :
    (tsLt a b = true ↔ elapsed a < elapsed b) ∧ (tsEq a b = true ↔ elapsed a = elapsed b) := by
  obtain ⟨rfl, ra⟩ := mkTimeSpan_ok ha
  obtain ⟨rfl, rb⟩ := mkTimeSpan_ok hb
  simp only [NonNegClock] at pa pb
  constructor
  · simp only [tsLt, elapsed]
    repeat' split
    all_goals (simp only [Bool.false_eq_true, false_iff, true_iff]; omega)
  · simp only [tsEq, elapsed, Bool.and_eq_true, beq_iff_eq]
    omega

/-- 23 hours compare as less than 1 day minus 23 hours. -/
theorem timespan_order_violated : ¬ TimeSpanOrderIsElapsed := by
  intro h
  have := (h 0 23 0 0 1 (-23) 0 0 _ _ rfl rfl).1
  revert this; decide

example : NonNegClock ⟨3, 4, 0, 59⟩ := by simp [NonNegClock]

/-- The totals are the elapsed time in the given unit whenever no intermediate `int` overflows, in
particular for every span of less than 24855 days either way. -/
theorem timespan_totals (d h m s : Int) (a : TimeSpan) (e : mkTimeSpan d h m s = .ok a)
    (hd : -24855 < d ∧ d < 24855) :
    getTotalSeconds a = .ok (elapsed a) ∧ getTotalMinutes a = .ok ((elapsed a - s) / 60) ∧
    getTotalHours a = .ok (d * 24 + h) := by
  obtain ⟨rfl, ra⟩ := mkTimeSpan_ok e
  have c : ∀ n : Int, -2147483648 ≤ n ∧ n ≤ 2147483647 → chk n = .ok n := by
    intro n hn; unfold chk; exact if_pos hn
  refine ⟨?_, ?_, ?_⟩
  · simp only [getTotalSeconds, elapsed, bind, Out.bind]
    rw [c _ (by omega)]; simp only [Out.bind]
    rw [c _ (by omega)]; simp only [Out.bind]
    rw [c _ (by omega)]; simp only [Out.bind]
    rw [c _ (by omega)]; simp only [Out.bind]
    rw [c _ (by omega)]; simp only [Out.bind]
    rw [c _ (by omega)]; simp only [Out.bind]
    rw [c _ (by omega)]; simp only [Out.bind]
    rw [c _ (by omega)]; simp only [Out.bind]
    rw [c _ (by omega)]
    congr 1; omega
  · simp only [getTotalMinutes, elapsed, bind, Out.bind]
    rw [c _ (by omega)]; simp only [Out.bind]
    rw [c _ (by omega)]; simp only [Out.bind]
    rw [c _ (by omega)]; simp only [Out.bind]
    rw [c _ (by omega)]; simp only [Out.bind]
    rw [c _ (by omega)]
    congr 1; omega
  · simp only [getTotalHours, bind, Out.bind]
    rw [c _ (by omega)]; simp only [Out.bind]
    rw [c _ (by omega)]

/-- From 24856 days on the total number of seconds overflows. -/
theorem timespan_total_overflow : getTotalSeconds ⟨24856, 0, 0, 0⟩ = .ub := by decide

/-! ### C14 -/

theorem isLeapYear_iff (y : Int) : isLeapYear y = true ↔ Leap y := by
  have t : ∀ n : Int, n ≠ 0 → (Int.tmod y n = 0 ↔ n ∣ y) := by
    intro n hn
    exact ⟨Int.dvd_of_tmod_eq_zero, Int.tmod_eq_zero_of_dvd⟩
  unfold isLeapYear Leap
  simp only [Bool.or_eq_true, Bool.and_eq_true, beq_iff_eq, bne_iff_ne, ne_eq]
  rw [t 4 (by omega), t 100 (by omega), t 400 (by omega)]

theorem mkDateTime_eq (y mo d h mi s : Int) (p : Period) : mkDateTime y mo d h mi s p =
    if (1 ≤ mo ∧ mo ≤ 12) ∧ (1 ≤ d ∧ d ≤ daysIn y mo) then
      (hour24 p h).bind fun hour =>
        if (0 ≤ mi ∧ mi ≤ 59) ∧ (0 ≤ s ∧ s ≤ 59) then
          (chk (y - 1900)).map fun y => ⟨y, mo - 1, d, hour, mi, s⟩ else .err
    else .err := by
  have hfun : (fun hour : Int => if mi < 0 ∨ mi > 59 then (Out.err : Out Tm) else if s < 0 ∨ s > 59 then .err
      else (chk (y - 1900)).map fun y => ⟨y, mo - 1, d, hour, mi, s⟩) =
      (fun hour : Int => if (0 ≤ mi ∧ mi ≤ 59) ∧ (0 ≤ s ∧ s ≤ 59) then
          (chk (y - 1900)).map fun y => ⟨y, mo - 1, d, hour, mi, s⟩ else .err) := by
    funext hour
    by_cases h1 : mi < 0 ∨ mi > 59
    · rw [if_pos h1, if_neg (by omega)]
    · rw [if_neg h1]
      by_cases h2 : s < 0 ∨ s > 59
      · rw [if_pos h2, if_neg (by omega)]
      · rw [if_neg h2, if_pos (by omega)]
  have hl := isLeapYear_iff y
  unfold mkDateTime
  rw [hfun]
  unfold daysIn
  by_cases hL : Leap y
  · have hb : isLeapYear y = true := hl.2 hL
    simp only [hb, hL, if_true]
    repeat' split
    all_goals first
      | rfl
      | (exfalso; omega)
      | (exfalso; simp_all; done)
      | (exfalso; simp_all; omega)
  · have hb : isLeapYear y = false := by
      cases h : isLeapYear y
      · rfl
      · exact absurd (hl.1 h) hL
    simp only [hb, hL, if_false]
    repeat' split
    all_goals first
      | rfl
      | (exfalso; omega)
      | (exfalso; simp_all; done)
      | (exfalso; simp_all; omega)

/-- The native constructor without am/pm: a tuple is accepted exactly when it is a date and time, and then the
stored fields are the given ones. -/
theorem datetime_native_exact (y mo d h mi s : Int) (hy : IsInt32 (y - 1900)) :
    mkDateTime y mo d h mi s .undefined =
      if ValidDate y mo d h mi s then .ok ⟨y - 1900, mo - 1, d, h, mi, s⟩ else .err := by
  rw [mkDateTime_eq]
  have hc : chk (y - 1900) = .ok (y - 1900) := by unfold chk; exact if_pos hy
  unfold hour24
  by_cases h1 : (1 ≤ mo ∧ mo ≤ 12) ∧ (1 ≤ d ∧ d ≤ daysIn y mo)
  · rw [if_pos h1]
    by_cases h2 : 0 ≤ h ∧ h ≤ 23
    · simp only [if_neg (show ¬ (h < 0 ∨ h > 23) by omega), Out.bind]
      by_cases h3 : (0 ≤ mi ∧ mi ≤ 59) ∧ (0 ≤ s ∧ s ≤ 59)
      · rw [if_pos h3, if_pos ⟨h1.1, h1.2, h2, h3⟩, hc]; rfl
      · rw [if_neg h3, if_neg (fun hv => h3 hv.2.2.2)]
    · simp only [if_pos (show h < 0 ∨ h > 23 by omega), Out.bind]
      rw [if_neg (fun hv => h2 hv.2.2.1)]
  · rw [if_neg h1, if_neg (fun hv => h1 ⟨hv.1, hv.2.1⟩)]

/-- The am/pm form: hours 1..12; 12 am is midnight and 12 pm is noon. -/
theorem datetime_ampm_exact (y mo d h mi s : Int) (pm : Bool) (hy : IsInt32 (y - 1900)) :
    mkDateTime y mo d h mi s (if pm then .pm else .am) =
      if (1 ≤ h ∧ h ≤ 12) ∧ ValidDate y mo d 0 mi s then
        .ok ⟨y - 1900, mo - 1, d, h % 12 + (if pm then 12 else 0), mi, s⟩ else .err := by
  rw [mkDateTime_eq]
  have hc : chk (y - 1900) = .ok (y - 1900) := by unfold chk; exact if_pos hy
  have hh : hour24 (if pm then .pm else .am) h = if 1 ≤ h ∧ h ≤ 12 then
      .ok (h % 12 + (if pm then 12 else 0)) else .err := by
    cases pm
    · simp only [hour24, Bool.false_eq_true, if_false]
      by_cases h1 : 1 ≤ h ∧ h ≤ 12
      · rw [if_neg (by omega), if_pos h1]
        by_cases h2 : h = 12
        · subst h2; decide
        · simp only [h2, false_and, if_false]
          simp only [reduceCtorEq, false_and, if_false]; congr 1; omega
      · rw [if_pos (by omega), if_neg h1]
    · simp only [hour24, if_true]
      by_cases h1 : 1 ≤ h ∧ h ≤ 12
      · rw [if_neg (by omega), if_pos h1]
        simp only [reduceCtorEq, and_false, if_false, true_and]
        by_cases h2 : h < 12
        · rw [if_pos h2]; congr 1; omega
        · rw [if_neg h2]; congr 1; omega
      · rw [if_pos (by omega), if_neg h1]
  by_cases h1 : (1 ≤ mo ∧ mo ≤ 12) ∧ (1 ≤ d ∧ d ≤ daysIn y mo)
  · rw [if_pos h1, hh]
    by_cases h2 : 1 ≤ h ∧ h ≤ 12
    · simp only [if_pos h2, Out.bind]
      by_cases h3 : (0 ≤ mi ∧ mi ≤ 59) ∧ (0 ≤ s ∧ s ≤ 59)
      · have hv : (1 ≤ h ∧ h ≤ 12) ∧ ValidDate y mo d 0 mi s := ⟨h2, h1.1, h1.2, by omega, h3⟩
        simp only [if_pos h3, if_pos hv, hc]; rfl
      · have hv : ¬ ((1 ≤ h ∧ h ≤ 12) ∧ ValidDate y mo d 0 mi s) := fun hv => h3 hv.2.2.2.2
        simp only [if_neg h3, if_neg hv]
    · simp only [if_neg h2, Out.bind]
      rw [if_neg (fun hv => h2 hv.1)]
  · rw [if_neg h1, if_neg (fun hv => h1 ⟨hv.2.1, hv.2.2.1⟩)]

/-- The full property C14 for the script constructor. -/
def DateTimeValidated : Prop :=
  ∀ y mo d h mi s : Int,
    (ValidDate y mo d h mi s ↔ ∃ t, newDateTime y mo d h mi s = .ok t)

theorem toInt32_id {n : Int} (h : IsInt32 n) : toInt32 n = n := by
  unfold toInt32; unfold IsInt32 at h; omega

/-- **C14** (missing: arguments outside the 32-bit range, which are silently truncated). -/
theorem datetime_validation_partial (y mo d h mi s : Int) (hy : IsInt32 y) (hy' : IsInt32 (y - 1900))
    (hmo : IsInt32 mo) (hd : IsInt32 d) (hh : IsInt32 h) (hmi : IsInt32 mi) (hs : IsInt32 s) :
    (ValidDate y mo d h mi s ↔ ∃ t, newDateTime y mo d h mi s = .ok t) ∧
    (¬ ValidDate y mo d h mi s ↔ newDateTime y mo d h mi s = .err) ∧
    (∀ t, newDateTime y mo d h mi s = .ok t → getYear t = y ∧ getMonth t = mo ∧ t.mday = d ∧ t.hour = h ∧
      t.min = mi ∧ t.sec = s) := by
  unfold newDateTime
  rw [toInt32_id hy, toInt32_id hmo, toInt32_id hd, toInt32_id hh, toInt32_id hmi, toInt32_id hs,
    datetime_native_exact _ _ _ _ _ _ hy']
  by_cases hv : ValidDate y mo d h mi s
  · simp only [hv, if_true]
    refine ⟨by simp, by simp, ?_⟩
    intro t ht
    simp only [Out.ok.injEq] at ht
    subst ht
    simp [getYear, getMonth]
  · simp [hv]

/-- Hour 4294967296 is accepted (as hour 0). -/
theorem datetime_validation_violated : ¬ DateTimeValidated := by
  intro h
  have := (h 2020 2 29 4294967296 0 0).2 ⟨⟨120, 1, 29, 0, 0, 0⟩, by decide⟩
  unfold ValidDate at this
  omega

example : ValidDate 2000 2 29 23 59 59 ∧ ¬ ValidDate 1900 2 29 0 0 0 ∧ IsInt32 (2000 - 1900) := by
  unfold ValidDate daysIn Leap; decide

/-! ### C15 -/

/-- The full property C15 (no year overflow). -/
def MonthsExact : Prop :=
  ∀ (t : Tm) (n : Int), 0 ≤ t.mon → t.mon ≤ 11 → IsInt32 n → -1000000 ≤ t.year → t.year ≤ 1000000 →
    ∃ u, addMonths t n = .ok u ∧ getYear u * 12 + getMonth u = getYear t * 12 + getMonth t + n ∧
      1 ≤ getMonth u ∧ getMonth u ≤ 12

/-- **C15** (missing: negative `n` whose month part exceeds the current month, where the month becomes
zero or negative). For every `n` the month count is right; the month is in range exactly when the month
does not have to borrow a year. -/
theorem addMonths_partial (t : Tm) (n : Int) (h0 : 0 ≤ t.mon) (h1 : t.mon ≤ 11) (hn : IsInt32 n)
    (hy0 : -1000000 ≤ t.year) (hy1 : t.year ≤ 1000000) :
    ∃ u, addMonths t n = .ok u ∧ getYear u * 12 + getMonth u = getYear t * 12 + getMonth t + n ∧
      getMonth u ≤ 12 ∧ (1 ≤ getMonth u ↔ 0 ≤ t.mon + Int.tmod n 12) ∧
      u.mday = t.mday ∧ u.hour = t.hour ∧ u.min = t.min ∧ u.sec = t.sec := by
  have hdm := Int.mul_tdiv_add_tmod n 12
  have hb1 : Int.tmod n 12 < 12 := Int.tmod_lt_of_pos _ (by omega)
  have hb2 : -12 < Int.tmod n 12 := by
    have := Int.lt_tmod_of_pos n (b := 12) (by omega)
    omega
  unfold IsInt32 at hn
  unfold addMonths
  simp only
  generalize Int.tdiv n 12 = q at *
  generalize Int.tmod n 12 = r at *
  by_cases hc : t.mon + r > 11
  · rw [if_pos hc]
    have : chk (t.year + (q + 1)) = .ok (t.year + (q + 1)) := by
      unfold chk; exact if_pos (by unfold IsInt32; omega)
    rw [this]
    refine ⟨_, rfl, ?_, ?_, ?_, rfl, rfl, rfl, rfl⟩ <;> simp only [getYear, getMonth] <;> omega
  · rw [if_neg hc]
    have : chk (t.year + q) = .ok (t.year + q) := by
      unfold chk; exact if_pos (by unfold IsInt32; omega)
    rw [this]
    refine ⟨_, rfl, ?_, ?_, ?_, rfl, rfl, rfl, rfl⟩ <;> simp only [getYear, getMonth] <;> omega

/-- One month before January is month 0 of the same year. -/
theorem addMonths_negative_violated : ¬ MonthsExact := by
  intro h
  obtain ⟨u, h1, _, h3, _⟩ := h ⟨120, 0, 15, 0, 0, 0⟩ (-1) (by decide) (by decide) (by decide) (by decide) (by decide)
  have : u = ⟨120, -1, 15, 0, 0, 0⟩ := by
    have e : addMonths ⟨120, 0, 15, 0, 0, 0⟩ (-1) = .ok ⟨120, -1, 15, 0, 0, 0⟩ := by decide
    rw [e] at h1; simpa using h1.symm
  subst this
  revert h3; decide

/-- The instant is nevertheless the right one once the C library has normalised it: `addMonths` commutes with
`mktime`'s reading of (year, month), for every `n`. -/
theorem addMonths_mktime (t u : Tm) (n : Int) (h : addMonths t n = .ok u) :
    (u.year + 1900 + u.mon / 12) * 12 + u.mon % 12 = (t.year + 1900 + t.mon / 12) * 12 + t.mon % 12 + n := by
  have hdm := Int.mul_tdiv_add_tmod n 12
  unfold addMonths at h
  simp only at h
  generalize Int.tdiv n 12 = q at *
  generalize Int.tmod n 12 = r at *
  unfold chk at h
  split at h
  · split at h
    · simp only [Out.map, Out.ok.injEq] at h; subst h; simp only; omega
    · cases h
  · split at h
    · simp only [Out.map, Out.ok.injEq] at h; subst h; simp only; omega
    · cases h

/-! ### C52: comparison and difference of dates -/

/-- Chronological order of two stored dates: first difference in year, month, day, hour, minute, second. -/
def Earlier (a b : Tm) : Prop :=
  a.year < b.year ∨ (a.year = b.year ∧ (a.mon < b.mon ∨ (a.mon = b.mon ∧ (a.mday < b.mday ∨ (a.mday = b.mday ∧
    (a.hour < b.hour ∨ (a.hour = b.hour ∧ (a.min < b.min ∨ (a.min = b.min ∧ a.sec < b.sec)))))))))

/-- A stored date that a constructor can produce. -/
def Constructed (t : Tm) : Prop :=
  ∃ y mo d h mi s, IsInt32 y ∧ mkDateTime y mo d h mi s .undefined = .ok t

theorem Constructed.valid {t : Tm} (h : Constructed t) :
    ValidDate (t.year + 1900) (t.mon + 1) t.mday t.hour t.min t.sec := by
  obtain ⟨y, mo, d, h, mi, s, hy, e⟩ := h
  have hi : IsInt32 (y - 1900) := by
    rw [mkDateTime_eq] at e
    unfold chk at e
    by_cases h : IsInt32 (y - 1900)
    · exact h
    · simp only [h, if_false, Out.map] at e
      unfold hour24 at e
      simp only [Out.bind] at e
      split at e
      · split at e
        · split at e <;> cases e
        · cases e
        · cases e
      · cases e
  rw [datetime_native_exact _ _ _ _ _ _ hi] at e
  split at e
  · rename_i hv
    simp only [Out.ok.injEq] at e
    subst e
    simpa using hv
  · cases e

/-- Day number of the stored date. -/
def dayNo (t : Tm) : Int := yearStart (t.year + 1900) + monthStart (isLeapYear (t.year + 1900)) t.mon.toNat + t.mday - 1

theorem mktime_valid {t : Tm} (h0 : 0 ≤ t.mon) (h1 : t.mon ≤ 11) :
    mktime t = dayNo t * 86400 + t.hour * 3600 + t.min * 60 + t.sec := by
  unfold mktime dayNo
  have e1 : t.mon / 12 = 0 := by omega
  have e2 : t.mon % 12 = t.mon := by omega
  simp only [e1, e2, Int.add_zero]
  omega

theorem yearStart_step (y z : Int) (h : y < z) : yearStart y + (if Leap y then 366 else 365) ≤ yearStart z := by
  have step : ∀ y, yearStart y + (if Leap y then 366 else 365) = yearStart (y + 1) := by
    intro y
    unfold yearStart
    by_cases h : Leap y
    · rw [if_pos h]; unfold Leap at h; omega
    · rw [if_neg h]; unfold Leap at h; omega
  have mono : ∀ k : Nat, ∀ y, yearStart y ≤ yearStart (y + k) := by
    intro k
    induction k with
    | zero => intro y; simp
    | succ k ih =>
      intro y
      have := ih y
      have := step (y + k)
      rw [show y + ((k + 1 : Nat) : Int) = y + k + 1 by omega]
      split at this <;> omega
  rw [step]
  have := mono (z - (y + 1)).toNat (y + 1)
  rw [show y + 1 + ((z - (y + 1)).toNat : Int) = z by omega] at this
  exact this

theorem toNat_cases {n : Int} (h0 : 0 ≤ n) (h1 : n ≤ 11) :
    n = 0 ∨ n = 1 ∨ n = 2 ∨ n = 3 ∨ n = 4 ∨ n = 5 ∨ n = 6 ∨ n = 7 ∨ n = 8 ∨ n = 9 ∨ n = 10 ∨ n = 11 := by omega

/-- The month table: the next month starts where this one ends, the last month ends the year. -/
theorem monthStart_step (y m : Int) (h0 : 0 ≤ m) (h1 : m ≤ 11) :
    0 ≤ monthStart (isLeapYear y) m.toNat ∧ 0 < daysIn y (m + 1) ∧
    (m < 11 → monthStart (isLeapYear y) m.toNat + daysIn y (m + 1) = monthStart (isLeapYear y) (m + 1).toNat) ∧
    (m = 11 → monthStart (isLeapYear y) m.toNat + daysIn y (m + 1) = if Leap y then 366 else 365) := by
  have hl := isLeapYear_iff y
  by_cases hL : Leap y
  · have hb : isLeapYear y = true := hl.2 hL
    rcases toNat_cases h0 h1 with rfl | rfl | rfl | rfl | rfl | rfl | rfl | rfl | rfl | rfl | rfl | rfl <;>
      simp [hb, hL, daysIn, monthStart, Bool.toInt]
  · have hb : isLeapYear y = false := by
      cases h : isLeapYear y
      · rfl
      · exact absurd (hl.1 h) hL
    rcases toNat_cases h0 h1 with rfl | rfl | rfl | rfl | rfl | rfl | rfl | rfl | rfl | rfl | rfl | rfl <;>
      simp [hb, hL, daysIn, monthStart, Bool.toInt]

theorem monthStart_mono (y m m' : Int) (h0 : 0 ≤ m) (h : m < m') (h1 : m' ≤ 11) :
    monthStart (isLeapYear y) m.toNat + daysIn y (m + 1) ≤ monthStart (isLeapYear y) m'.toNat := by
  have key : ∀ k : Nat, m + 1 + k ≤ 11 →
      monthStart (isLeapYear y) (m + 1).toNat ≤ monthStart (isLeapYear y) (m + 1 + k).toNat := by
    intro k
    induction k with
    | zero => intro _; simp
    | succ k ih =>
      intro hk
      have a := ih (by omega)
      have b := monthStart_step y (m + 1 + k) (by omega) (by omega)
      have c := b.2.2.1 (by omega)
      rw [show m + 1 + ((k + 1 : Nat) : Int) = m + 1 + k + 1 by omega]
      omega
  have a := (monthStart_step y m h0 (by omega)).2.2.1 (by omega)
  have b := key (m' - (m + 1)).toNat (by omega)
  rw [show m + 1 + ((m' - (m + 1)).toNat : Int) = m' by omega] at b
  omega

theorem month_end_le (y m : Int) (h0 : 0 ≤ m) (h1 : m ≤ 11) :
    monthStart (isLeapYear y) m.toNat + daysIn y (m + 1) ≤ if Leap y then 366 else 365 := by
  have e := (monthStart_step y 11 (by omega) (by omega)).2.2.2 rfl
  have p := (monthStart_step y 11 (by omega) (by omega)).2.1
  by_cases h : m = 11
  · subst h; omega
  · have := monthStart_mono y m 11 h0 (by omega) (by omega)
    omega

theorem earlier_mktime {a b : Tm} (ha : Constructed a) (hb : Constructed b) (h : Earlier a b) :
    mktime a < mktime b := by
  obtain ⟨⟨a1, a2⟩, ⟨a3, a4⟩, a5, a6, a7⟩ := ha.valid
  obtain ⟨⟨b1, b2⟩, ⟨b3, b4⟩, b5, b6, b7⟩ := hb.valid
  rw [mktime_valid (by omega) (by omega), mktime_valid (by omega) (by omega)]
  have day : a.year < b.year ∨ (a.year = b.year ∧ (a.mon < b.mon ∨ (a.mon = b.mon ∧ a.mday < b.mday))) →
      dayNo a < dayNo b := by
    intro hd
    unfold dayNo
    rcases hd with hd | ⟨hy, hd | ⟨hm, hd⟩⟩
    · have s1 := yearStart_step (a.year + 1900) (b.year + 1900) (by omega)
      have s2 := month_end_le (a.year + 1900) a.mon (by omega) (by omega)
      have s3 := (monthStart_step (b.year + 1900) b.mon (by omega) (by omega)).1
      omega
    · rw [hy] at a4 ⊢
      have := monthStart_mono (b.year + 1900) a.mon b.mon (by omega) hd (by omega)
      omega
    · rw [hy, hm]; omega
  rcases h with h | ⟨e1, h | ⟨e2, h | ⟨e3, h | ⟨e4, h | ⟨e5, h⟩⟩⟩⟩⟩
  · have := day (.inl h); omega
  · have := day (.inr ⟨e1, .inl h⟩); omega
  · have := day (.inr ⟨e1, .inr ⟨e2, h⟩⟩); omega
  all_goals
    have hd : dayNo a = dayNo b := by unfold dayNo; rw [e1, e2, e3]
    omega

theorem earlier_trichotomy (a b : Tm) : Earlier a b ∨ a = b ∨ Earlier b a := by
  obtain ⟨y1, m1, d1, h1, i1, s1⟩ := a
  obtain ⟨y2, m2, d2, h2, i2, s2⟩ := b
  unfold Earlier
  simp only [Tm.mk.injEq]
  omega

/-- **C52** (comparison): for all constructible dates the six operators are the chronological order. -/
theorem datetime_order_chronological (a b : Tm) (ha : Constructed a) (hb : Constructed b) :
    (dtLt a b = true ↔ Earlier a b) ∧ (dtGt a b = true ↔ Earlier b a) ∧ (dtEq a b = true ↔ a = b) ∧
    (dtLe a b = true ↔ Earlier a b ∨ a = b) ∧ (dtGe a b = true ↔ Earlier b a ∨ a = b) ∧
    (dtNe a b = true ↔ a ≠ b) := by
  have key : (mktime a < mktime b ↔ Earlier a b) ∧ (mktime b < mktime a ↔ Earlier b a) ∧
      (mktime a = mktime b ↔ a = b) := by
    have f := earlier_mktime ha hb
    have g := earlier_mktime hb ha
    rcases earlier_trichotomy a b with h | h | h
    · have := f h
      refine ⟨⟨fun _ => h, f⟩, ⟨fun h2 => by omega, g⟩, ⟨fun h2 => by omega, fun h2 => by rw [h2]⟩⟩
    · subst h
      refine ⟨⟨fun h2 => by omega, f⟩, ⟨fun h2 => by omega, g⟩, by simp⟩
    · have := g h
      refine ⟨⟨fun h2 => by omega, f⟩, ⟨fun _ => h, g⟩, ⟨fun h2 => by omega, fun h2 => by rw [h2]⟩⟩
  obtain ⟨k1, k2, k3⟩ := key
  refine ⟨?_, ?_, ?_, ?_, ?_, ?_⟩
  · simp only [dtLt, decide_eq_true_eq]; exact k1
  · simp only [dtGt, decide_eq_true_eq]; exact k2
  · simp only [dtEq, beq_iff_eq]; exact k3
  · simp only [dtLe, Bool.not_eq_true', decide_eq_false_iff_not]; rw [← k1, ← k3]; omega
  · simp only [dtGe, Bool.not_eq_true', decide_eq_false_iff_not]; rw [← k2, ← k3]; omega
  · simp only [dtNe, Bool.not_eq_true', beq_eq_false_iff_ne, ne_eq, k3]

/-- The full property for subtraction: the difference is the elapsed time. -/
def DifferenceIsElapsed : Prop :=
  ∀ a b, Constructed a → Constructed b → ∃ s, dtSub a b = .ok s ∧ elapsed s = mktime a - mktime b

/-- **C52** (difference; missing: pairs where the clock time of one date is, field by field, not on the
same side as the date itself). -/
theorem datetime_difference_partial (a b : Tm) (ha : Constructed a) (hb : Constructed b)
    (hge : mktime b ≤ mktime a) (hclock : b.hour * 3600 + b.min * 60 + b.sec ≤ a.hour * 3600 + a.min * 60 + a.sec)
    (hrange : mktime a - mktime b < 86400 * 2147483648) :
    ∃ s, dtSub a b = .ok s ∧ elapsed s = mktime a - mktime b := by
  obtain ⟨⟨a1, a2⟩, ⟨a3, a4⟩, a5, a6, a7⟩ := ha.valid
  obtain ⟨⟨b1, b2⟩, ⟨b3, b4⟩, b5, b6, b7⟩ := hb.valid
  have ea := mktime_valid (t := a) (by omega) (by omega)
  have eb := mktime_valid (t := b) (by omega) (by omega)
  unfold dtSub
  have hd : Int.tdiv (mktime a - mktime b) 86400 = dayNo a - dayNo b := by
    rw [Int.tdiv_eq_ediv_of_nonneg (by omega)]
    omega
  have hc : chk (dayNo a - dayNo b) = .ok (dayNo a - dayNo b) := by
    unfold chk; exact if_pos (by unfold IsInt32; omega)
  rw [hd, hc]
  have hg : dtGe a b = true := by
    simp only [dtGe, Bool.not_eq_true', decide_eq_false_iff_not]; omega
  simp only [Out.bind, hg, if_true]
  unfold mkTimeSpan
  rw [if_neg (by omega), if_neg (by omega), if_neg (by omega)]
  refine ⟨_, rfl, ?_⟩
  unfold elapsed
  simp only
  omega

/-- From 23:00 to 01:00 of the next day: the difference comes out as minus 22 hours. -/
theorem datetime_difference_violated : ¬ DifferenceIsElapsed := by
  intro h
  obtain ⟨s, h1, h2⟩ := h ⟨120, 0, 2, 1, 0, 0⟩ ⟨120, 0, 1, 23, 0, 0⟩
    ⟨2020, 1, 2, 1, 0, 0, by decide, by decide⟩ ⟨2020, 1, 1, 23, 0, 0, by decide, by decide⟩
  have e : dtSub ⟨120, 0, 2, 1, 0, 0⟩ ⟨120, 0, 1, 23, 0, 0⟩ = .ok ⟨0, -22, 0, 0⟩ := by decide
  rw [e] at h1
  simp only [Out.ok.injEq] at h1
  subst h1
  revert h2; decide

/-- Backwards it fails too: from 10:00 back to 10:30 of the day before comes out as plus 30 minutes. -/
theorem datetime_difference_negative_violated :
    dtSub ⟨120, 0, 1, 10, 30, 0⟩ ⟨120, 0, 2, 10, 0, 0⟩ = .ok ⟨0, 1, -30, 0⟩ ∧
    mktime ⟨120, 0, 1, 10, 30, 0⟩ - mktime ⟨120, 0, 2, 10, 0, 0⟩ = -84600 := by decide

example : Constructed ⟨120, 1, 29, 23, 59, 59⟩ := ⟨2020, 2, 29, 23, 59, 59, by decide, by decide⟩

end Verif.Time
