import Verif.Base.DatesSpec
/-
Lemmas about dates: day numbers.
-/
namespace Verif.Dates
open Verif Verif.Time

/-- The number of a day. -/
def num (d : Day) : Int := yearStart d.y + monthStart (isLeapYear d.y) (d.m - 1).toNat + d.d - 1

theorem yearLen (y : Int) : yearStart y + (if Leap y then 366 else 365) = yearStart (y + 1) := by
  unfold yearStart
  by_cases h : Leap y
  · rw [if_pos h]; unfold Leap at h; omega
  · rw [if_neg h]; unfold Leap at h; omega

theorem next_num {d : Day} (h : d.Real) : d.next.Real ∧ num d.next = num d + 1 := by
  obtain ⟨y, m, dd⟩ := d
  obtain ⟨⟨h1, h2⟩, h3, h4⟩ := h
  simp only at h1 h2 h3 h4
  obtain ⟨s1, s2, s3, s4⟩ := monthStart_step y (m - 1) (by omega) (by omega)
  rw [show m - 1 + 1 = m by omega] at s2 s3 s4
  simp only [Day.next]
  by_cases hd : dd < daysIn y m
  · rw [if_pos hd]
    refine ⟨⟨⟨h1, h2⟩, ?_⟩, ?_⟩
    · simp only; omega
    · simp only [num]; omega
  · rw [if_neg hd]
    have hdd : dd = daysIn y m := by omega
    by_cases hm : m < 12
    · rw [if_pos hm]
      have p := (monthStart_step y m (by omega) (by omega)).2.1
      refine ⟨⟨⟨?_, ?_⟩, ?_⟩, ?_⟩
      · simp only; omega
      · simp only; omega
      · simp only; omega
      · have := s3 (by omega)
        simp only [num, show m + 1 - 1 = m by omega]
        omega
    · rw [if_neg hm]
      have hm : m = 12 := by omega
      subst hm
      have := s4 rfl
      have := yearLen y
      refine ⟨⟨⟨?_, ?_⟩, ?_⟩, ?_⟩
      · show (1 : Int) ≤ 1; omega
      · show (1 : Int) ≤ 12; omega
      · simp [daysIn]
      · have e : num ⟨y + 1, 1, 1⟩ = yearStart (y + 1) := by
          simp only [num, show (1 : Int) - 1 = 0 from rfl]
          simp only [Int.toNat_zero, monthStart]
          omega
        rw [e]
        simp only [num]
        omega

theorem prev_num {d : Day} (h : d.Real) : d.prev.Real ∧ num d.prev = num d - 1 := by
  obtain ⟨y, m, dd⟩ := d
  obtain ⟨⟨h1, h2⟩, h3, h4⟩ := h
  simp only at h1 h2 h3 h4
  simp only [Day.prev]
  by_cases hd : 1 < dd
  · rw [if_pos hd]
    refine ⟨⟨⟨h1, h2⟩, ?_⟩, ?_⟩
    · simp only; omega
    · simp only [num]; omega
  · rw [if_neg hd]
    have hdd : dd = 1 := by omega
    subst hdd
    by_cases hm : 1 < m
    · rw [if_pos hm]
      obtain ⟨s1, s2, s3, s4⟩ := monthStart_step y (m - 2) (by omega) (by omega)
      rw [show m - 2 + 1 = m - 1 by omega] at s2 s3 s4
      refine ⟨⟨⟨?_, ?_⟩, ?_⟩, ?_⟩
      · simp only; omega
      · simp only; omega
      · simp only; omega
      · have := s3 (by omega)
        simp only [num, show m - 1 - 1 = m - 2 by omega]
        omega
    · rw [if_neg hm]
      have hm : m = 1 := by omega
      subst hm
      obtain ⟨s1, s2, s3, s4⟩ := monthStart_step (y - 1) 11 (by omega) (by omega)
      have := s4 rfl
      have hy := yearLen (y - 1)
      rw [show y - 1 + 1 = y by omega] at hy
      have hd12 : daysIn (y - 1) (11 + 1) = 31 := by simp [daysIn]
      refine ⟨⟨⟨?_, ?_⟩, ?_⟩, ?_⟩
      · show (1 : Int) ≤ 12; omega
      · show (12 : Int) ≤ 12; omega
      · simp [daysIn]
      · have e : num ⟨y, 1, 1⟩ = yearStart y := by
          simp only [num, show (1 : Int) - 1 = 0 from rfl]
          simp only [Int.toNat_zero, monthStart]
          omega
        rw [e]
        simp only [num, show (12 : Int) - 1 = 11 from rfl]
        omega

theorem later_num {d : Day} (h : d.Real) : ∀ n : Nat, (d.later n).Real ∧ num (d.later n) = num d + n
  | 0 => ⟨h, by simp [Day.later]⟩
  | n + 1 => by
    obtain ⟨h1, h2⟩ := later_num h n
    obtain ⟨h3, h4⟩ := next_num h1
    exact ⟨h3, by rw [Day.later, h4, h2]; omega⟩

theorem earlier_num {d : Day} (h : d.Real) : ∀ n : Nat, (d.earlier n).Real ∧ num (d.earlier n) = num d - n
  | 0 => ⟨h, by simp [Day.earlier]⟩
  | n + 1 => by
    obtain ⟨h1, h2⟩ := earlier_num h n
    obtain ⟨h3, h4⟩ := prev_num h1
    exact ⟨h3, by rw [Day.earlier, h4, h2]; omega⟩

theorem shift_num {d : Day} (h : d.Real) (n : Int) : (d.shift n).Real ∧ num (d.shift n) = num d + n := by
  unfold Day.shift
  split
  · obtain ⟨h1, h2⟩ := later_num h n.toNat
    exact ⟨h1, by omega⟩
  · obtain ⟨h1, h2⟩ := earlier_num h (-n).toNat
    exact ⟨h1, by omega⟩

/-- The order of days. -/
theorem num_lt {a b : Day} (ha : a.Real) (hb : b.Real) (hd : a.y < b.y ∨ (a.y = b.y ∧ (a.m < b.m ∨ (a.m = b.m ∧ a.d < b.d)))) : num a < num b := by
  obtain ⟨⟨a1, a2⟩, a3, a4⟩ := ha
  obtain ⟨⟨b1, b2⟩, b3, b4⟩ := hb
  unfold num
  rcases hd with hd | ⟨hy, hd | ⟨hm, hd⟩⟩
  · have s1 := yearStart_step a.y b.y hd
    have s2 := month_end_le a.y (a.m - 1) (by omega) (by omega)
    have s3 := (monthStart_step b.y (b.m - 1) (by omega) (by omega)).1
    rw [show a.m - 1 + 1 = a.m by omega] at s2
    omega
  · rw [hy] at a4 ⊢
    have := monthStart_mono b.y (a.m - 1) (b.m - 1) (by omega) (by omega) (by omega)
    rw [show a.m - 1 + 1 = a.m by omega] at this
    omega
  · rw [hy, hm]; omega

theorem num_inj {a b : Day} (ha : a.Real) (hb : b.Real) (h : num a = num b) : a = b := by
  have h1 := fun hd => num_lt ha hb hd
  have h2 := fun hd => num_lt hb ha hd
  obtain ⟨y, m, d⟩ := a
  obtain ⟨y2, m2, d2⟩ := b
  simp only at h1 h2
  have e1 : y = y2 := by
    rcases Int.lt_trichotomy y y2 with hl | he | hl
    · have := h1 (.inl hl); omega
    · exact he
    · have := h2 (.inl hl); omega
  have e2 : m = m2 := by
    rcases Int.lt_trichotomy m m2 with hl | he | hl
    · have := h1 (.inr ⟨e1, .inl hl⟩); omega
    · exact he
    · have := h2 (.inr ⟨e1.symm, .inl hl⟩); omega
  have e3 : d = d2 := by
    rcases Int.lt_trichotomy d d2 with hl | he | hl
    · have := h1 (.inr ⟨e1, .inr ⟨e2, hl⟩⟩); omega
    · exact he
    · have := h2 (.inr ⟨e1.symm, .inr ⟨e2.symm, hl⟩⟩); omega
  rw [e1, e2, e3]

/-! ### Weekdays -/

theorem epoch_num : num ⟨1970, 1, 1⟩ = 719162 := by decide +kernel

theorem epoch_real : (⟨1970, 1, 1⟩ : Day).Real := by
  unfold Day.Real
  decide +kernel

/-- The day of the week is a function of the day. -/
theorem weekday_num {d : Day} {w : Int} (h : Weekday d w) : d.Real ∧ w = (num d + 1) % 7 := by
  induction h with
  | epoch => exact ⟨epoch_real, by rw [epoch_num]; decide⟩
  | next _ ih =>
    obtain ⟨h1, h2⟩ := ih
    obtain ⟨h3, h4⟩ := next_num h1
    exact ⟨h3, by omega⟩
  | prev _ ih =>
    obtain ⟨h1, h2⟩ := ih
    obtain ⟨h3, h4⟩ := prev_num h1
    exact ⟨h3, by omega⟩

theorem weekday_later : ∀ n : Nat, Weekday (Day.later ⟨1970, 1, 1⟩ n) ((4 + n) % 7)
  | 0 => Weekday.epoch
  | n + 1 => by
    have := Weekday.next (weekday_later n)
    rw [show (4 + ((n + 1 : Nat) : Int)) % 7 = ((4 + (n : Int)) % 7 + 1) % 7 by omega]
    exact this

theorem weekday_earlier : ∀ n : Nat, Weekday (Day.earlier ⟨1970, 1, 1⟩ n) ((4 - n) % 7)
  | 0 => Weekday.epoch
  | n + 1 => by
    have := Weekday.prev (weekday_earlier n)
    rw [show (4 - ((n + 1 : Nat) : Int)) % 7 = ((4 - (n : Int)) % 7 + 6) % 7 by omega]
    exact this

theorem weekday_of {d : Day} (h : d.Real) : Weekday d ((num d + 1) % 7) := by
  by_cases hle : 719162 ≤ num d
  · obtain ⟨h1, h2⟩ := later_num epoch_real (num d - 719162).toNat
    rw [epoch_num] at h2
    have e := num_inj h1 h (by omega)
    have w := weekday_later (num d - 719162).toNat
    rw [e] at w
    rw [show (num d + 1) % 7 = (4 + (((num d - 719162).toNat : Nat) : Int)) % 7 by omega]
    exact w
  · obtain ⟨h1, h2⟩ := earlier_num epoch_real (719162 - num d).toNat
    rw [epoch_num] at h2
    have e := num_inj h1 h (by omega)
    have w := weekday_earlier (719162 - num d).toNat
    rw [e] at w
    rw [show (num d + 1) % 7 = (4 - (((719162 - num d).toNat : Nat) : Int)) % 7 by omega]
    exact w

/-! ### The C library -/

theorem civil_ok (n : Int) : yearStart (civil n).1 + (civil n).2 = n ∧ 0 ≤ (civil n).2 ∧
    (civil n).2 < if Leap (civil n).1 then 366 else 365 := by
  have hq : n = 146097 * (n / 146097) + n % 146097 := by omega
  have hr0 : 0 ≤ n % 146097 := by omega
  have hr1 : n % 146097 < 146097 := by omega
  have key : ∀ q r c f y : Int, n = 146097 * q + r → r < 146097 → 0 ≤ c → c ≤ 3 → 36524 * c ≤ r → (c < 3 → r < 36524 * c + 36524) → 0 ≤ f →
      f ≤ 24 → 1461 * f ≤ r - c * 36524 → r - c * 36524 < 1461 * f + 1461 → 0 ≤ y → y ≤ 3 → 365 * y ≤ r - c * 36524 - f * 1461 →
      (y < 3 → r - c * 36524 - f * 1461 < 365 * y + 365) →
      yearStart (400 * q + 100 * c + 4 * f + y + 1) + (r - c * 36524 - f * 1461 - 365 * y) = n ∧
        0 ≤ r - c * 36524 - f * 1461 - 365 * y ∧
        r - c * 36524 - f * 1461 - 365 * y < if Leap (400 * q + 100 * c + 4 * f + y + 1) then 366 else 365 := by
    intro q r c f y hn hr c0 c3 c4 c5 f0 f1 f2 f3 y0 y1 y2 y3
    have h4 : (400 * q + 100 * c + 4 * f + y + 1 - 1) / 4 = 100 * q + 25 * c + f := by omega
    have h100 : (400 * q + 100 * c + 4 * f + y + 1 - 1) / 100 = 4 * q + c := by omega
    have h400 : (400 * q + 100 * c + 4 * f + y + 1 - 1) / 400 = q := by omega
    refine ⟨?_, by omega, ?_⟩
    · unfold yearStart
      rw [h4, h100, h400]
      omega
    · by_cases hL : Leap (400 * q + 100 * c + 4 * f + y + 1)
      · rw [if_pos hL]
        omega
      · rw [if_neg hL]
        unfold Leap at hL
        omega
  unfold civil
  exact key _ _ _ _ _ hq hr1 (by omega) (by omega) (by omega) (by omega) (by omega) (by omega) (by omega) (by omega) (by omega) (by omega)
    (by omega) (by omega)

set_option maxHeartbeats 1000000 in
theorem month_ok (y doy : Int) (h0 : 0 ≤ doy) (h1 : doy < if Leap y then 366 else 365) :
    monthIndex (isLeapYear y) doy ≤ 11 ∧ monthStart (isLeapYear y) (monthIndex (isLeapYear y) doy) ≤ doy ∧
      doy < monthStart (isLeapYear y) (monthIndex (isLeapYear y) doy) + daysIn y (monthIndex (isLeapYear y) doy + 1) := by
  have hl := isLeapYear_iff y
  generalize hm : monthIndex (isLeapYear y) doy = m
  unfold monthIndex at hm
  by_cases hL : Leap y
  · have hb : isLeapYear y = true := hl.2 hL
    rw [if_pos hL] at h1
    simp only [hb, monthStart, Bool.toInt, cond_true, cond_false] at hm
    rw [hb]
    repeat' split at hm
    all_goals subst hm
    all_goals simp [monthStart, daysIn, hL, Bool.toInt]
    all_goals omega
  · have hb : isLeapYear y = false := by
      cases h : isLeapYear y
      · rfl
      · exact absurd (hl.1 h) hL
    rw [if_neg hL] at h1
    simp only [hb, monthStart, Bool.toInt, cond_true, cond_false] at hm
    rw [hb]
    repeat' split at hm
    all_goals subst hm
    all_goals simp [monthStart, daysIn, hL, Bool.toInt]
    all_goals omega

/-- `localtime` gives the day and the clock. -/
theorem localtime_ok {d : Day} {s : Int} (hd : d.Real) (hs0 : 0 ≤ s) (hs1 : s < 86400) (hy : IsInt32 (d.y - 1900)) :
    ∃ t, localtime (num d * 86400 + s) = .ok t ∧ Reads t ⟨d, s, true⟩ ∧ Named t d := by
  have e1 : (num d * 86400 + s) / 86400 = num d := by omega
  have e2 : (num d * 86400 + s) % 86400 = s := by omega
  obtain ⟨c1, c2, c3⟩ := civil_ok (num d)
  simp only [localtime, e1, e2]
  generalize hc : civil (num d) = c at *
  obtain ⟨y, doy⟩ := c
  simp only at c1 c2 c3
  obtain ⟨m1, m2, m3⟩ := month_ok y doy c2 c3
  generalize hm : monthIndex (isLeapYear y) doy = m at *
  have hreal : (⟨y, m + 1, doy - monthStart (isLeapYear y) m + 1⟩ : Day).Real := by
    refine ⟨⟨?_, ?_⟩, ?_⟩ <;> simp only <;> omega
  have hnum : num ⟨y, m + 1, doy - monthStart (isLeapYear y) m + 1⟩ = num d := by
    simp only [num, show ((m : Int) + 1 - 1).toNat = m by omega]
    simp only [num] at c1
    omega
  have hday := num_inj hreal hd hnum
  rw [← hday] at hy
  have hchk : chk (y - 1900) = .ok (y - 1900) := by
    unfold chk
    exact if_pos hy
  rw [hchk]
  refine ⟨_, rfl, ?_, ?_⟩
  · rw [← hday]
    refine ⟨?_, rfl, rfl, ?_, ⟨?_, ?_⟩, ⟨?_, ?_⟩, ?_, ?_⟩ <;> simp only <;> omega
  · have h11 : (⟨y, 1, 1⟩ : Day).Real := by
      refine ⟨⟨?_, ?_⟩, ?_⟩ <;> simp [daysIn]
    have n11 : num ⟨y, 1, 1⟩ = yearStart y := by
      simp only [num, show (1 : Int) - 1 = 0 from rfl]
      simp only [Int.toNat_zero, monthStart]
      omega
    obtain ⟨l1, l2⟩ := later_num h11 doy.toNat
    have hyd : d.y = y := by rw [← hday]
    refine ⟨weekday_of hd, c2, ?_⟩
    simp only
    rw [hyd]
    refine num_inj l1 hd ?_
    rw [l2, n11]
    omega

theorem mktime_reads {t : Dt} {S : Spec} (h : Reads t S) (hr : S.day.Real) : mktime t.tm = num S.day * 86400 + S.clock ∧ 0 ≤ S.clock ∧ S.clock < 86400 := by
  obtain ⟨h1, h2, h3, h4, h5, h6, h7⟩ := h
  obtain ⟨⟨r1, r2⟩, r3, r4⟩ := hr
  rw [mktime_valid (by omega) (by omega)]
  unfold dayNo num
  rw [h1, h3, show S.day.m - 1 = t.tm.mon by omega]
  omega

/-- State and specification. -/
structure J (t : Dt) (S : Spec) : Prop where
  reads : Reads t S
  real : S.day.Real
  year : IsInt32 (S.day.y - 1900)
  named : S.fresh = true → Named t S.day

theorem toInt32_of {n : Int} (h : IsInt32 n) : toInt32 n = n := toInt32_id h

theorem addSeconds_ok {t : Dt} {S : Spec} (j : J t S) (k : Int) (hy : IsInt32 ((S.day.shift ((S.clock + k) / 86400)).y - 1900)) :
    ∃ t1, addSeconds t k = .ok t1 ∧ J t1 ⟨S.day.shift ((S.clock + k) / 86400), (S.clock + k) % 86400, true⟩ := by
  obtain ⟨m1, m2, m3⟩ := mktime_reads j.reads j.real
  obtain ⟨s1, s2⟩ := shift_num j.real ((S.clock + k) / 86400)
  obtain ⟨t1, h1, h2, h3⟩ := localtime_ok (s := (S.clock + k) % 86400) s1 (by omega) (by omega) hy
  refine ⟨t1, ?_, h2, s1, hy, fun _ => h3⟩
  unfold addSeconds
  rw [m1, ← h1, s2]
  congr 1
  omega

theorem chk_ok {n : Int} (h : IsInt32 n) : chk n = .ok n := if_pos h

theorem step_ok {t : Dt} {S : Spec} (op : Op) (j : J t S) (h : S.Fine op) : ∃ t1, step t op = .ok t1 ∧ J t1 (S.step op) := by
  cases op with
  | add u n =>
    obtain ⟨h1, h2, h3⟩ := h
    cases u with
    | second =>
      simp only [step, add, toInt32_of h1]
      simp only [Spec.step, Span.seconds, Int.mul_one] at h3 ⊢
      exact addSeconds_ok j n h3
    | minute =>
      simp only [step, add, toInt32_of h1]
      simp only [Span.seconds] at h2
      rw [chk_ok h2]
      exact addSeconds_ok j _ h3
    | hour =>
      simp only [step, add, toInt32_of h1]
      simp only [Span.seconds] at h2
      rw [chk_ok h2]
      exact addSeconds_ok j _ h3
    | day =>
      simp only [step, add, toInt32_of h1]
      simp only [Span.seconds] at h2
      rw [chk_ok h2]
      exact addSeconds_ok j _ h3
  | addMonths n =>
    obtain ⟨h1, h2, h3, h4⟩ := h
    obtain ⟨⟨r1, r2⟩, r3, r4⟩ := j.real
    obtain ⟨k1, k2, k3, k4⟩ := j.reads
    have hdm := Int.mul_tdiv_add_tmod n 12
    have hb1 : Int.tmod n 12 < 12 := Int.tmod_lt_of_pos _ (by omega)
    have hb2 : -12 < Int.tmod n 12 := by
      have := Int.lt_tmod_of_pos n (b := 12) (by omega)
      omega
    simp only [step, toInt32_of h1, addMonths]
    simp only [Spec.step] at h3 h4 ⊢
    generalize Int.tdiv n 12 = q at *
    generalize Int.tmod n 12 = r at *
    by_cases hc : t.tm.mon + r > 11
    · rw [if_pos hc]
      have e1 : (S.day.m - 1 + n) / 12 = q + 1 := by omega
      have e2 : (S.day.m - 1 + n) % 12 = S.day.m - 1 + r - 12 := by omega
      rw [e1] at h4
      rw [e1, e2] at h3 ⊢
      rw [chk_ok (by rw [show t.tm.year + (q + 1) = S.day.y + (q + 1) - 1900 by omega]; exact h4)]
      refine ⟨_, rfl, ⟨?_, ?_, k3, k4⟩, h3, h4, fun h => by cases h⟩
      · simp only; omega
      · simp only; omega
    · rw [if_neg hc]
      have e1 : (S.day.m - 1 + n) / 12 = q := by omega
      have e2 : (S.day.m - 1 + n) % 12 = S.day.m - 1 + r := by omega
      rw [e1] at h4
      rw [e1, e2] at h3 ⊢
      rw [chk_ok (by rw [show t.tm.year + q = S.day.y + q - 1900 by omega]; exact h4)]
      refine ⟨_, rfl, ⟨?_, ?_, k3, k4⟩, h3, h4, fun h => by cases h⟩
      · simp only; omega
      · simp only; omega
  | addYears n =>
    obtain ⟨h1, h3, h4⟩ := h
    obtain ⟨k1, k2, k3, k4⟩ := j.reads
    simp only [step, toInt32_of h1, addYears]
    simp only [Spec.step] at h3 h4 ⊢
    rw [chk_ok (by rw [show t.tm.year + n = S.day.y + n - 1900 by omega]; exact h4)]
    refine ⟨_, rfl, ⟨?_, k2, k3, k4⟩, h3, h4, fun h => by cases h⟩
    simp only
    omega
  | sub =>
    obtain ⟨m1, m2, m3⟩ := mktime_reads j.reads j.real
    obtain ⟨t1, h1, h2, h3⟩ := localtime_ok (s := S.clock) j.real m2 m3 j.year
    refine ⟨t1, ?_, h2, j.real, j.year, fun _ => h3⟩
    simp only [step, normalise]
    rw [m1, h1]

theorem run_ok {t : Dt} {S : Spec} (ops : List Op) (j : J t S) (h : S.FineAll ops) : ∃ t1, run t ops = .ok t1 ∧ J t1 (S.run ops) := by
  induction ops generalizing t S with
  | nil => exact ⟨t, rfl, j⟩
  | cons op ops ih =>
    obtain ⟨t1, h1, j1⟩ := step_ok op j h.1
    obtain ⟨t2, h2, j2⟩ := ih j1 h.2
    refine ⟨t2, ?_, j2⟩
    simp only [run, h1, Out.bind]
    exact h2

theorem make_ok {y mo d h mi s : Int} (hv : ValidDate y mo d h mi s) (hy : IsInt32 y) (hy2 : IsInt32 (y - 1900)) :
    ∃ t, make y mo d h mi s = .ok t ∧ J t ⟨⟨y, mo, d⟩, h * 3600 + mi * 60 + s, true⟩ := by
  obtain ⟨⟨v1, v2⟩, ⟨v3, v4⟩, v5, v6, v7⟩ := hv
  have hd31 : daysIn y mo ≤ 31 := by
    unfold daysIn
    repeat' split
    all_goals omega
  have i32 : ∀ n : Int, 0 ≤ n → n ≤ 59 → toInt32 n = n := fun n h1 h2 => toInt32_id (by unfold IsInt32; omega)
  have e : newDateTime y mo d h mi s = .ok ⟨y - 1900, mo - 1, d, h, mi, s⟩ := by
    unfold newDateTime
    rw [toInt32_id hy, i32 mo (by omega) (by omega), i32 d (by omega) (by omega), i32 h (by omega) (by omega),
      i32 mi (by omega) (by omega), i32 s (by omega) (by omega), datetime_native_exact _ _ _ _ _ _ hy2]
    exact if_pos ⟨⟨v1, v2⟩, ⟨v3, v4⟩, v5, v6, v7⟩
  have hreal : (⟨y, mo, d⟩ : Day).Real := ⟨⟨v1, v2⟩, v3, v4⟩
  obtain ⟨m1, m2, m3⟩ := mktime_reads (t := ⟨⟨y - 1900, mo - 1, d, h, mi, s⟩, 0, 0⟩) (S := ⟨⟨y, mo, d⟩, h * 3600 + mi * 60 + s, true⟩)
    (by refine ⟨?_, ?_, rfl, rfl, v5, v6, v7⟩ <;> simp only <;> omega) hreal
  obtain ⟨t1, h1, h2, h3⟩ := localtime_ok (s := h * 3600 + mi * 60 + s) hreal m2 m3 hy2
  refine ⟨t1, ?_, h2, hreal, hy2, fun _ => h3⟩
  simp only [make, e, Out.bind, normalise]
  rw [m1, h1]

end Verif.Dates
