import Verif.Base.DatesLemmas
/-
Properties C114 and C115: dates over their life.
-/
namespace Verif.Dates
open Verif Verif.Time

/-- A date that a script makes and works with. -/
def life (y mo d h mi s : Int) (ops : List Op) : Out Dt := (make y mo d h mi s).bind fun t => run t ops

/-- What it starts as. -/
def start (y mo d h mi s : Int) : Spec := ⟨⟨y, mo, d⟩, h * 3600 + mi * 60 + s, true⟩

theorem life_ok {y mo d h mi s : Int} (hv : ValidDate y mo d h mi s) (hy : IsInt32 y) (hy2 : IsInt32 (y - 1900)) (ops : List Op)
    (hf : (start y mo d h mi s).FineAll ops) : ∃ t, life y mo d h mi s ops = .ok t ∧ J t ((start y mo d h mi s).run ops) := by
  obtain ⟨t0, h0, j0⟩ := make_ok hv hy hy2
  obtain ⟨t, h1, j1⟩ := run_ok ops j0 hf
  refine ⟨t, ?_, j1⟩
  simp only [life, h0, Out.bind]
  exact h1

/-! ## C114 -/

/-- Only seconds, minutes, hours and days are added, numbers of scripts (64 bits), and years stay in the range of `int`. -/
def OnlySpans (S : Spec) : List Op → Prop
  | [] => True
  | op :: ops => (∃ u n, op = .add u n ∧ -9223372036854775808 ≤ n ∧ n ≤ 9223372036854775807) ∧ IsInt32 ((S.step op).day.y - 1900) ∧
      OnlySpans (S.step op) ops

/-- All of them are spans of less than 2^31 seconds. -/
def ShortSpans (ops : List Op) : Prop := ∀ u n, Op.add u n ∈ ops → IsInt32 (n * u.seconds)

/-- The full property C114. -/
def SpansMove : Prop :=
  ∀ (y mo d h mi s : Int) (ops : List Op), ValidDate y mo d h mi s → IsInt32 y → IsInt32 (y - 1900) → OnlySpans (start y mo d h mi s) ops →
    ∃ t, life y mo d h mi s ops = .ok t ∧ Reads t ((start y mo d h mi s).run ops) ∧ Named t ((start y mo d h mi s).run ops).day

theorem fine_spans (ops : List Op) : ∀ S : Spec, OnlySpans S ops → ShortSpans ops → S.FineAll ops := by
  induction ops with
  | nil => intro S _ _; trivial
  | cons op ops ih =>
    intro S h hs
    obtain ⟨⟨u, n, rfl, _, _⟩, h2, h3⟩ := h
    refine ⟨⟨?_, hs u n (by simp), h2⟩, ih _ h3 (fun u n h => hs u n (by simp [h]))⟩
    have := hs u n (by simp)
    unfold IsInt32 at this ⊢
    cases u <;> simp only [Span.seconds] at this <;> omega

theorem fresh_spans (ops : List Op) : ∀ S : Spec, OnlySpans S ops → S.fresh = true → (S.run ops).fresh = true := by
  induction ops with
  | nil => intro S _ h; exact h
  | cons op ops ih =>
    intro S h _
    obtain ⟨⟨u, n, rfl, _, _⟩, _, h3⟩ := h
    exact ih _ h3 rfl

/-- Every valid date, moved by any number of spans of less than 2^31 seconds, forwards and backwards, is on the day of the calendar and at
the time that they lead to, and gives the right day of the week and of the year. -/
theorem spans_move_partial (y mo d h mi s : Int) (ops : List Op) (hv : ValidDate y mo d h mi s) (hy : IsInt32 y) (hy2 : IsInt32 (y - 1900))
    (ho : OnlySpans (start y mo d h mi s) ops) (hs : ShortSpans ops) :
    ∃ t, life y mo d h mi s ops = .ok t ∧ Reads t ((start y mo d h mi s).run ops) ∧ Named t ((start y mo d h mi s).run ops).day := by
  obtain ⟨t, h1, j⟩ := life_ok hv hy hy2 ops (fine_spans ops _ ho hs)
  exact ⟨t, h1, j.reads, j.named (fresh_spans ops _ ho rfl)⟩

/-- 2023-12-31 23:59:59, a second later, 59 days later (a leap day), 25 hours earlier: 2024-02-27 23:00:00. -/
example : ValidDate 2023 12 31 23 59 59 ∧ OnlySpans (start 2023 12 31 23 59 59) [.add .second 1, .add .day 59, .add .hour (-25)] ∧
    ShortSpans [.add .second 1, .add .day 59, .add .hour (-25)] ∧
    (start 2023 12 31 23 59 59).run [.add .second 1, .add .day 59, .add .hour (-25)] = ⟨⟨2024, 2, 27⟩, 82800, true⟩ := by
  refine ⟨by decide +kernel, ⟨⟨_, _, rfl, by decide, by decide⟩, by decide +kernel, ⟨_, _, rfl, by decide, by decide⟩, by decide +kernel,
    ⟨_, _, rfl, by decide, by decide⟩, by decide +kernel, trivial⟩, ?_, by decide +kernel⟩
  intro u n h
  simp only [List.mem_cons, Op.add.injEq, List.not_mem_nil, or_false] at h
  rcases h with ⟨rfl, rfl⟩ | ⟨rfl, rfl⟩ | ⟨rfl, rfl⟩ <;> decide

/-- 2024-02-29 is a Thursday and the 59th day after the first of January. -/
example : make 2024 2 29 12 0 0 = .ok ⟨⟨124, 1, 29, 12, 0, 0⟩, 4, 59⟩ := by decide +kernel

/-- 24856 days, 68 years, are more seconds than an `int` holds; 2^32 seconds are none. -/
theorem spans_violated : ¬ SpansMove ∧ life 2024 1 1 0 0 0 [.add .day 24856] = .ub ∧
    life 2024 1 1 0 0 0 [.add .second 4294967296] = make 2024 1 1 0 0 0 := by
  have hub : life 2024 1 1 0 0 0 [.add .day 24856] = .ub := by decide +kernel
  refine ⟨?_, hub, by decide +kernel⟩
  intro h
  obtain ⟨t, h1, _⟩ := h 2024 1 1 0 0 0 [.add .second 4294967296] (by decide +kernel) (by decide) (by decide)
    ⟨⟨_, _, rfl, by decide, by decide⟩, by
      have hr : (start 2024 1 1 0 0 0).day.Real := by
        unfold Day.Real
        decide +kernel
      obtain ⟨s1, s2⟩ := shift_num hr 49710
      have e : (Day.shift ⟨2024, 1, 1⟩ 49710) = ⟨2160, 2, 7⟩ := by
        refine num_inj s1 ?_ ?_
        · unfold Day.Real
          decide +kernel
        · refine s2.trans ?_
          decide +kernel
      have e2 : ((start 2024 1 1 0 0 0).step (.add .second 4294967296)).day = ⟨2160, 2, 7⟩ := by
        simp only [Spec.step, start, Span.seconds]
        exact e
      rw [e2]
      decide, trivial⟩
  rename_i h2
  have hm : life 2024 1 1 0 0 0 [.add .second 4294967296] = .ok ⟨⟨124, 0, 1, 0, 0, 0⟩, 1, 0⟩ := by decide +kernel
  rw [hm] at h1
  cases h1
  have hc := h2.1.2.2.2.1
  have e3 : ((start 2024 1 1 0 0 0).run [.add .second 4294967296]).clock = 23296 := by decide
  rw [e3] at hc
  revert hc
  decide

/-! ## C115 -/

/-- The full property C115: at any time the getters give a day of the calendar and a time, with its day of the week and of the year; and
subtracting dates does not change them. -/
def AlwaysADay : Prop :=
  ∀ (y mo d h mi s : Int) (ops : List Op) (t : Dt), ValidDate y mo d h mi s → life y mo d h mi s ops = .ok t →
    (∃ S : Spec, Reads t S ∧ S.day.Real ∧ Named t S.day) ∧ step t .sub = .ok t

/-- With months and years added as long as the day exists then, and months not counted back across the first of January: the day and the
time are the right ones. Day of week and of year are, unless months or years were added last. -/
theorem always_a_day_partial (y mo d h mi s : Int) (ops : List Op) (hv : ValidDate y mo d h mi s) (hy : IsInt32 y) (hy2 : IsInt32 (y - 1900))
    (hf : (start y mo d h mi s).FineAll ops) :
    ∃ t, life y mo d h mi s ops = .ok t ∧ Reads t ((start y mo d h mi s).run ops) ∧ ((start y mo d h mi s).run ops).day.Real ∧
      (((start y mo d h mi s).run ops).fresh = true → Named t ((start y mo d h mi s).run ops).day) := by
  obtain ⟨t, h1, j⟩ := life_ok hv hy hy2 ops hf
  exact ⟨t, h1, j.reads, j.real, j.named⟩

/-- A month and a year after 2023-12-30, and a day later. -/
example : ValidDate 2023 12 30 8 30 0 ∧ (start 2023 12 30 8 30 0).FineAll [.addMonths 1, .addYears 1, .sub, .add .day 2, .addMonths (-1)] ∧
    (start 2023 12 30 8 30 0).run [.addMonths 1, .addYears 1, .sub, .add .day 2, .addMonths (-1)] = ⟨⟨2025, 1, 1⟩, 30600, false⟩ := by
  refine ⟨by decide +kernel, ?_, by decide +kernel⟩
  simp only [Spec.FineAll, Spec.Fine, Day.Real, IsInt32]
  decide +kernel

/-- A month after the 31st of January is the "31st of February". -/
theorem month_later_violated : ¬ AlwaysADay ∧ life 2023 1 31 0 0 0 [.addMonths 1] = .ok ⟨⟨123, 1, 31, 0, 0, 0⟩, 2, 30⟩ := by
  have hm : life 2023 1 31 0 0 0 [.addMonths 1] = .ok ⟨⟨123, 1, 31, 0, 0, 0⟩, 2, 30⟩ := by decide +kernel
  refine ⟨?_, hm⟩
  intro h
  obtain ⟨⟨S, ⟨h1, h2, h3, _⟩, ⟨_, _, h5⟩, _⟩, _⟩ := h _ _ _ _ _ _ _ _ (by decide +kernel) hm
  rw [← h1, ← h2, ← h3] at h5
  revert h5
  decide +kernel

/-- That date is changed by subtracting it from another one: 3rd of March. -/
theorem sub_changes_violated : ∃ t u, life 2023 1 31 0 0 0 [.addMonths 1] = .ok t ∧ step t .sub = .ok u ∧
    (t.tm.mon + 1 = 2 ∧ t.tm.mday = 31) ∧ u.tm.mon + 1 = 3 ∧ u.tm.mday = 3 :=
  ⟨⟨⟨123, 1, 31, 0, 0, 0⟩, 2, 30⟩, ⟨⟨123, 2, 3, 0, 0, 0⟩, 5, 61⟩, by decide +kernel, by decide +kernel, by decide +kernel, by decide +kernel⟩

/-- A month before January is month 0. -/
theorem month_earlier_violated : ∃ t, life 2023 1 15 0 0 0 [.addMonths (-1)] = .ok t ∧ t.tm.mon + 1 = 0 :=
  ⟨⟨⟨123, -1, 15, 0, 0, 0⟩, 0, 14⟩, by decide +kernel, by decide⟩

/-- A year later the day of the week is still the old one: 2024-03-01 is a Friday (5), the date says Wednesday (3). -/
theorem weekday_violated : ∃ t, life 2023 3 1 0 0 0 [.addYears 1] = .ok t ∧ t.wday = 3 ∧ ∀ w, Weekday ⟨2024, 3, 1⟩ w → w = 5 := by
  refine ⟨⟨⟨124, 2, 1, 0, 0, 0⟩, 3, 59⟩, by decide +kernel, rfl, ?_⟩
  intro w h
  obtain ⟨_, h2⟩ := weekday_num h
  rw [h2]
  decide +kernel

end Verif.Dates
