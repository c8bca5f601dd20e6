import Verif.Module.ClockLemmas
/-
`System::clock` (C142).
-/
namespace Verif.ClockSpec
open Verif Verif.Vm Verif.Clock

theorem away {a b : Moment} (ha : Shown a) (hb : Shown b) : (a.reading - b.reading).natAbs ≤ 2 ^ 44 := by
  unfold Shown at ha hb
  unfold Moment.reading
  omega

/-- C142, full: whatever happens to the system's clock, `System::clock` tells the seconds that have passed since its first call. -/
def AlwaysTells : Prop := ∀ h, History h → Tells h

/-- C142: the first call gives zero. -/
theorem clock_starts (m : Moment) (h : List Moment) (hm : Shown m) : (calls (m :: h))[0]? = some 0#64 := by
  rw [calls_eq (first := m) rfl hm.1]
  show some (after (m.reading - m.reading)) = _
  rw [Int.sub_self]
  decide +kernel

/-- C142: as long as nobody sets the system's clock, every call gives the seconds since the first one up to one part in `2^51`,
a later call does not give less, and a call that is at least a millisecond later gives more.
Missing: clocks that are set, see `clock_violated`. -/
theorem clock_tells_partial (h : List Moment) (hh : History h) (hu : Unset h) : Tells h := by
  intro i first a h0 hi
  have s0 : Shown first := hh.1 _ (List.mem_of_getElem? h0)
  have sa : Shown a := hh.1 _ (List.mem_of_getElem? hi)
  have ea : a.reading - first.reading = a.passed - first.passed := by
    have := hu a (List.mem_of_getElem? hi) first (List.mem_of_getElem? h0)
    unfold Moment.reading; omega
  refine ⟨after (a.reading - first.reading), ?_, ?_, ?_⟩
  · rw [calls_eq h0 s0.1, hi]; rfl
  · rw [← ea]; exact after_seconds (away sa s0)
  · intro j b hij hj
    have sb : Shown b := hh.1 _ (List.mem_of_getElem? hj)
    have hab := hh.2 i j a b hij hi hj
    have e := hu a (List.mem_of_getElem? hi) b (List.mem_of_getElem? hj)
    refine ⟨after (b.reading - first.reading), ?_, ?_, ?_⟩
    · rw [calls_eq h0 s0.1, hj]; rfl
    · exact after_le (away sa s0) (away sb s0) (by unfold Moment.reading; omega)
    · intro hlt
      exact after_lt (away sa s0) (away sb s0) (by unfold Moment.reading; omega)

/-- C142: in any case a call gives the seconds between what the system's clock showed at the first call and what it shows now.
Missing: that this is the time that has passed. -/
theorem clock_reads_partial (h : List Moment) (hh : ∀ m ∈ h, Shown m) (i : Nat) (first a : Moment) (h0 : h[0]? = some first)
    (hi : h[i]? = some a) :
    ∃ x, (calls h)[i]? = some x ∧ Seconds x ((a.passed + a.set) - (first.passed + first.set)) := by
  have s0 := hh _ (List.mem_of_getElem? h0)
  refine ⟨after (a.reading - first.reading), ?_, after_seconds (away (hh _ (List.mem_of_getElem? hi)) s0)⟩
  rw [calls_eq h0 s0.1, hi]
  rfl

/-- C142: every call gives a value. -/
theorem clock_answers (h : List Moment) : (calls h).length = h.length := by
  unfold calls
  generalize (0 : Int) = b
  induction h generalizing b with
  | nil => rfl
  | cons m h ih => rw [callsFrom, List.length_cons, List.length_cons, ih]

theorem history_of {h : List Moment} (hs : ∀ m ∈ h, Shown m) (hp : h.Pairwise fun a b => a.passed ≤ b.passed) : History h := by
  refine ⟨hs, fun i j a b hij hi hj => ?_⟩
  by_cases e : i = j
  · subst e
    rw [hi] at hj
    injection hj with hj
    subst hj
    exact Int.le_refl _
  · obtain ⟨hi', rfl⟩ := List.getElem?_eq_some_iff.1 hi
    obtain ⟨hj', rfl⟩ := List.getElem?_eq_some_iff.1 hj
    exact List.pairwise_iff_getElem.1 hp i j hi' hj' (by omega)

/-- A day in 2023: three calls, the clock is set back by an hour before the last one. -/
def setBack : List Moment := [⟨5000, 1700000000000⟩, ⟨5250, 1700000000000⟩, ⟨6000, 1699996400000⟩]

theorem setBack_history : History setBack := history_of (by unfold Shown; decide) (by decide)

/-- C142: when the clock of the system is set back, the time runs back: the last call gives -3599 seconds. -/
theorem clock_violated : ¬ AlwaysTells := by
  intro h
  obtain ⟨x, hx, _, hr⟩ := h setBack setBack_history 1 _ _ rfl rfl
  obtain ⟨y, hy, hle, _⟩ := hr 2 _ (by omega) rfl
  have e1 : (calls setBack)[1]? = some (0x3FD0000000000000#64) := by decide +kernel
  have e2 : (calls setBack)[2]? = some (0xC0AC1E0000000000#64) := by decide +kernel
  rw [hx] at e1
  rw [hy] at e2
  injection e1 with e1
  injection e2 with e2
  subst e1 e2
  exact absurd hle (by decide +kernel)

/-- C142: the seconds are not always the float nearest to the milliseconds divided by 1000: after 9 milliseconds the clock gives
0.009000000000000001, which a script does not find equal to `9.0/1000.0`. -/
theorem clock_nearest_violated : ∃ (h : List Moment) (x : Word), History h ∧ Unset h ∧ (calls h)[1]? = some x ∧
    (∃ a b, h[0]? = some a ∧ h[1]? = some b ∧ b.passed - a.passed = 9) ∧ Ieee.eq x (Ieee.div (Ieee.ofInt 9) (Ieee.ofInt 1000)) = false := by
  refine ⟨[⟨5000, 1700000000000⟩, ⟨5009, 1700000000000⟩], after 9, history_of (by unfold Shown; decide) (by decide),
    by unfold Unset; decide, ?_, ⟨_, _, rfl, rfl, rfl⟩, by decide +kernel⟩
  rw [calls_eq (first := ⟨5000, 1700000000000⟩) rfl (by decide)]
  rfl

/-- A case of `clock_tells_partial`: a quarter of a second later the clock gives 0.25. -/
example : History (setBack.take 2) ∧ Unset (setBack.take 2) ∧ calls (setBack.take 2) = [0#64, 0x3FD0000000000000#64] := by
  exact ⟨history_of (by unfold Shown; decide) (by decide), by unfold Unset; decide, by decide +kernel⟩

end Verif.ClockSpec
