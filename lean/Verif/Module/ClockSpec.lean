import Verif.Module.Clock
/-
What a user expects of `System::clock`. A float `x` that is finite has the value `scaled x / 2^1074`.
-/
namespace Verif.ClockSpec
open Verif Verif.Vm Verif.Clock

/-- What the clock of a system shows in milliseconds since 1970, later than that and within the 64-bit nanoseconds of the host. -/
def Shown (m : Moment) : Prop := 0 < m.passed + m.set ∧ m.passed + m.set ≤ 9223372036854

/-- A history of calls: time does not run back. -/
def History (h : List Moment) : Prop :=
  (∀ m ∈ h, Shown m) ∧ ∀ (i j : Nat) (a b : Moment), i ≤ j → h[i]? = some a → h[j]? = some b → a.passed ≤ b.passed

/-- Nobody sets the clock. -/
def Unset (h : List Moment) : Prop := ∀ a ∈ h, ∀ b ∈ h, a.set = b.set

/-- `x` is `ms` milliseconds in seconds, up to one part in `2^51`. -/
def Seconds (x : Word) (ms : Int) : Prop :=
  Ieee.isNaN x = false ∧ Ieee.isInf x = false ∧
    (1000 * Ieee.scaled x - ms * 2 ^ 1074).natAbs * 2 ^ 51 ≤ ms.natAbs * 2 ^ 1074

/-- The clock tells the seconds that have passed since its first call, and of two calls at different times the later one gives more. -/
def Tells (h : List Moment) : Prop :=
  ∀ (i : Nat) (first a : Moment), h[0]? = some first → h[i]? = some a →
    ∃ x, (calls h)[i]? = some x ∧ Seconds x (a.passed - first.passed) ∧
      ∀ (j : Nat) (b : Moment), i ≤ j → h[j]? = some b → ∃ y, (calls h)[j]? = some y ∧ Ieee.le x y = true ∧
        (a.passed < b.passed → Ieee.lt x y = true)

end Verif.ClockSpec
