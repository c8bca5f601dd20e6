import Verif.Vm.Float
/-
`System::clock`: `src/base/System.cpp` 7-25 and `src/module/SystemModule.cpp` 16-19.

Simplified: the readings of `std::chrono::system_clock` come from the history, one for each call. They are whole milliseconds that
come from 64-bit nanoseconds, so their differences fit into `zs_int` and are taken as unbounded integers. `zs_float` is `double`.
-/
namespace Verif.Clock
open Verif.Vm

/-- A call: the time that has really passed since the machine was started and how far the system's clock is set apart from it, in
milliseconds. -/
structure Moment where
  passed : Int
  set : Int
  deriving DecidableEq, Repr

/-- What the system's clock shows: `System.cpp` 14. -/
def Moment.reading (m : Moment) : Int := m.passed + m.set

/-- `ZS_ONE_OVER_MS_PER_SECONDS`: `System.cpp` 7. -/
def perMs : Word := Ieee.div (Ieee.ofInt 1) (Ieee.ofInt 1000)

/-- `System::clock`: `System.cpp` 13-25; takes and gives `__begin_ms__` of line 11. -/
def clock (begin_ current : Int) : Int × Word :=
  let (begin', elapsed) := if begin_ = 0 then (current, 0) else (begin_, current - begin_)
  (begin', Ieee.mul (Ieee.ofInt elapsed) perMs)

/-- The calls of a process one after the other, from a value of `__begin_ms__`. -/
def callsFrom (begin_ : Int) : List Moment → List Word
  | [] => []
  | m :: ms => (clock begin_ m.reading).2 :: callsFrom (clock begin_ m.reading).1 ms

/-- All calls of a process: `System.cpp` 11. -/
def calls (ms : List Moment) : List Word := callsFrom 0 ms

end Verif.Clock
