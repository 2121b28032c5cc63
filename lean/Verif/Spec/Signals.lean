import Mathlib.Algebra.Order.Field.Basic
import Mathlib.Order.Bounds.Basic

/-! # Specifications for signals

Independent of the model. -/

namespace Cbadc.Signal.Spec

variable {K : Type*} [Field K] [LinearOrder K]

/-- The rising edges of a clock with period `T` and delay `td`
(documentation of `Clock`, `src/cbadc/analog_signal/clock.py:9-41`). -/
def risingEdges (T td : K) : Set K := {e | ∃ k : ℤ, e = td + k * T}

/-- The first rising edge that is not before `t`
(documentation of `next_tick`, `src/cbadc/analog_signal/clock.py:92-104`). -/
def FirstEdge (T td t e : K) : Prop := IsLeast {e | e ∈ risingEdges T td ∧ t ≤ e} e

/-- One period of a trapezoidal clock of swing 2, as a function of the time since the centre of the rising
edge (documentation of `Clock`, `src/cbadc/analog_signal/clock.py:9-41`). -/
def Trapezoid (T tt duty s v : K) : Prop :=
  (-(tt / 2) ≤ s → s ≤ tt / 2 → v = 2 * s / tt) ∧
  (tt / 2 ≤ s → s ≤ duty * T - tt / 2 → v = 1) ∧
  (duty * T - tt / 2 ≤ s → s ≤ duty * T + tt / 2 → v = -(2 * (s - duty * T) / tt)) ∧
  (duty * T + tt / 2 ≤ s → s < T - tt / 2 → v = -1)

end Cbadc.Signal.Spec
