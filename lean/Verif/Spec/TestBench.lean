import Mathlib.Analysis.SpecialFunctions.Trigonometric.Basic
import Verif.Model.TestBench

/-!
# What SPICE sources do, and what the user asked for
-/

namespace Cbadc.TestBench.Spec

/-- The value of a source at the time `t ≥ 0`, from the ngspice manual: pulses are periodic and start after their
delay (zero here) with a linear edge; the phase of `SIN` is in degrees and the damping is exponential. -/
noncomputable def value : Wave → ℝ → ℝ
  | .dc v, _ => v
  | .pulse v0 v1 td tr tf pw per, t =>
    let p := (t - td) - per * ⌊(t - td) / per⌋
    if t < td then v0
    else if p < tr then v0 + (v1 - v0) * (p / tr)
    else if p < tr + pw then v1
    else if p < tr + pw + tf then v1 + (v0 - v1) * ((p - (tr + pw)) / tf)
    else v0
  | .sin vo va f td theta phase, t =>
    if t < td then vo + va * Real.sin (phase * Real.pi / 180)
    else vo + va * Real.exp (-(t - td) * theta) * Real.sin (2 * Real.pi * f * (t - td) + phase * Real.pi / 180)

/-- Potentials of the nodes, over time, at which every source has its voltage and the ground is at zero. -/
def Holds (lines : List SourceLine) (v : String → ℝ → ℝ) : Prop :=
  (∀ t, v "0" t = 0) ∧ ∀ l ∈ lines, ∀ t ≥ 0, v l.pos t - v l.neg t = value l.wave t

/-- The signal the user gave: `Sinusoidal.evaluate`. -/
noncomputable def wanted (amplitude frequency phase offset t : ℝ) : ℝ :=
  amplitude * Real.sin (2 * Real.pi * frequency * t + phase) + offset

/-- The clock high: within the first half of a period, half a transition time late. -/
def High (T tt t : ℝ) : Prop := ∃ k : ℕ, k * T + tt / 2 < t ∧ t < k * T + T / 2 + tt / 2

end Cbadc.TestBench.Spec
