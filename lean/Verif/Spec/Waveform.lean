import Mathlib.Topology.Instances.Real.Lemmas
import Mathlib.MeasureTheory.Constructions.BorelSpace.Order

/-! # Waveforms of digital-to-analog converters -/

namespace Cbadc.Filter.Spec

open Set

/-- What is asked of a waveform over a period: measurable, bounded and continuous from the right. -/
structure Waveform (T : ℝ) (w : ℝ → ℝ) : Prop where
  meas : Measurable w
  bounded : ∃ C, ∀ t ∈ Icc 0 T, |w t| ≤ C
  right : ∀ t ∈ Ico 0 T, ContinuousWithinAt w (Ici t) t

end Cbadc.Filter.Spec
