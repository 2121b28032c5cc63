import Verif.Model.FilterDesign

/-! # Specifications of filters: what a transformed low-pass filter should do -/

namespace Cbadc.Filters.Spec
open Complex

/-- the frequency of the low-pass prototype that corresponds to the complex frequency `s` of the filter (textbook
frequency transformations) -/
noncomputable def toLowpass : Band → Freq → ℂ → ℂ
  | .lowpass, .one w, s => s / w
  | .highpass, .one w, s => w / s
  | .bandpass, .two lo hi, s => (s ^ 2 + lo * hi) / ((hi - lo) * s)
  | .bandstop, .two lo hi, s => (hi - lo) * s / (s ^ 2 + lo * hi)
  | _, _, s => s

/-- the frequencies at which the transformation is finite -/
def Finite : Band → Freq → ℂ → Prop
  | .highpass, _, s => s ≠ 0
  | .bandpass, _, s => s ≠ 0
  | .bandstop, .two lo hi, s => s ^ 2 + lo * hi ≠ 0
  | _, _, _ => True

/-- a loss of at most `gpass` decibel and no gain on the pass band, an attenuation of at least `gstop` decibel on the
stop band; `M` is the squared magnitude at a frequency -/
structure Meets (M : ℝ → ℝ) (pass stop : ℝ → Prop) (gpass gstop : ℝ) : Prop where
  pass : ∀ ω, pass ω → (10 : ℝ) ^ (-gpass / 10) ≤ M ω ∧ M ω ≤ 1
  stop : ∀ ω, stop ω → M ω ≤ (10 : ℝ) ^ (-gstop / 10)

end Cbadc.Filters.Spec
