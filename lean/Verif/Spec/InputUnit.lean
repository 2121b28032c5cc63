import Verif.Model.FilterCoefficients
import Verif.Model.Simulator

/-!
# The unit of the input

What it means that the inputs of a converter are measured in a unit `b` times as large: the vocabulary of C152.
-/

namespace Cbadc.InputUnit

open Matrix Cbadc.Analog Cbadc.Simulate Cbadc.Estimator

/-- the analog system for inputs in a unit `b` times as large -/
abbrev sys {K : Type*} [Field K] (b : K) (g : Sys K) : Sys K :=
  { g with B := fun i l => b * g.B i l, D := fun i l => b * g.D i l, Bt := fun i l => b * g.Bt i l }

/-- the simulation with the inputs in the new unit -/
noncomputable def cfg {M : ℕ} (b : ℝ) (c : Cfg M) : Cfg M := ⟨sys b c.sys, c.dc, fun k t l => c.input k t l / b, c.hasInput⟩

/-- the filter coefficients for estimates in the new unit -/
def coeffs {K : Type*} [Field K] {N M L : ℕ} (b : K) (c : Coeffs K N M L) : Coeffs K N M L := { c with WT := b⁻¹ • c.WT }

end Cbadc.InputUnit
