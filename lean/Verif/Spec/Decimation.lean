import Mathlib.Analysis.SpecialFunctions.Complex.Circle
import Mathlib.Algebra.BigOperators.Group.Finset.Basic

/-!
# Spectra, independently of the code
-/

namespace Cbadc.Decimation.Spec
open Finset Complex

/-- The spectrum of `n` samples at the angular frequency `ω` per sample. -/
noncomputable def dtft (n : ℕ) (x : ℕ → ℂ) (ω : ℝ) : ℂ := ∑ k ∈ range n, x k * exp (-(I * ω * k))

/-- The continuous-time `period`-periodic signal with Fourier coefficients `c k`, `|k| ≤ B`, at time `t`. -/
noncomputable def periodic (B : ℕ) (c : ℤ → ℂ) (period t : ℝ) : ℂ :=
  ∑ k ∈ Icc (-(B : ℤ)) B, c k * exp (2 * Real.pi * I * k * t / period)

end Cbadc.Decimation.Spec
