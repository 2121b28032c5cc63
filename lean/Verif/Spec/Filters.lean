import Mathlib.RingTheory.Polynomial.Chebyshev
import Mathlib.Analysis.Real.Sqrt

/-! # Squared magnitude responses of the standard filters

The textbook formulas, with the frequency relative to the critical frequency. -/

namespace Cbadc.Spec
open Polynomial

/-- the squared magnitude of the Butterworth filter of order `N` -/
noncomputable def butterworth (N : ℕ) (x : ℝ) : ℝ := 1 / (1 + x ^ (2 * N))

/-- the squared magnitude of the Chebyshev filter of the first kind, of order `N` and with ripple factor `ε` -/
noncomputable def chebyshevI (N : ℕ) (ε x : ℝ) : ℝ := 1 / (1 + ε ^ 2 * (Chebyshev.T ℝ N).eval x ^ 2)

/-- the squared magnitude of the Chebyshev filter of the second kind, of order `N` and with attenuation factor `δ`,
at the reciprocal `y` of the relative frequency -/
noncomputable def chebyshevII (N : ℕ) (δ y : ℝ) : ℝ :=
  1 - 1 / (1 + δ ^ 2 * (Chebyshev.T ℝ N).eval y ^ 2)

end Cbadc.Spec
