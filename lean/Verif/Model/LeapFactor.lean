import Mathlib.MeasureTheory.Integral.IntervalIntegral.Basic
import Mathlib.Analysis.SpecialFunctions.Trigonometric.Basic
import Verif.Model.Synthesis

/-!
# The integration factor of the leap-frog synthesis (`src/cbadc/synthesis/leap_frog.py:17-40`)

The symbolic expression is a function of the values of its symbols; sympy's integration is taken to be exact.
-/

namespace Cbadc.Synthesis

/-- `determinant / ((gamma * omega_p) ** N)`, `src/cbadc/synthesis/leap_frog.py:31-34`. -/
noncomputable def leapH (N : ℕ) (omegaP gamma omega : ℝ) : ℂ :=
  (∏ n ∈ Finset.Icc 1 N, Complex.I * ((omega + omegaP * Real.cos (n * Real.pi / (N + 1)) : ℝ) : ℂ)) /
    (((gamma * omegaP : ℝ) : ℂ) ^ N)

/-- The expression `g_i`, `src/cbadc/synthesis/leap_frog.py:35-38`, as a function of its symbols `w_p` and `g`. -/
noncomputable def leapGExpr (N : ℕ) (omegaP gamma : ℝ) : ℝ :=
  omegaP / ((∫ w in (0 : ℝ)..omegaP, ‖leapH N omegaP gamma w‖ ^ 2) * gamma ^ (2 * N))

/-- `g_i(N)`, `src/cbadc/synthesis/leap_frog.py:39`: `w_p` is replaced by one.  `np.float64` raises if a symbol is left, so
the result is a number only if the expression does not depend on `g`; the value is taken at `g = 1`. -/
noncomputable def leapG (N : ℕ) : ℝ := leapGExpr N 1 1

end Cbadc.Synthesis
