import Verif.Spec.ClosedLoop

/-!
# Specification of a circuit whose system is not the simulated one
-/

namespace Cbadc.Circuit.Spec

/-- As `deviation`, when the two trajectories are of systems whose right-hand sides differ by up to `η`. -/
noncomputable def mismatched (a T g r η E : ℝ) : ℕ → ℝ
  | 0 => E
  | k + 1 => (mismatched a T g r η E k + 2 * g * r + η * T) * Real.exp (a * T)

/-- How much a change of the coefficients in the row `n` of a matrix with `N` columns can make for a vector with
entries up to `X`. -/
def rowChange (N : ℕ) (A A' : ℕ → ℕ → ℝ) (X : ℝ) (n : ℕ) : ℝ := (∑ j ∈ Finset.range N, |A' n j - A n j|) * X

end Cbadc.Circuit.Spec
