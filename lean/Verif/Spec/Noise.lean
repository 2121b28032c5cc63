import Mathlib.Probability.Moments.Covariance
import Verif.Model.Basic

/-! # Random vectors: what a user means by the covariance of the noise (C154) -/

namespace Cbadc.Simulate.Spec
open MeasureTheory ProbabilityTheory

variable {Ω : Type} [MeasurableSpace Ω]

/-- Independent draws of a standard normal generator, as far as means and covariances go: `z k i` is entry `i` of the
vector drawn at time `k`; all have mean 0 and variance 1 and are uncorrelated. -/
structure White (μ : Measure Ω) (z : Ω → ℕ → ℕ → ℝ) : Prop where
  sq : ∀ k i, MemLp (fun ω => z ω k i) 2 μ
  mean : ∀ k i, ∫ ω, z ω k i ∂μ = 0
  cov : ∀ k l i j, cov[fun ω => z ω k i, fun ω => z ω l j; μ] = if k = l ∧ i = j then 1 else 0

/-- The random vector `X` has mean zero and covariance matrix `S`. -/
structure HasCovariance (μ : Measure Ω) (N : ℕ) (X : Ω → ℕ → ℝ) (S : ℕ → ℕ → ℝ) : Prop where
  mean : ∀ i < N, ∫ ω, X ω i ∂μ = 0
  cov : ∀ i < N, ∀ j < N, cov[fun ω => X ω i, fun ω => X ω j; μ] = S i j

end Cbadc.Simulate.Spec
