import Mathlib.Analysis.Calculus.Deriv.Basic
import Mathlib.Analysis.Calculus.Deriv.Prod
import Mathlib.LinearAlgebra.Matrix.NonsingularInverse
import Mathlib.Algebra.BigOperators.Intervals
import Mathlib.Analysis.Complex.Basic

/-!
# Specifications for the filter coefficients

Riccati equations, exact solutions of linear differential equations, and the least squares problem that
the estimator is meant to solve.
-/

namespace Cbadc.Filter.Spec

open Matrix Set

variable {N L M P : ℕ}

/-- `V` is a symmetric solution of the continuous algebraic Riccati equation
`Aᵀ V + V A - V B R⁻¹ Bᵀ V + Q = 0` (documentation of `scipy.linalg.solve_continuous_are`, called at
`src/cbadc/digital_estimator/_filter_coefficients.py:76`). -/
structure IsCare (A : Matrix (Fin N) (Fin N) ℝ) (B : Matrix (Fin N) (Fin P) ℝ)
    (Q : Matrix (Fin N) (Fin N) ℝ) (R : Matrix (Fin P) (Fin P) ℝ) (V : Matrix (Fin N) (Fin N) ℝ) : Prop where
  eq : Aᵀ * V + V * A - V * B * R⁻¹ * Bᵀ * V + Q = 0
  symm : Vᵀ = V

/-- All (complex) eigenvalues of `X` have a negative real part. -/
def Hurwitz (X : Matrix (Fin N) (Fin N) ℝ) : Prop :=
  ∀ (μ : ℂ) (x : Fin N → ℂ), x ≠ 0 → X.map (fun a => (a : ℂ)) *ᵥ x = μ • x → μ.re < 0

/-- The stabilising solution of the Riccati equation. -/
structure IsStabilising (A : Matrix (Fin N) (Fin N) ℝ) (B : Matrix (Fin N) (Fin P) ℝ) (Q : Matrix (Fin N) (Fin N) ℝ)
    (R : Matrix (Fin P) (Fin P) ℝ) (V : Matrix (Fin N) (Fin N) ℝ) : Prop where
  care : IsCare A B Q R V
  stable : Hurwitz (A - B * R⁻¹ * Bᵀ * V)

/-- No (complex) eigenvector of `A` is mapped to zero by `C` (the Hautus test for observability). -/
def Observable (C : Matrix (Fin P) (Fin N) ℝ) (A : Matrix (Fin N) (Fin N) ℝ) : Prop :=
  ∀ (μ : ℂ) (x : Fin N → ℂ), x ≠ 0 → A.map (fun a => (a : ℂ)) *ᵥ x = μ • x → C.map (fun a => (a : ℂ)) *ᵥ x ≠ 0

/-- `x` solves `x' = X x + v(t)` on `[a, b]`; derivatives are taken from the right, so that `v` may jump
as long as it is continuous from the right. -/
structure Flow (X : Matrix (Fin N) (Fin N) ℝ) (v : ℝ → Fin N → ℝ) (a b : ℝ) (x : ℝ → Fin N → ℝ) : Prop where
  cont : ContinuousOn x (Icc a b)
  ode : ∀ t ∈ Ico a b, HasDerivWithinAt x (X *ᵥ x t + v t) (Ici t) t

/-- The same with derivatives from the left, for signals that are continuous from the left. -/
structure FlowLeft (X : Matrix (Fin N) (Fin N) ℝ) (v : ℝ → Fin N → ℝ) (a b : ℝ) (x : ℝ → Fin N → ℝ) : Prop where
  cont : ContinuousOn x (Icc a b)
  ode : ∀ t ∈ Ioc a b, HasDerivWithinAt x (X *ᵥ x t + v t) (Iic t) t

/-- `x[k+1] = P x[k] + R s[k]` are the values at the ends of the period of every solution of
`x' = X x + q`, where `q s t` is the contribution of the control values `s` at time `t` of the period. -/
def SamplesForward (X : Matrix (Fin N) (Fin N) ℝ) (q : (Fin M → ℝ) → ℝ → Fin N → ℝ) (T : ℝ)
    (P : Matrix (Fin N) (Fin N) ℝ) (R : Matrix (Fin N) (Fin M) ℝ) : Prop :=
  ∀ s x, Flow X (q s) 0 T x → x T = P *ᵥ x 0 + R *ᵥ s

/-- The same backwards in time: `x[k] = P x[k+1] + R s[k]`. -/
def SamplesBackward (X : Matrix (Fin N) (Fin N) ℝ) (q : (Fin M → ℝ) → ℝ → Fin N → ℝ) (T : ℝ)
    (P : Matrix (Fin N) (Fin N) ℝ) (R : Matrix (Fin N) (Fin M) ℝ) : Prop :=
  ∀ s x, Flow X (q s) 0 T x → x 0 = P *ᵥ x T + R *ᵥ s

/-- An explanation of the control signals of `K` periods of length `T`: an input `u` and a trajectory `x`
of the analog system, both given period by period on `[0, T]`, where `q k t` is the contribution of the
controls; `x K 0` is the state at the end. -/
structure Explains (A : Matrix (Fin N) (Fin N) ℝ) (B : Matrix (Fin N) (Fin L) ℝ) (q : ℕ → ℝ → Fin N → ℝ)
    (T : ℝ) (K : ℕ) (u : ℕ → ℝ → Fin L → ℝ) (x : ℕ → ℝ → Fin N → ℝ) : Prop where
  flow : ∀ k < K, Flow A (fun t => B *ᵥ u k t + q k t) 0 T (x k)
  join : ∀ k < K, x k T = x (k + 1) 0

/-- `J k t` is the integral of `w k` over the first `t` seconds of period `k`. -/
structure Integrates (T : ℝ) (K : ℕ) (w : ℕ → ℝ → ℝ) (J : ℕ → ℝ → ℝ) : Prop where
  start : ∀ k < K, J k 0 = 0
  cont : ∀ k < K, ContinuousOn (J k) (Icc 0 T)
  deriv : ∀ k < K, ∀ t ∈ Ico 0 T, HasDerivWithinAt (J k) (w k t) (Ici t) t

/-- Input power plus output power divided by `eta2`. -/
noncomputable def power (C : Matrix (Fin P) (Fin N) ℝ) (eta2 : ℝ) (u : Fin L → ℝ) (x : Fin N → ℝ) : ℝ :=
  u ⬝ᵥ u + (1 / eta2) * ((C *ᵥ x) ⬝ᵥ (C *ᵥ x))

/-- The cost of an explanation: the integrated power `J`, and quadratic costs of the first and last state. -/
noncomputable def total (Vf Vb : Matrix (Fin N) (Fin N) ℝ) (T : ℝ) (K : ℕ) (x : ℕ → ℝ → Fin N → ℝ)
    (J : ℕ → ℝ → ℝ) : ℝ :=
  ∑ k ∈ Finset.range K, J k T + x 0 0 ⬝ᵥ Vf⁻¹ *ᵥ x 0 0 + x K 0 ⬝ᵥ Vb⁻¹ *ᵥ x K 0

/-- `u` is the one input of least cost that explains the controls: it does so with some trajectory, no other
explanation costs less, and an explanation that does not cost more has the same input. -/
def IsLeastSquares (A : Matrix (Fin N) (Fin N) ℝ) (B : Matrix (Fin N) (Fin L) ℝ) (C : Matrix (Fin P) (Fin N) ℝ) (eta2 : ℝ)
    (Vf Vb : Matrix (Fin N) (Fin N) ℝ) (q : ℕ → ℝ → Fin N → ℝ) (T : ℝ) (K : ℕ) (u : ℕ → ℝ → Fin L → ℝ) : Prop :=
  ∃ x J, Explains A B q T K u x ∧ Integrates T K (fun k t => power C eta2 (u k t) (x k t)) J ∧
    ∀ u' x' J', Explains A B q T K u' x' → Integrates T K (fun k t => power C eta2 (u' k t) (x' k t)) J' →
      total Vf Vb T K x J ≤ total Vf Vb T K x' J' ∧
      (total Vf Vb T K x' J' ≤ total Vf Vb T K x J → ∀ k < K, ∀ t ∈ Ico 0 T, u' k t = u k t)

/-- `x e^{iωt}` solves `x' = X x + v e^{iωt}`. -/
def Steady (ω : ℝ) (X : Matrix (Fin N) (Fin N) ℝ) (v x : Fin N → ℂ) : Prop :=
  (ω * Complex.I) • x = X.map (fun a => (a : ℂ)) *ᵥ x + v

end Cbadc.Filter.Spec
