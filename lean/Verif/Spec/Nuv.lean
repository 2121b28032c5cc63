import Verif.Spec.FilterCoefficients
import Mathlib.Analysis.Matrix.PosDef

/-!
# Specification of the NUV estimator

The smoothing problem that the estimator is meant to solve for a window of decisions: explain the decisions by an input
and a trajectory of the analog system such that the input has little energy, the first state is near to what is expected,
and the sampled outputs keep to the bound.
-/

namespace Cbadc.Nuv.Spec

open Matrix Set Cbadc.Filter.Spec

variable {N P L : ℕ}

/-- A window of `K` sample times at distance `T`; `q k t` is the contribution of the controls, `w` the variance of the input,
`b` the bound on the outputs, and `m0`, `V0` are the expected value and the covariance of the first state. -/
structure Window (N P L : ℕ) where
  A : Matrix (Fin N) (Fin N) ℝ
  B : Matrix (Fin N) (Fin L) ℝ
  C : Matrix (Fin P) (Fin N) ℝ
  q : ℕ → ℝ → Fin N → ℝ
  T : ℝ
  K : ℕ
  w : ℝ
  b : ℝ
  m0 : Fin N → ℝ
  V0 : Matrix (Fin N) (Fin N) ℝ

/-- The input `u` and the trajectory `x` explain the decisions between the first and the last sample time, and `J` is the
energy of the input. -/
structure Window.Explained (p : Window N P L) (u : ℕ → ℝ → Fin L → ℝ) (x : ℕ → ℝ → Fin N → ℝ) (J : ℕ → ℝ → ℝ) : Prop where
  explains : Explains p.A p.B p.q p.T (p.K - 1) u x
  energy : Integrates p.T (p.K - 1) (fun k t => u k t ⬝ᵥ u k t) J

/-- Energy of the input, and distance of the first state from what is expected. -/
noncomputable def Window.quad (p : Window N P L) (x : ℕ → ℝ → Fin N → ℝ) (J : ℕ → ℝ → ℝ) : ℝ :=
  (∑ k ∈ Finset.range (p.K - 1), J k p.T) / p.w + (x 0 0 - p.m0) ⬝ᵥ p.V0⁻¹ *ᵥ (x 0 0 - p.m0)

/-- Output `l` at sample time `k`. -/
def Window.y (p : Window N P L) (x : ℕ → ℝ → Fin N → ℝ) (k : ℕ) (l : Fin P) : ℝ := (p.C *ᵥ x k 0) l

/-- Weighted distances of the outputs from the two bounds. -/
noncomputable def Window.spread (p : Window N P L) (s1 s2 : ℕ → Fin P → ℝ) (x : ℕ → ℝ → Fin N → ℝ) : ℝ :=
  ∑ k ∈ Finset.range p.K, ∑ l, ((p.y x k l - p.b) ^ 2 / s1 k l + (p.y x k l + p.b) ^ 2 / s2 k l)

/-- `u` is the one input of least cost that explains the decisions, with the trajectory `x`: no other explanation costs less,
and one that does not cost more has the same input and the same first state.  Within each period `u` is continuous, so that its
value at the end of a period is determined as well. -/
structure Window.Smoothed (p : Window N P L) (s1 s2 : ℕ → Fin P → ℝ) (u : ℕ → ℝ → Fin L → ℝ) (x : ℕ → ℝ → Fin N → ℝ)
    (J : ℕ → ℝ → ℝ) : Prop where
  explained : p.Explained u x J
  continuous : ∀ k < p.K - 1, ContinuousOn (u k) (Icc 0 p.T)
  least : ∀ u' x' J', p.Explained u' x' J' → p.quad x J + p.spread s1 s2 x ≤ p.quad x' J' + p.spread s1 s2 x'
  unique : ∀ u' x' J', p.Explained u' x' J' → p.quad x' J' + p.spread s1 s2 x' ≤ p.quad x J + p.spread s1 s2 x →
    (∀ k < p.K - 1, ∀ t ∈ Ico 0 p.T, u' k t = u k t) ∧ x' 0 0 = x 0 0

/-- The penalty for the distance `r` of an output from a bound: proportional to the distance, and rounded off near zero. -/
noncomputable def penalty (γ ε r : ℝ) : ℝ := if γ * ε ≤ |r| then 2 * γ * |r| else r ^ 2 / ε + γ ^ 2 * ε

/-- The penalties of all outputs. -/
noncomputable def Window.penalties (p : Window N P L) (γ ε : ℝ) (x : ℕ → ℝ → Fin N → ℝ) : ℝ :=
  ∑ k ∈ Finset.range p.K, ∑ l, (penalty γ ε (p.y x k l - p.b) + penalty γ ε (p.y x k l + p.b))

/-- `n + 1` rounds of smoothing; the variances of a round are the distances from the bounds in the round before, divided by
`γ`. -/
structure Window.Rounds (p : Window N P L) (γ ε : ℝ) (n : ℕ) (s1 s2 : ℕ → ℕ → Fin P → ℝ) (u : ℕ → ℕ → ℝ → Fin L → ℝ)
    (x : ℕ → ℕ → ℝ → Fin N → ℝ) (J : ℕ → ℕ → ℝ → ℝ) : Prop where
  first : ∀ k, 0 < k → k < p.K → ∀ l, s1 0 k l = 1 ∧ s2 0 k l = 1
  smoothed : ∀ i ≤ n, p.Smoothed (s1 i) (s2 i) (u i) (x i) (J i)
  update : ∀ i < n, ∀ k < p.K, ∀ l, s1 (i + 1) k l = max (|p.y (x i) k l - p.b| / γ) ε ∧
    s2 (i + 1) k l = max (|p.y (x i) k l + p.b| / γ) ε

/-- What a round should not increase: energy of the input, distance of the first state from what is expected, and penalties
of the outputs. -/
noncomputable def Window.cost (p : Window N P L) (γ ε : ℝ) (x : ℕ → ℝ → Fin N → ℝ) (J : ℕ → ℝ → ℝ) : ℝ :=
  p.quad x J + p.penalties γ ε x

/-- The window of `K` sample times from sample time `n0` on, when there are `os` sample times in each period of the control;
`d i` is decision `i` and `wave m t` the waveform of control `m`. -/
noncomputable def problem {M : ℕ} (A : Matrix (Fin N) (Fin N) ℝ) (B : Matrix (Fin N) (Fin L) ℝ) (C : Matrix (Fin P) (Fin N) ℝ)
    (Γ : Matrix (Fin N) (Fin M) ℝ) (wave : Fin M → ℝ → ℝ) (d : ℕ → Fin M → ℝ) (T : ℝ) (os n0 K : ℕ) (w b : ℝ)
    (m0 : Fin N → ℝ) (V0 : Matrix (Fin N) (Fin N) ℝ) : Window N P L where
  A := A
  B := B
  C := C
  q := fun k t => Γ *ᵥ fun m => wave m (((n0 + k) % os : ℕ) * T + t) * (2 * d ((n0 + k) / os) m - 1)
  T := T
  K := K
  w := w
  b := b
  m0 := m0
  V0 := V0

end Cbadc.Nuv.Spec
