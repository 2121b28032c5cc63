import Verif.Model.AnalogSystem
import Mathlib.Data.Real.Basic
import Mathlib.Topology.Instances.Real.Lemmas

/-! # Specification vocabulary for integrator chains -/

namespace Cbadc.Analog.Spec

/-- what drives integrator `n` of a chain: the input for the first one, the previous integrator otherwise
(specification) -/
def previous (u : ℝ) (x : ℕ → ℝ) (n : ℕ) : ℝ := if n = 0 then u else x (n - 1)

/-- the next integrator of a chain of `N`, nothing after the last (specification) -/
def following (N : ℕ) (x : ℕ → ℝ) (n : ℕ) : ℝ := if n + 1 < N then x (n + 1) else 0

/-- `g` is a network of `N` integrators with one input, `N` controls and all states as outputs, integrator `n`
obeying `x_n' = rho_n x_n + beta_n (previous) + alpha_n (next) + kappa_n s_n`, whose control observation `n` is
`x_n` with the sign opposite to `kappa_n` (specification) -/
structure IsNetwork (g : Sys ℝ) (N : ℕ) (beta alpha rho kappa : ℕ → ℝ) : Prop where
  n : g.N = N
  l : g.L = 1
  m : g.M = N
  mt : g.Mt = N
  nt : g.Nt = N
  deriv : ∀ x u s : ℕ → ℝ, ∃ d, g.derivative ⟨N, x⟩ ⟨1, u⟩ ⟨N, s⟩ = .ok d ∧ ∀ n < N, d.v n =
    rho n * x n + beta n * previous (u 0) x n + alpha n * following N x n + kappa n * s n
  obs : ∀ x : ℕ → ℝ, ∀ u s : ℕ → ℝ, ∃ y, g.controlObservation ⟨N, x⟩ (some ⟨1, u⟩) (some ⟨N, s⟩) = .ok y ∧
    y.len = N ∧ ∀ n < N, (0 < kappa n → y.v n = -x n) ∧ (kappa n < 0 → y.v n = x n)
  out : ∀ x : ℕ → ℝ, ∃ y, g.signalObservation ⟨N, x⟩ = .ok y ∧ y.len = N ∧ ∀ n < N, y.v n = x n

end Cbadc.Analog.Spec
