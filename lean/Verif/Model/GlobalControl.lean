import Mathlib.Analysis.Normed.Algebra.MatrixExponential
import Verif.Model.AnalogSystem
import Verif.Model.DigitalControl
import Verif.Spec.GlobalControl

/-!
# Global control (`src/cbadc/analog_frontend.py`)

Exact arithmetic: `expm` is the matrix exponential and `solve_ivp` is a relation, its result is an exact solution (the
events of lines 167-176 only make the solver step to the jumps of the drive).
-/

namespace Cbadc.Global

open Matrix Spec Cbadc.Analog Cbadc.Control

variable {M : ℕ}

/-- `zero_order_hold`, `src/cbadc/analog_frontend.py:68-72`. -/
noncomputable def zoh {L : ℕ} (T : ℝ) (l : Fin L) (t : ℝ) : Fin L → ℝ := fun i =>
  if 0 ≤ t ∧ t < T then (if i = l then 1 else 0) else 0

/-- `corrected_impulse_response` of control `m` for the decision of control `k`,
`src/cbadc/analog_frontend.py:108-113`. -/
noncomputable def corrected (dc : DC ℝ M) (k m : Fin M) (t : ℝ) : Fin M → ℝ :=
  if k < m then impulseResponse dc m (t + dc.T) else impulseResponse dc m t

/-- The solution of the differential equation of `src/cbadc/analog_frontend.py:86-165`, `179-190` for the decision of
control `k` at time `phi`, split into its parts: the responses `psiU` and `psiS` to the inputs and controls (lines
100-128), and the inner products with the response to control `k`: `h` of the homogeneous solution (lines 130-139), `pu`
(lines 141-149) and `ps` (lines 151-163) of the other responses. -/
structure RowSol (g : Sys ℝ) (G : ℕ → ℕ → ℝ) (dc : DC ℝ M) (phi : ℝ) (k : Fin M) (psiU : Fin g.L → ℝ → Fin g.N → ℝ)
    (psiS : Fin M → ℝ → Fin g.N → ℝ) (h : Fin g.N → ℝ → ℝ) (pu : Fin g.L → ℝ → ℝ) (ps : Fin M → ℝ → ℝ) : Prop where
  u : ∀ l, Solves (toM g.N g.N g.A) (fun t => toM g.N g.L g.B *ᵥ zoh dc.T l (t - phi)) phi (phi + dc.T) (psiU l)
  u0 : ∀ l, psiU l phi = 0
  s : ∀ m, Solves (toM g.N g.N g.A) (fun t => toM g.N M G *ᵥ corrected dc k m t) phi (phi + dc.T) (psiS m)
  s0 : ∀ m, psiS m phi = 0
  hom : ∀ n, Accumulates (fun t => ((toM g.Nt g.N g.CT *ᵥ psiS k t) ᵥ*
    (toM g.Nt g.N g.CT * NormedSpace.exp ((t - phi) • toM g.N g.N g.A))) n) phi (phi + dc.T) (h n)
  inU : ∀ l, Accumulates (fun t => (toM g.Nt g.N g.CT *ᵥ psiS k t) ⬝ᵥ (toM g.Nt g.N g.CT *ᵥ psiU l t))
    phi (phi + dc.T) (pu l)
  inS : ∀ m, Accumulates (fun t => (toM g.Nt g.N g.CT *ᵥ psiS k t) ⬝ᵥ (toM g.Nt g.N g.CT *ᵥ psiS m t))
    phi (phi + dc.T) (ps m)

/-- The rows of the three matrices for one control observation, `src/cbadc/analog_frontend.py:192-205`.  A response of
energy `Q = 0` yields infinite or undefined entries (with a warning); that case is not modelled. -/
def Row (g : Sys ℝ) (G : ℕ → ℕ → ℝ) (dc : DC ℝ M) (phi : ℝ) (k : Fin M) (GT Bt At : ℕ → ℝ) : Prop :=
  ∃ psiU psiS h pu ps, RowSol g G dc phi k psiU psiS h pu ps ∧ ps k (phi + dc.T) ≠ 0 ∧
    (∀ l : Fin g.L, Bt l = -1 / ps k (phi + dc.T) * pu l (phi + dc.T)) ∧
    (∀ m : Fin M, At m = if m ≠ k then -1 / ps k (phi + dc.T) * ps m (phi + dc.T) else 0) ∧
    ∀ n : Fin g.N, GT n = -1 / ps k (phi + dc.T) * h n (phi + dc.T)

/-- The results of `get_global_control`, `src/cbadc/analog_frontend.py:40-217`, for a control with as many signals as the
analog system has columns in `Gamma` (other shapes raise in lines 126-128) and at most as many control observations (other
systems make the index of lines 81-83 point elsewhere).  The signal `m_tilde + M - M_tilde` is the one decided by observation
`m_tilde` (lines 81-83, 192, 198); the digital control is passed on unchanged (line 217). -/
def GlobalControl (g : Sys ℝ) (dc : DC ℝ M) (phi : ℕ → ℝ) (g' : Sys ℝ) : Prop :=
  ∃ G, g.Gamma = some G ∧ g.M = M ∧ g.Mt ≤ M ∧ ∃ GT Bt At : ℕ → ℕ → ℝ,
    (∀ (mt : ℕ) (k : Fin M), mt < g.Mt → k = mt + (M - g.Mt) → Row g G dc (phi mt) k (GT mt) (Bt mt) (At mt)) ∧
    Sys.new (.mat g.N g.N g.A) (.mat g.N g.L g.B) (.mat g.Nt g.N g.CT) (some (.mat g.N g.M G))
      (some (.mat g.Mt g.N GT)) none (some (.mat g.Mt g.L Bt)) (some (.mat g.Mt g.M At)) = .ok g'

/-- `inverse_state_trajectory`, `src/cbadc/analog_frontend.py:220-229`: the integral of the matrix exponential and its
inverse (`inv` raises for a singular matrix, which is no result here). -/
structure InverseTrajectory {N : ℕ} (A : Matrix (Fin N) (Fin N) ℝ) (T : ℝ) (res inv : Matrix (Fin N) (Fin N) ℝ) : Prop where
  int : ∃ F : Fin N → Fin N → ℝ → ℝ, (∀ i j, Accumulates (fun t => NormedSpace.exp (t • A) i j) 0 T (F i j)) ∧
    ∀ i j, res i j = F i j T
  nonsing : IsUnit res.det
  inv : inv = res⁻¹

end Cbadc.Global
