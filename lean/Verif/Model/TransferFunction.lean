import Mathlib.Analysis.Complex.Basic
import Mathlib.LinearAlgebra.Matrix.ConjTranspose
import Mathlib.Analysis.SpecialFunctions.Trigonometric.Basic
import Verif.Model.AnalogSystem

/-!
# Transfer functions of the estimators (`src/cbadc/digital_estimator/batch_estimator.py`)

At one angular frequency; the arrays over several frequencies are filled one frequency at a time
(`batch_estimator.py:440,491,529`).  `np.linalg.pinv` is a parameter; the theorems assume that it computes the
Moore-Penrose inverse.
-/

namespace Cbadc.Analog

open Matrix

/-- The argument `complex(0, omega)`, `src/cbadc/analog_system/analog_system.py:435,446,464`. -/
noncomputable def jw (ω : ℝ) : ℂ := ω * Complex.I

/-- `GGH + self.eta2Matrix`, `src/cbadc/digital_estimator/batch_estimator.py:175,446-448`. -/
noncomputable def gram {Nt L : ℕ} (eta2 : ℝ) (G : Matrix (Fin Nt) (Fin L) ℂ) : Matrix (Fin Nt) (Fin Nt) ℂ :=
  G * Gᴴ + (eta2 : ℂ) • 1

/-- `noise_transfer_function` at one frequency, `src/cbadc/digital_estimator/batch_estimator.py:443-449`, as a function of
the matrix `G` of line 443-444. -/
noncomputable def ntf {Nt L : ℕ} (pinv : Matrix (Fin Nt) (Fin Nt) ℂ → Matrix (Fin Nt) (Fin Nt) ℂ) (eta2 : ℝ)
    (G : Matrix (Fin Nt) (Fin L) ℂ) : Matrix (Fin L) (Fin Nt) ℝ :=
  Matrix.of fun l n => ‖(Gᴴ * pinv (gram eta2 G)) l n‖

/-- `signal_transfer_function` at one frequency, `src/cbadc/digital_estimator/batch_estimator.py:490-499`. -/
noncomputable def stf {Nt L : ℕ} (pinv : Matrix (Fin Nt) (Fin Nt) ℂ → Matrix (Fin Nt) (Fin Nt) ℂ) (eta2 : ℝ)
    (G : Matrix (Fin Nt) (Fin L) ℂ) (l : Fin L) : ℝ :=
  ‖∑ n, Gᴴ l n * (pinv (gram eta2 G) * G) n l‖

/-- `AnalogSystem.eta2`, `src/cbadc/analog_system/analog_system.py:579-595`: the squared Frobenius norm of the transfer
function matrix at the band edge. -/
noncomputable def Sys.eta2 (g : Sys ℂ) (BW : ℝ) : ℝ :=
  ∑ n : Fin g.Nt, ∑ l : Fin g.L, ‖g.tfm (jw (2 * Real.pi * BW)) n l‖ ^ 2

/-- `AnalogSystem._general_atf`, `src/cbadc/analog_system/analog_system.py:445-447` (`pinv` as in `Sys.atf`). -/
noncomputable def Sys.generalAtf (g : Sys ℂ) (s : ℂ) : Matrix (Fin g.N) (Fin g.N) ℂ :=
  (s • (1 : Matrix (Fin g.N) (Fin g.N) ℂ) - toM g.N g.N g.A)⁻¹

/-- `transfer_function_matrix(omega, general=True)` at one frequency,
`src/cbadc/analog_system/analog_system.py:540-562`. -/
noncomputable def Sys.generalTfm (g : Sys ℂ) (s : ℂ) : Matrix (Fin g.Nt) (Fin g.N) ℂ :=
  toM g.Nt g.N g.CT * g.generalAtf s

/-- `general_transfer_function` at one frequency, `src/cbadc/digital_estimator/batch_estimator.py:542-561`. -/
noncomputable def Sys.generalTransfer (g : Sys ℂ) (pinv : Matrix (Fin g.Nt) (Fin g.Nt) ℂ → Matrix (Fin g.Nt) (Fin g.Nt) ℂ)
    (eta2 ω : ℝ) : Matrix (Fin g.L) (Fin g.N) ℂ :=
  (ntf pinv eta2 (g.tfm (jw ω))).map (fun x => (x : ℂ)) * g.generalTfm (jw ω)

/-- `AnalogSystem.control_signal_transfer_function_matrix` at one frequency,
`src/cbadc/analog_system/analog_system.py:462-467,476-505`: the output matrix is not applied (line 504 is commented out).
Without `Gamma` the product with `None` raises. -/
noncomputable def Sys.ctfm (g : Sys ℂ) (s : ℂ) : Res (Matrix (Fin g.N) (Fin g.M) ℂ) :=
  match g.Gamma with
  | none => .error .typeError
  | some Γ => .ok (g.generalAtf s * toM g.N g.M Γ)

open Classical in
/-- `control_signal_transfer_function` at one frequency, `src/cbadc/digital_estimator/batch_estimator.py:528-540`.  The
reshape of line 533-535 raises `ValueError` when the numbers of entries differ; when they agree and `M > 0`, `N` and
`N_tilde` agree.  `np.linalg.inv` raises `LinAlgError`, a `ValueError`, for singular matrices. -/
noncomputable def Sys.controlTransfer (g : Sys ℂ) (eta2 ω : ℝ) : Res (Matrix (Fin g.L) (Fin g.M) ℝ) :=
  match g.ctfm (jw ω) with
  | .error e => .error e
  | .ok Gbar =>
    if g.N * g.M ≠ g.Nt * g.M then .error .valueError
    else if ¬ IsUnit (gram eta2 (g.tfm (jw ω))) then .error .valueError
    else .ok (Matrix.of fun l m =>
      ‖∑ n : Fin g.Nt, ((g.tfm (jw ω))ᴴ * (gram eta2 (g.tfm (jw ω)))⁻¹) l n *
        (if h : (n : ℕ) < g.N then Gbar ⟨n, h⟩ m else 0)‖)

end Cbadc.Analog
