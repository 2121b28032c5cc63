import Mathlib.Analysis.Complex.Basic
import Mathlib.LinearAlgebra.Matrix.NonsingularInverse
import Verif.Model.Basic

/-!
# The choice of the Riccati solver (`src/cbadc/digital_estimator/_filter_coefficients.py:27-106`)

Exact arithmetic.  The results of `_analytical_care`, `_scipy_care` and `_numpy_care` are parameters; what the first and
the last one compute is modelled in `Verif.Model.FilterCoefficients` (`EigCare`).
-/

namespace Cbadc.Filter

open Matrix

/-- The exceptions that `care` distinguishes, `src/cbadc/digital_estimator/_filter_coefficients.py:94,100`, the one of the
brute force solver, lines 27 and 54, and the others. -/
inductive CareExc
  | precisionExhausted
  | typeError
  | linAlgError
  | bruteForce
  | other
deriving DecidableEq

variable {N P : ℕ}

/-- The bracket that the brute force solver adds, `src/cbadc/digital_estimator/_filter_coefficients.py:58-65`. -/
noncomputable def bruteTerm (A : Matrix (Fin N) (Fin N) ℝ) (B : Matrix (Fin N) (Fin P) ℝ) (Q : Matrix (Fin N) (Fin N) ℝ)
    (R : Matrix (Fin P) (Fin P) ℝ) (V : Matrix (Fin N) (Fin N) ℝ) : Matrix (Fin N) (Fin N) ℝ :=
  Aᵀ * V + Vᵀ * A + Q - V * (B * (R⁻¹ * (Bᵀ * Vᵀ)))

/-- One round, `src/cbadc/digital_estimator/_filter_coefficients.py:57-66`.  (No `FloatingPointError` in exact
arithmetic.) -/
noncomputable def bruteStep (A : Matrix (Fin N) (Fin N) ℝ) (B : Matrix (Fin N) (Fin P) ℝ) (Q : Matrix (Fin N) (Fin N) ℝ)
    (R : Matrix (Fin P) (Fin P) ℝ) (tau : ℝ) (V : Matrix (Fin N) (Fin N) ℝ) : Matrix (Fin N) (Fin N) ℝ :=
  let W := V + tau • bruteTerm A B Q R V
  (1 / 2 : ℝ) • (W + Wᵀ)

/-- `np.allclose(V, W, rtol=rtol, atol=atol)`, `src/cbadc/digital_estimator/_filter_coefficients.py:52`. -/
def AllClose (rtol atol : ℝ) (V W : Matrix (Fin N) (Fin N) ℝ) : Prop := ∀ i j, |V i j - W i j| ≤ atol + rtol * |W i j|

open Classical in
/-- The loop of the brute force solver, `src/cbadc/digital_estimator/_filter_coefficients.py:52-71`; the time limit is
a number of rounds. -/
noncomputable def bruteLoop (A : Matrix (Fin N) (Fin N) ℝ) (B : Matrix (Fin N) (Fin P) ℝ) (Q : Matrix (Fin N) (Fin N) ℝ)
    (R : Matrix (Fin P) (Fin P) ℝ) (rtol atol shrink : ℝ) : ℕ → Matrix (Fin N) (Fin N) ℝ → Matrix (Fin N) (Fin N) ℝ → ℝ →
    Except CareExc (Matrix (Fin N) (Fin N) ℝ)
  | 0, V, W, _ => if AllClose rtol atol V W then .ok V else .error .bruteForce
  | rounds + 1, V, W, tau =>
    if AllClose rtol atol V W then .ok V
    else bruteLoop A B Q R rtol atol shrink rounds (bruteStep A B Q R tau V) V (tau * shrink)

/-- `bruteForceCare` with the default tolerances, `src/cbadc/digital_estimator/_filter_coefficients.py:31-72`, from the
result `guess` of `_numpy_care`; `rounds` is the number of rounds possible within the time limit.  (An exception of
`np.linalg.inv(R)` in line 48 was raised in `_numpy_care` already.) -/
noncomputable def bruteForceCare (A : Matrix (Fin N) (Fin N) ℝ) (B : Matrix (Fin N) (Fin P) ℝ) (Q : Matrix (Fin N) (Fin N) ℝ)
    (R : Matrix (Fin P) (Fin P) ℝ) (rounds : ℕ) (guess : Except CareExc (Matrix (Fin N) (Fin N) ℝ)) :
    Except CareExc (Matrix (Fin N) (Fin N) ℝ) :=
  match guess with
  | .error e => .error e
  | .ok V => bruteLoop A B Q R (1 / 10 ^ 200) (1 / 10 ^ 300) (1 - 1 / 100) rounds V (Matrix.of fun _ _ => 10 ^ 300)
    (1 / 10 ^ 12)

/-- `(V + V.transpose()) / 2.0`, `src/cbadc/digital_estimator/_filter_coefficients.py:106`. -/
noncomputable def symmetrised (V : Matrix (Fin N) (Fin N) ℝ) : Matrix (Fin N) (Fin N) ℝ := (1 / 2 : ℝ) • (V + Vᵀ)

/-- `care`, `src/cbadc/digital_estimator/_filter_coefficients.py:80-106`, from the results of the solvers. -/
noncomputable def care (A : Matrix (Fin N) (Fin N) ℝ) (B : Matrix (Fin N) (Fin P) ℝ) (Q : Matrix (Fin N) (Fin N) ℝ)
    (R : Matrix (Fin P) (Fin P) ℝ) (rounds : ℕ) (analytical scipy guess : Except CareExc (Matrix (Fin N) (Fin N) ℝ)) :
    Except CareExc (Matrix (Fin N) (Fin N) ℝ) :=
  match analytical with
  | .ok V => .ok (symmetrised V)
  | .error e =>
    if e = .precisionExhausted ∨ e = .typeError then
      match scipy with
      | .ok V => .ok (symmetrised V)
      | .error e' =>
        if e' = .linAlgError then
          match bruteForceCare A B Q R rounds guess with
          | .ok V => .ok (symmetrised V)
          | .error e'' => .error e''
        else .error e'
    else .error e

end Cbadc.Filter
