import Mathlib.Analysis.Normed.Algebra.MatrixExponential
import Mathlib.Data.Matrix.Block
import Mathlib.Data.Matrix.ColumnRowPartitioned
import Verif.Model.AnalogSystem
import Verif.Model.DigitalControl
import Verif.Model.Estimator
import Verif.Spec.FilterCoefficients

/-!
# Filter coefficients (`src/cbadc/digital_estimator/_filter_coefficients.py`)

Exact arithmetic.  `expm` is the matrix exponential; the solvers for Riccati equations (`care`), linear
differential equations (`solve_ivp`, `mp.odefun`, `sp.dsolve`) and linear systems (`lstsq`, `qr_solve`) are
relations: the result is an exact solution.
-/

namespace Cbadc.Filter

open Matrix Spec Cbadc.Analog Cbadc.Control Cbadc.Estimator

variable {M : ℕ}

/-! ### Riccati equations -/

/-- The argument `A` of `care`, `src/cbadc/digital_estimator/_filter_coefficients.py:175`. -/
def careA (g : Sys ℝ) : Matrix (Fin g.N) (Fin g.N) ℝ := (toM g.N g.N g.A)ᵀ

/-- The argument `B` of `care`, `src/cbadc/digital_estimator/_filter_coefficients.py:176`. -/
def careB (g : Sys ℝ) : Matrix (Fin g.N) (Fin g.Nt) ℝ := (toM g.Nt g.N g.CT)ᵀ

/-- The argument `Q` of `care`, `src/cbadc/digital_estimator/_filter_coefficients.py:177`. -/
def careQ (g : Sys ℝ) : Matrix (Fin g.N) (Fin g.N) ℝ := toM g.N g.L g.B * (toM g.N g.L g.B)ᵀ

/-- The argument `R` of `care`, `src/cbadc/digital_estimator/_filter_coefficients.py:178`. -/
def careR (g : Sys ℝ) (eta2 : ℝ) : Matrix (Fin g.Nt) (Fin g.Nt) ℝ := eta2 • 1

/-- The results `Vf` and `Vb` of the two calls of `care`,
`src/cbadc/digital_estimator/_filter_coefficients.py:180-181`: exact symmetric solutions (line 106 makes
the result symmetric). -/
structure Cares (g : Sys ℝ) (eta2 : ℝ) (Vf Vb : Matrix (Fin g.N) (Fin g.N) ℝ) : Prop where
  f : IsCare (careA g) (careB g) (careQ g) (careR g eta2) Vf
  b : IsCare (-careA g) (careB g) (careQ g) (careR g eta2) Vb

/-- The matrix `Z` of `src/cbadc/digital_estimator/_filter_coefficients.py:117` (`126-131` in `_numpy_care`), read as a block
matrix with complex entries. -/
noncomputable def hamiltonian {N P : ℕ} (A : Matrix (Fin N) (Fin N) ℝ) (B : Matrix (Fin N) (Fin P) ℝ)
    (Q : Matrix (Fin N) (Fin N) ℝ) (R : Matrix (Fin P) (Fin P) ℝ) : Matrix (Fin N ⊕ Fin N) (Fin N ⊕ Fin N) ℂ :=
  (fromBlocks A (-(B * R⁻¹ * Bᵀ)) (-Q) (-Aᵀ)).map fun a => (a : ℂ)

/-- The decomposition of `src/cbadc/digital_estimator/_filter_coefficients.py:119` (`132-136` in `_numpy_care`): the
columns of `E` are a basis of eigenvectors with eigenvalues `d`, sorted by real part (lines 134-136; the order that
`sort=True` of line 119 yields for symbolic numbers is taken to be the same).  `diagonalize` raises if there is no such
basis. -/
structure EigBasis {N P : ℕ} (A : Matrix (Fin N) (Fin N) ℝ) (B : Matrix (Fin N) (Fin P) ℝ) (Q : Matrix (Fin N) (Fin N) ℝ)
    (R : Matrix (Fin P) (Fin P) ℝ) (E : Matrix (Fin N ⊕ Fin N) (Fin N ⊕ Fin N) ℂ) (d : Fin N ⊕ Fin N → ℂ) : Prop where
  eig : hamiltonian A B Q R * E = E * diagonal d
  basis : IsUnit E.det
  sorted : ∀ i j, (d (.inl i)).re ≤ (d (.inr j)).re

/-- `_analytical_care`, `src/cbadc/digital_estimator/_filter_coefficients.py:109-122` (`125-140` for `_numpy_care`): the
blocks of the first `N` eigenvectors are divided (line 120; `inv` raises for a singular block), and the quotient is made
real (line 121) and symmetric (lines 122, 106). -/
structure EigCare {N P : ℕ} (A : Matrix (Fin N) (Fin N) ℝ) (B : Matrix (Fin N) (Fin P) ℝ) (Q : Matrix (Fin N) (Fin N) ℝ)
    (R : Matrix (Fin P) (Fin P) ℝ) (E : Matrix (Fin N ⊕ Fin N) (Fin N ⊕ Fin N) ℂ) (d : Fin N ⊕ Fin N → ℂ)
    (V : Matrix (Fin N) (Fin N) ℝ) : Prop extends EigBasis A B Q R E d where
  inv : IsUnit E.toBlocks₁₁.det
  sol : V = (1 / 2 : ℝ) • ((E.toBlocks₂₁ * E.toBlocks₁₁⁻¹).map Complex.re + ((E.toBlocks₂₁ * E.toBlocks₁₁⁻¹).map Complex.re)ᵀ)

/-- `CCT`, `src/cbadc/digital_estimator/_filter_coefficients.py:331-334` (`215-219`, `265-269` in the other
backends). -/
noncomputable def cct (g : Sys ℝ) (eta2 : ℝ) : Matrix (Fin g.N) (Fin g.N) ℝ :=
  (toM g.Nt g.N g.CT)ᵀ * ((careR g eta2)⁻¹ * toM g.Nt g.N g.CT)

/-- `tempAf`, `src/cbadc/digital_estimator/_filter_coefficients.py:336` (`220`, `272`). -/
noncomputable def tempAf (g : Sys ℝ) (eta2 : ℝ) (Vf : Matrix (Fin g.N) (Fin g.N) ℝ) :
    Matrix (Fin g.N) (Fin g.N) ℝ := toM g.N g.N g.A - Vf * cct g eta2

/-- `tempAb`, `src/cbadc/digital_estimator/_filter_coefficients.py:337` (`221`, `273`). -/
noncomputable def tempAb (g : Sys ℝ) (eta2 : ℝ) (Vb : Matrix (Fin g.N) (Fin g.N) ℝ) :
    Matrix (Fin g.N) (Fin g.N) ℝ := toM g.N g.N g.A + Vb * cct g eta2

/-- What all backends have in common: `Af`, `Ab` and `WT`.
`src/cbadc/digital_estimator/_filter_coefficients.py:338-341` (numpy), `274-290` (mpmath), `222-224` (sympy).
`lstsq` returns a solution of the normal equations. -/
structure Common (g : Sys ℝ) (T eta2 : ℝ) (Vf Vb : Matrix (Fin g.N) (Fin g.N) ℝ)
    (c : Coeffs ℝ g.N M g.L) : Prop where
  Af : c.Af = NormedSpace.exp (T • tempAf g eta2 Vf)
  Ab : c.Ab = NormedSpace.exp (T • -tempAb g eta2 Vb)
  WT : (Vf + Vb)ᵀ * ((Vf + Vb) * c.WTᵀ - toM g.N g.L g.B) = 0

/-! ### The numpy backend -/

/-- `_regular`, `src/cbadc/digital_estimator/_filter_coefficients.py:349-415`: `G` is `Gamma`.  The events
(lines 371-375, 395-399) only make the solver step to the jumps.  `h(Ts - t)` is continuous from the left where `h`
is continuous from the right. -/
structure Regular (g : Sys ℝ) (G : ℕ → ℕ → ℝ) (dc : DC ℝ M) (eta2 : ℝ)
    (Vf Vb : Matrix (Fin g.N) (Fin g.N) ℝ) (c : Coeffs ℝ g.N M g.L) : Prop where
  Bf : ∀ m : Fin M, ∃ ψ, Flow (tempAf g eta2 Vf) (fun t => toM g.N M G *ᵥ impulseResponse dc m t) 0 dc.T ψ ∧
    ψ 0 = 0 ∧ ∀ n, c.Bf n m = ψ dc.T n
  Bb : ∀ m : Fin M, ∃ ψ, FlowLeft (-tempAb g eta2 Vb)
      (fun t => -(toM g.N M G *ᵥ impulseResponse dc m (dc.T - t))) 0 dc.T ψ ∧
    ψ 0 = 0 ∧ ∀ n, c.Bb n m = ψ dc.T n

/-- `compute_filter_coefficients(..., solver_type=numpy, mid_point=False)`,
`src/cbadc/digital_estimator/_filter_coefficients.py:167-197`, `323-346`. -/
structure Numerical (g : Sys ℝ) (G : ℕ → ℕ → ℝ) (dc : DC ℝ M) (eta2 : ℝ)
    (Vf Vb : Matrix (Fin g.N) (Fin g.N) ℝ) (c : Coeffs ℝ g.N M g.L) : Prop where
  cares : Cares g eta2 Vf Vb
  common : Common g dc.T eta2 Vf Vb c
  regular : Regular g G dc eta2 Vf Vb c

/-- `_mid_point`, `src/cbadc/digital_estimator/_filter_coefficients.py:418-469`. -/
structure MidPoint (g : Sys ℝ) (G : ℕ → ℕ → ℝ) (dc : DC ℝ M) (eta2 : ℝ)
    (Vf Vb : Matrix (Fin g.N) (Fin g.N) ℝ) (c : Coeffs ℝ g.N M g.L) : Prop where
  Bf : ∃ B, (∀ m : Fin M, ∃ ψ,
      Flow (tempAf g eta2 Vf) (fun t => toM g.N M G *ᵥ impulseResponse dc m t) 0 (dc.T / 2) ψ ∧
      ψ 0 = 0 ∧ ∀ n, B n m = ψ (dc.T / 2) n) ∧
    c.Bf = (1 + NormedSpace.exp ((dc.T / 2) • tempAf g eta2 Vf)) * B
  Bb : ∃ B, (∀ m : Fin M, ∃ ψ, FlowLeft (-tempAb g eta2 Vb)
      (fun t => -(toM g.N M G *ᵥ impulseResponse dc m (dc.T - t))) 0 (dc.T / 2) ψ ∧
      ψ 0 = 0 ∧ ∀ n, B n m = ψ (dc.T / 2) n) ∧
    c.Bb = (1 + NormedSpace.exp ((dc.T / 2) • tempAb g eta2 Vb)) * B

/-- `compute_filter_coefficients(..., solver_type=numpy, mid_point=True)`,
`src/cbadc/digital_estimator/_filter_coefficients.py:167-197`, `323-346`. -/
structure NumericalMid (g : Sys ℝ) (G : ℕ → ℕ → ℝ) (dc : DC ℝ M) (eta2 : ℝ)
    (Vf Vb : Matrix (Fin g.N) (Fin g.N) ℝ) (c : Coeffs ℝ g.N M g.L) : Prop where
  cares : Cares g eta2 Vf Vb
  common : Common g dc.T eta2 Vf Vb c
  mid : MidPoint g G dc eta2 Vf Vb c

/-! ### The multi-precision and the symbolic backend -/

/-- The impulse responses of the package with their parameters:
`src/cbadc/analog_signal/impulse_responses.py:17-23` (`StepResponse`), `61-64` (`NonReturnToZeroDAC`),
`88-96` (`RCImpulseResponse`). -/
inductive Dac
  | step (t0 amplitude : ℝ)
  | nrz (t0 tEnd amplitude : ℝ)
  | rc (tau t0 amplitude : ℝ)

/-- The attribute `t0`, `src/cbadc/analog_signal/impulse_responses.py:20`, `92`. -/
def Dac.t0 : Dac → ℝ
  | .step t0 _ => t0
  | .nrz t0 _ _ => t0
  | .rc _ t0 _ => t0

/-- `evaluate`, `src/cbadc/analog_signal/impulse_responses.py:44`, `85`, `125-128`. -/
noncomputable def Dac.eval : Dac → ℝ → ℝ
  | .step t0 a, t => if t0 ≤ t then a else 0
  | .nrz t0 t1 a, t => if t < t1 then (if t0 ≤ t then a else 0) else 0
  | .rc tau t0 a, t => if t < t0 then 0 else a * Real.exp ((t0 - t) / tau)

/-- `_mpmath`, `src/cbadc/analog_signal/impulse_responses.py:46-47`, `130-132`. -/
noncomputable def Dac.mp : Dac → ℝ → ℝ
  | .step _ a, _ => a
  | .nrz _ _ a, _ => a
  | .rc tau t0 a, t => a * Real.exp ((t0 - t) / tau)

/-- `symbolic`, `src/cbadc/analog_signal/impulse_responses.py:49-58`, `134-142`. -/
noncomputable def Dac.sym : Dac → ℝ → ℝ
  | .step _ a, _ => a
  | .nrz _ _ a, _ => a
  | .rc tau t0 a, t => a * Real.exp ((t0 - t) / tau)

/-- The waveform as seen by the digital control: `src/cbadc/digital_control/digital_control.py:96-111`. -/
noncomputable def Dac.ir (d : Dac) : IR ℝ := ⟨d.t0, d.eval⟩

/-- `_mp_solver`, `src/cbadc/digital_estimator/_filter_coefficients.py:252-293`, with
`src/cbadc/ode_solver/mpmath.py:7-31` and `reverse_signal` (lines 296-320). -/
structure MpSolver (g : Sys ℝ) (G : ℕ → ℕ → ℝ) (T : ℝ) (dac : Fin M → Dac) (eta2 : ℝ)
    (Vf Vb : Matrix (Fin g.N) (Fin g.N) ℝ) (c : Coeffs ℝ g.N M g.L) : Prop where
  common : Common g T eta2 Vf Vb c
  Bf : ∀ m : Fin M, ∃ ψ, Flow (tempAf g eta2 Vf) (fun t n => G n m * (dac m).mp t) 0 T ψ ∧
    ψ 0 = 0 ∧ ∀ n, c.Bf n m = ψ T n
  Bb : ∀ m : Fin M, ∃ ψ, FlowLeft (-tempAb g eta2 Vb) (fun t n => -G n m * (dac m).mp (T - t)) 0 T ψ ∧
    ψ 0 = 0 ∧ ∀ n, c.Bb n m = ψ T n

/-- `_analytical_solver`, `src/cbadc/digital_estimator/_filter_coefficients.py:200-249`, with
`src/cbadc/ode_solver/sympy.py:12-30`, `58-112`: the solution vanishes at the start time of the waveform.
`mid_point` raises `NotImplementedError` (line 208). -/
structure SymSolver (g : Sys ℝ) (G : ℕ → ℕ → ℝ) (T : ℝ) (dac : Fin M → Dac) (eta2 : ℝ)
    (Vf Vb : Matrix (Fin g.N) (Fin g.N) ℝ) (c : Coeffs ℝ g.N M g.L) : Prop where
  common : Common g T eta2 Vf Vb c
  Bf : ∀ m : Fin M, ∃ ψ, Flow (tempAf g eta2 Vf) (fun t n => G n m * (dac m).sym t) (dac m).t0 T ψ ∧
    ψ (dac m).t0 = 0 ∧ ∀ n, c.Bf n m = ψ T n
  Bb : ∀ m : Fin M, ∃ ψ, Flow (-tempAb g eta2 Vb) (fun t n => -G n m * (dac m).sym t) (dac m).t0 T ψ ∧
    ψ (dac m).t0 = 0 ∧ ∀ n, c.Bb n m = ψ T n

/-- `FilterComputationBackend`, `src/cbadc/digital_estimator/_filter_coefficients.py:21-24`. -/
inductive Backend
  | numpy
  | sympy
  | mpmath

/-- The results of `compute_filter_coefficients`, `src/cbadc/digital_estimator/_filter_coefficients.py:167-197`:
`mid_point` raises `NotImplementedError` in the symbolic backend (line 208) and is not passed on to the multi-precision one
(lines 192-195), which is the default (line 171). -/
def Computed (be : Backend) (mid : Bool) (g : Sys ℝ) (G : ℕ → ℕ → ℝ) (dc : DC ℝ M) (dac : Fin M → Dac) (eta2 : ℝ)
    (Vf Vb : Matrix (Fin g.N) (Fin g.N) ℝ) (c : Coeffs ℝ g.N M g.L) : Prop :=
  Cares g eta2 Vf Vb ∧
    match be, mid with
    | .sympy, true => False
    | .sympy, false => SymSolver g G dc.T dac eta2 Vf Vb c
    | .mpmath, _ => MpSolver g G dc.T dac eta2 Vf Vb c
    | .numpy, true => NumericalMid g G dc eta2 Vf Vb c
    | .numpy, false => Numerical g G dc eta2 Vf Vb c

end Cbadc.Filter
