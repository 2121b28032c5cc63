import Mathlib.Analysis.Normed.Algebra.MatrixExponential
import Mathlib.Analysis.SpecialFunctions.Complex.Arg
import Mathlib.Analysis.SpecialFunctions.Trigonometric.Basic
import Verif.Model.Simulator

/-!
# The pre-computing simulator
(`src/cbadc/simulator/numerical_simulator.py`, class `PreComputedControlSignalsSimulator`)

`scipy.linalg.expm` is the matrix exponential and `scipy.integrate.solve_ivp` an exact solver, as in
`Verif.Model.Simulator`.  Thermal noise is added in `Verif.Model.Noise`.
-/

namespace Cbadc.Simulate
open Cbadc.Analog Cbadc.Control Set Finset

/-- An admissible input signal, `src/cbadc/simulator/numerical_simulator.py:273-280,351-364`: a `Sinusoidal`
(`src/cbadc/analog_signal/sinusoidal.py:86-102`) or a piecewise constant signal given by its values. -/
inductive Sig
  | sine (amplitude ω phase offset : ℝ)
  | pw (f : ℝ → ℝ)

/-- `evaluate(t)` of an input signal (`src/cbadc/analog_signal/sinusoidal.py:98-102` for sinusoids). -/
noncomputable def Sig.eval : Sig → ℝ → ℝ
  | .sine a ω p o, t => a * Real.sin (ω * t + p) + o
  | .pw f, t => f t

/-- Constructor arguments of `PreComputedControlSignalsSimulator`,
`src/cbadc/simulator/numerical_simulator.py:252-262`. -/
structure PCfg (M : ℕ) where
  sys : Sys ℝ
  dc : DC ℝ M
  sig : List Sig

/-- `analog_signal.offset != 0` for a sinusoid, `src/cbadc/simulator/numerical_simulator.py:387`. -/
noncomputable def Sig.hasOffset : Sig → Bool
  | .sine _ _ _ o => !decide (o = 0)
  | .pw _ => false

/-- `isinstance(analog_signal, Sinusoidal)`, `src/cbadc/simulator/numerical_simulator.py:352`. -/
def Sig.isSine : Sig → Bool
  | .sine _ _ _ _ => true
  | .pw _ => false

/-- The checks made by the constructor, `src/cbadc/simulator/_base_simulator.py:69-73` (number of signals),
`src/cbadc/simulator/numerical_simulator.py:287-288` (`_mulit_phase`,
`src/cbadc/digital_control/digital_control.py:106`) and `:387-388` (offsets).  Pre-computability of the analog
system is a class attribute that is true for `AnalogSystem`. -/
noncomputable def PCfg.check {M : ℕ} (cfg : PCfg M) : Res Unit :=
  if 0 < cfg.sig.length ∧ cfg.sys.L ≠ cfg.sig.length then .error .exception
  else if 0 < ∑ m, (cfg.dc.ir m).t0 then .error .notImplemented
  else if cfg.sig.any Sig.hasOffset then .error .notImplemented
  else .ok ()

/-- The `l`-th input signal (`src/cbadc/simulator/numerical_simulator.py:351`); constant zero outside the
list. -/
def PCfg.sigAt {M : ℕ} (cfg : PCfg M) (l : ℕ) : Sig := cfg.sig.getD l (.pw fun _ => 0)

/-- The analog system with complex entries (`transfer_function_matrix` computes with complex numbers,
`src/cbadc/analog_system/analog_system.py:433-438`). -/
noncomputable def cplx (g : Sys ℝ) : Sys ℂ where
  N := g.N
  L := g.L
  M := g.M
  Mt := g.Mt
  Nt := g.Nt
  A r c := g.A r c
  B r c := g.B r c
  CT r c := g.CT r c
  Gamma := g.Gamma.map fun G r c => G r c
  GammaT := g.GammaT.map fun G r c => G r c
  D r c := g.D r c
  Bt r c := g.Bt r c
  At r c := g.At r c

/-- Entry `tf[n, l, 0]` of the transfer function matrix at `ω`,
`src/cbadc/simulator/numerical_simulator.py:377-385`. -/
noncomputable def tfEntry (g : Sys ℝ) (ω : ℝ) (n l : ℕ) : ℂ :=
  if h : n < g.Nt ∧ l < g.L then (cplx g).tfm (Complex.I * ω) ⟨n, h.1⟩ ⟨l, h.2⟩ else 0

/-- `tf[:, l, 0]` assigned to a column with `N` entries (`src/cbadc/simulator/numerical_simulator.py:380-385`):
a single row is repeated by broadcasting, any other number of rows than `N` raises `ValueError` (checked in
`PCfg.next`). -/
noncomputable def tfCol (g : Sys ℝ) (ω : ℝ) (n l : ℕ) : ℂ := tfEntry g ω (if g.Nt = 1 then 0 else n) l

/-- `sine_before` / `sine_after` at time `t`, `src/cbadc/simulator/numerical_simulator.py:506-524`. -/
noncomputable def PCfg.sines {M : ℕ} (cfg : PCfg M) (t : ℝ) (n : ℕ) : ℝ :=
  ∑ l ∈ Finset.range cfg.sig.length,
    match cfg.sigAt l with
    | .sine a ω p _ =>
      ‖tfCol cfg.sys ω n l‖ * a * Real.sin (ω * t + ((tfCol cfg.sys ω n l).arg + p))
    | .pw _ => 0

/-- `expm(A T)`, `src/cbadc/simulator/numerical_simulator.py:298-299,401-403`. -/
noncomputable def expAT (g : Sys ℝ) (T : ℝ) : Matrix (Fin g.N) (Fin g.N) ℝ :=
  NormedSpace.exp (T • toM g.N g.N g.A)

/-- `np.dot(X, x).flatten()` of a square matrix and the state
(`src/cbadc/simulator/numerical_simulator.py:498-500`). -/
def matVec {N : ℕ} (X : Matrix (Fin N) (Fin N) ℝ) (x : ℕ → ℝ) : ℕ → ℝ := fun n =>
  if h : n < N then ∑ c : Fin N, X ⟨n, h⟩ c * x c else 0

/-- `ψ` solves `x' = A x + v(τ)` on `[0, T]` from zero: what `solve_ivp` computes in
`src/cbadc/simulator/numerical_simulator.py:430-447,462-481`. -/
structure Forced (g : Sys ℝ) (T : ℝ) (v : ℝ → ℕ → ℝ) (ψ : ℝ → ℕ → ℝ) : Prop where
  start : ∀ n < g.N, ψ 0 n = 0
  cont : ∀ n < g.N, ContinuousOn (fun τ => ψ τ n) (Icc 0 T)
  ode : ∀ τ ∈ Ico 0 T, ∀ n < g.N,
    HasDerivWithinAt (fun τ => ψ τ n) (dot g.N g.A (ψ τ) n + v τ n) (Ici τ) τ

/-- The pre-computed control matrix and piecewise constant matrix,
`src/cbadc/simulator/numerical_simulator.py:409-447,449-481`.  For the single-phase controls accepted by the
constructor the start time of every control is 0, so the first branch of lines 415-424 is taken. -/
structure Pre {M : ℕ} (cfg : PCfg M) (G : ℕ → ℕ → ℝ) (ctrl pw : ℕ → ℕ → ℝ) : Prop where
  ctrl : ∀ m : Fin M, ∃ ψ, Forced cfg.sys cfg.dc.T
      (fun τ => dot cfg.sys.M G (asVec (impulseResponse cfg.dc m τ)).v) ψ ∧
    ∀ n < cfg.sys.N, ctrl n m = ψ cfg.dc.T n
  pw : ∀ l < cfg.sig.length, ∃ ψ, Forced cfg.sys cfg.dc.T (fun _ n => cfg.sys.B n l) ψ ∧
    ∀ n < cfg.sys.N, pw n l = ψ cfg.dc.T n

/-- Contribution of the piecewise constant signals, `src/cbadc/simulator/numerical_simulator.py:530-545`: the
signals are evaluated at `self.t + t`, the end of the interval. -/
noncomputable def PCfg.pieces {M : ℕ} (cfg : PCfg M) (pw : ℕ → ℕ → ℝ) (t : ℝ) (n : ℕ) : ℝ :=
  ∑ l ∈ Finset.range cfg.sig.length,
    match cfg.sigAt l with
    | .sine _ _ _ _ => 0
    | .pw f => pw n l * f (t + cfg.dc.T)

/-- The same simulation set up with `FullSimulator` (`src/cbadc/simulator/numerical_simulator.py:60-83`); the
signals considered here ignore `tick()`. -/
noncomputable def PCfg.full {M : ℕ} (cfg : PCfg M) : Cfg M where
  sys := cfg.sys
  dc := cfg.dc
  input _ t l := (cfg.sigAt l).eval t
  hasInput := decide (0 < cfg.sig.length)

/-- One call of `__next__`, `src/cbadc/simulator/numerical_simulator.py:294-297,483-610`, with the pre-computed
matrices; the control update (lines 487-496) is the one of `FullSimulator`. -/
noncomputable def PCfg.next {M : ℕ} (cfg : PCfg M) (ctrl pw : ℕ → ℕ → ℝ) (st : St M) : Res (St M) :=
  if cfg.sig.any Sig.isSine ∧ cfg.sys.Nt ≠ cfg.sys.N ∧ cfg.sys.Nt ≠ 1 then .error .valueError
  else
    match cfg.full.decide st with
    | .error e => .error e
    | .ok c => .ok
      { ticks := st.ticks
        t := st.t + cfg.dc.T
        c := c
        x := fun n =>
          matVec (expAT cfg.sys cfg.dc.T) st.x n +
            (cfg.sines (st.t + cfg.dc.T) n -
              matVec (expAT cfg.sys cfg.dc.T) (cfg.sines (st.t + 0)) n) +
            cfg.pieces pw st.t n +
            ∑ m : Fin M, ctrl n m * (2 * c.s m - 1) }

end Cbadc.Simulate
