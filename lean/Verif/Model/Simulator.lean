import Mathlib.Analysis.Calculus.Deriv.Basic
import Mathlib.Data.Real.Basic
import Verif.Model.AnalogSystem
import Verif.Model.DigitalControl

/-!
# The full time-domain simulator (`src/cbadc/simulator/numerical_simulator.py`, class `FullSimulator`)

`scipy.integrate.solve_ivp` is modelled as an exact solver: the relation `Period` says that some exact solution
of the differential equation handed to it starts at the current state, and that the new state is its end
point.  Thermal noise (`state_noise_covariance_matrix`) is added in `Verif.Model.Noise`.
-/

namespace Cbadc.Simulate
open Cbadc.Analog Cbadc.Control Set

/-- Constructor arguments of `FullSimulator`, `src/cbadc/simulator/numerical_simulator.py:60-83`.  The input
signals are given by `input k t l`: what `input_signals[l].evaluate(t)` returns after `k` calls of `tick()`;
`hasInput` is `len(self.input_signals) > 0`. -/
structure Cfg (M : ℕ) where
  sys : Sys ℝ
  dc : DC ℝ M
  input : ℕ → ℝ → ℕ → ℝ
  hasInput : Bool

/-- The mutable attributes: number of ticks given to the inputs, `self.t`, `self._state_vector` and the state of
the digital control (`src/cbadc/simulator/_base_simulator.py:59-112`). -/
structure St (M : ℕ) where
  ticks : ℕ
  t : ℝ
  x : ℕ → ℝ
  c : State ℝ M

/-- A control vector as a numpy array (`src/cbadc/simulator/numerical_simulator.py:113,142`). -/
def asVec {M : ℕ} (v : Fin M → ℝ) : Vec ℝ := ⟨M, fun i => if h : i < M then v ⟨i, h⟩ else 0⟩

/-- The input vector `self._u` used for the control observation,
`src/cbadc/simulator/numerical_simulator.py:81,99-101`: zeros without input signals. -/
def Cfg.u0 {M : ℕ} (cfg : Cfg M) (st : St M) : Vec ℝ :=
  ⟨cfg.sys.L, fun l => if cfg.hasInput then cfg.input st.ticks (0 + st.t) l else 0⟩

/-- The control update at the beginning of the period, `src/cbadc/simulator/numerical_simulator.py:106-114` with
`t_old = 0` (`clock_pulses = [0, T]`, `src/cbadc/digital_control/digital_control.py:87`).  An observation with
fewer than `M` entries raises `IndexError` inside `control_update`. -/
noncomputable def Cfg.decide {M : ℕ} (cfg : Cfg M) (st : St M) : Res (State ℝ M) :=
  match cfg.sys.controlObservation ⟨cfg.sys.N, st.x⟩ (some (cfg.u0 st))
      (some (asVec (contribution cfg.dc st.c 0))) with
  | .error e => .error e
  | .ok y =>
    if y.len < M then .error .indexError else .ok (update cfg.dc st.c 0 fun m => y.v m)

/-- The right-hand side handed to the solver, `src/cbadc/simulator/numerical_simulator.py:116-168`, after the
control update produced `c`; note that without input signals it uses the state at the start of the period. -/
noncomputable def Cfg.rhs {M : ℕ} (cfg : Cfg M) (st : St M) (c : State ℝ M) (τ : ℝ) (y : ℕ → ℝ) :
    Res (Vec ℝ) :=
  if cfg.hasInput then
    cfg.sys.derivative ⟨cfg.sys.N, y⟩ ⟨cfg.sys.L, fun l => cfg.input (st.ticks + 1) (τ + st.t) l⟩
      (asVec (contribution cfg.dc c τ))
  else do
    let a ← npDot cfg.sys.N cfg.sys.N cfg.sys.A ⟨cfg.sys.N, st.x⟩
    match cfg.sys.Gamma with
    | none => .error .typeError
    | some G =>
      let b ← npDot cfg.sys.N cfg.sys.M G (asVec (contribution cfg.dc c τ))
      .ok (npAdd a b)

/-- One call of `__next__`, `src/cbadc/simulator/numerical_simulator.py:85-189`: `φ` is the trajectory found by
the (exact) solver over the period, on the solver's own time axis `[0, T]`. -/
structure Period {M : ℕ} (cfg : Cfg M) (st : St M) (φ : ℝ → ℕ → ℝ) (st' : St M) : Prop where
  dec : cfg.decide st = .ok st'.c
  start : ∀ n < cfg.sys.N, φ 0 n = st.x n
  cont : ∀ n < cfg.sys.N, ContinuousOn (fun τ => φ τ n) (Icc 0 cfg.dc.T)
  ode : ∀ τ ∈ Ico 0 cfg.dc.T, ∃ d, cfg.rhs st st'.c τ (φ τ) = .ok d ∧
    ∀ n < cfg.sys.N, HasDerivWithinAt (fun τ => φ τ n) (d.v n) (Ici τ) τ
  stop : ∀ n < cfg.sys.N, st'.x n = φ cfg.dc.T n
  ticks : st'.ticks = if cfg.hasInput then st.ticks + 1 else st.ticks
  time : st'.t = st.t + cfg.dc.T

/-- A whole simulation: the `k`-th call of `__next__` leads from `st k` to `st (k + 1)` along `φ k`
(iteration over the simulator, `src/cbadc/simulator/numerical_simulator.py:85-88`). -/
def Run {M : ℕ} (cfg : Cfg M) (st : ℕ → St M) (φ : ℕ → ℝ → ℕ → ℝ) : Prop :=
  ∀ k, Period cfg (st k) (φ k) (st (k + 1))

/-! ### Array objects of an extended simulation -/

/-- The array objects alive during an extended simulation: contents by identity, the next unused identity, the
arrays bound to `simulator._state_vector` and to the control signal of the digital control, and `simulator.t`
(`src/cbadc/simulator/_base_simulator.py:80-112`, `src/cbadc/digital_control/digital_control.py:73,167`). -/
structure Mem where
  heap : ℕ → List ℝ
  fresh : ℕ
  xAddr : ℕ
  sAddr : ℕ
  t : ℝ

/-- The effect of one `next(simulator)` on the array objects: the new state is either written in place
(`FullSimulator`, `src/cbadc/simulator/numerical_simulator.py:180`) or bound to a new array
(`PreComputedControlSignalsSimulator`, `src/cbadc/simulator/numerical_simulator.py:498`); the control decisions
are written in place (`src/cbadc/digital_control/digital_control.py:141`). -/
structure Tick where
  x : List ℝ
  s : List ℝ
  rebind : Bool
  t : ℝ

/-- Storing contents in an array (in-place writes as in `src/cbadc/simulator/numerical_simulator.py:180`). -/
def Mem.write (h : ℕ → List ℝ) (a : ℕ) (v : List ℝ) : ℕ → List ℝ := fun b => if b = a then v else h b

/-- One `next(simulator)`, see `Tick` (`src/cbadc/simulator/numerical_simulator.py:85-88,294-297`). -/
def Mem.tick (m : Mem) (k : Tick) : Mem :=
  if k.rebind then
    { heap := Mem.write (Mem.write m.heap m.fresh k.x) m.sAddr k.s
      fresh := m.fresh + 1
      xAddr := m.fresh
      sAddr := m.sAddr
      t := k.t }
  else
    { heap := Mem.write (Mem.write m.heap m.xAddr k.x) m.sAddr k.s
      fresh := m.fresh
      xAddr := m.xAddr
      sAddr := m.sAddr
      t := k.t }

/-- A dictionary yielded by `extended_simulation_result`: identities of the two arrays and the time
(`src/cbadc/simulator/utilities.py:27-31`). -/
structure Item where
  ctrl : ℕ
  state : ℕ
  t : ℝ

/-- One iteration of `extended_simulation_result`, `src/cbadc/simulator/utilities.py:25-31`: `np.array` makes
copies. -/
def Mem.extended (m : Mem) (k : Tick) : Mem × Item :=
  let m' := m.tick k
  ({ heap := Mem.write (Mem.write m'.heap m'.fresh (m'.heap m'.sAddr)) (m'.fresh + 1) (m'.heap m'.xAddr)
     fresh := m'.fresh + 2
     xAddr := m'.xAddr
     sAddr := m'.sAddr
     t := m'.t }, ⟨m'.fresh, m'.fresh + 1, m'.t⟩)

/-- Iterating `extended_simulation_result` and keeping all items (`src/cbadc/simulator/utilities.py:25-31`). -/
def Mem.collect (m : Mem) : List Tick → Mem × List Item
  | [] => (m, [])
  | k :: ks =>
    let r := (m.extended k).1.collect ks
    (r.1, (m.extended k).2 :: r.2)

end Cbadc.Simulate
