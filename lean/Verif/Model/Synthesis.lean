import Mathlib.Analysis.SpecialFunctions.Pow.Real
import Mathlib.Analysis.SpecialFunctions.Trigonometric.Basic
import Verif.Model.DigitalControl
import Verif.Model.Structures
import Verif.Model.Signals
import Verif.Model.Fom

/-!
# Synthesis of analog frontends from specifications
(`src/cbadc/synthesis/chain_of_integrators.py`, `src/cbadc/synthesis/leap_frog.py`)

Real numbers.  Keyword arguments are a record of optional values; the system order is a natural number.
-/

namespace Cbadc.Synthesis
open Analog Control Signal

/-- The keyword arguments (`src/cbadc/synthesis/chain_of_integrators.py:27`, `src/cbadc/synthesis/leap_frog.py:43`).
`switchCap` stands for `digital_control="switch_cap"`. -/
structure Kw where
  N : Option ℕ := none
  BW : Option ℝ := none
  ENOB : Option ℝ := none
  SNR : Option ℝ := none
  OSR : Option ℝ := none
  T : Option ℝ := none
  xi : Option ℝ := none
  rho : Option ℝ := none
  delta : Option ℝ := none
  excessDelay : Option ℝ := none
  localFeedback : Bool := false
  finiteGain : Bool := false
  switchCap : Bool := false

/-- `AnalogFrontend`, `src/cbadc/analog_frontend.py:27-33`, holding a system and a digital control with `M` controls. -/
structure Frontend where
  M : ℕ
  sys : Sys ℝ
  dc : DC ℝ M

/-- `DigitalControl(Clock(T), M, impulse_response=ir)` with the default transition time `1e-14` of the clock
(`src/cbadc/analog_signal/clock.py:44-71`, used at `src/cbadc/synthesis/chain_of_integrators.py:87-95,120`,
`src/cbadc/synthesis/leap_frog.py:116`). -/
noncomputable def clocked (T : ℝ) (M : ℕ) (ir : Option (List (IR ℝ))) : Res (DC ℝ M) :=
  match Clock.new T (1 / 10 ^ 14) 0 (1 / 2) 2 with
  | .error e => .error e
  | .ok c => DC.new c.T c.tt2 M ir 0 none

/-- `RCImpulseResponse(tau, t0)`, `src/cbadc/analog_signal/impulse_responses.py:82-119`. -/
noncomputable def rcResponse (tau t0 : ℝ) : IR ℝ := ⟨t0, fun t => if t < t0 then 0 else Real.exp ((t0 - t) / tau)⟩

/-- `g_i`, `src/cbadc/synthesis/chain_of_integrators.py:11-24`. -/
noncomputable def gi (N : ℕ) : ℝ := 2 * N + 1

/-- `v * np.ones(N)` (`src/cbadc/synthesis/chain_of_integrators.py:77-80`). -/
def ones (N : ℕ) (v : ℝ) : List ℝ := List.replicate N v

/-- `v * np.eye(N)` (`src/cbadc/synthesis/chain_of_integrators.py:79,98`). -/
def eye (N : ℕ) (v : ℝ) : Arr ℝ := .mat N N fun i j => if i = j then v else 0

/-- The proportionality `gamma`, `src/cbadc/synthesis/chain_of_integrators.py:62-68`. -/
noncomputable def coiGamma (N : ℕ) (xi enob : ℝ) : ℝ :=
  (xi / gi N * Fom.snrFromDB (Fom.enobToSnr enob)) ^ (1 / (2 * N : ℝ))

/-- The branch `ENOB, N, BW`, `src/cbadc/synthesis/chain_of_integrators.py:62-104`.  `1 / (2 N)` raises for `N = 0`.  The
digital control of lines 92-94 is built and then replaced in line 95. -/
noncomputable def coiEnob (k : Kw) (N : ℕ) (BW enob : ℝ) : Res Frontend :=
  if N = 0 then .error .zeroDivision
  else
    let omega := 2 * Real.pi * BW
    let gamma := coiGamma N (k.xi.getD (23 / 10000)) enob
    let beta := -gamma * omega
    let rho := if k.localFeedback then -omega / gamma else k.rho.getD 0
    let T := 1 / |2 * beta|
    let t0 := T * k.excessDelay.getD 0
    let scale : ℝ := 50
    match chainOfIntegrators (ones N beta) (ones N rho) (eye N beta) with
    | .error e => .error e
    | .ok _ =>
      let dc :=
        if k.switchCap then clocked T N (some (List.replicate N (rcResponse (1 / (|beta| * scale)) t0)))
        else
          match clocked T N (some (List.replicate N (stepResponse t0))) with
          | .error e => .error e
          | .ok _ => clocked T N none
      match dc with
      | .error e => .error e
      | .ok dc =>
        let kappa := if k.switchCap then 1 / 2 * beta * scale else beta
        match chainOfIntegrators (ones N beta) (ones N rho) (eye N kappa) with
        | .error e => .error e
        | .ok g =>
          if k.finiteGain then
            .ok ⟨N, { g with A := fun r c => g.A r c + (if r = c then -omega / gamma ^ (2 * N) else 0) }, dc⟩
          else .ok ⟨N, g, dc⟩

/-- The branch `OSR, N, BW`, `src/cbadc/synthesis/chain_of_integrators.py:107-121`. -/
noncomputable def coiOsr (k : Kw) (N : ℕ) (BW OSR : ℝ) : Res Frontend :=
  match pyDiv 1 (2 * BW * OSR) with
  | .error e => .error e
  | .ok T =>
    match pyDiv 1 (2 * T) with
    | .error e => .error e
    | .ok beta =>
      match chainOfIntegrators (ones N beta) (ones N (k.rho.getD 0)) (eye N beta) with
      | .error e => .error e
      | .ok g =>
        match clocked T N none with
        | .error e => .error e
        | .ok dc => .ok ⟨N, g, dc⟩

/-- `get_chain_of_integrator`, `src/cbadc/synthesis/chain_of_integrators.py:27-144`: the first complete combination of
arguments decides. -/
noncomputable def chainSynthesis (k : Kw) : Res Frontend :=
  match k.N with
  | none => .error .notImplemented
  | some N =>
    match k.BW, k.ENOB, k.SNR, k.OSR, k.T with
    | some BW, some e, _, _, _ => coiEnob k N BW e
    | some BW, none, some s, _, _ => coiEnob k N BW (Fom.snrToEnob s)
    | some BW, none, none, some osr, _ => coiOsr k N BW osr
    | none, _, _, some osr, some T =>
      match pyDiv 1 (2 * T * osr) with
      | .error e => .error e
      | .ok BW => coiOsr { rho := some (k.rho.getD 0) } N BW osr
    | _, _, _, _, _ => .error .notImplemented

/-- The parameters computed before the common end of `get_leap_frog`. -/
structure LeapPar where
  beta : ℝ
  alpha : ℝ
  kappa : ℝ
  delta : ℝ
  T : ℝ

/-- `src/cbadc/synthesis/leap_frog.py:75-89`; `g` is `g_i(N)` of lines 17-40 (`leapG` in `LeapFactor.lean`). -/
noncomputable def leapEnob (k : Kw) (g : ℝ) (N : ℕ) (BW enob : ℝ) : LeapPar :=
  let omega := 2 * Real.pi * BW
  let delta := k.delta.getD 1
  let gamma := (k.xi.getD (4 / 1000) / g * Fom.snrFromDB (Fom.enobToSnr enob)) ^ (1 / (2 * N : ℝ)) * delta
  let omegaP := omega / 2
  let beta := -omegaP * (2 * gamma)
  ⟨beta, omegaP / (2 * gamma), beta, delta, 1 / |2 * omega * gamma / delta|⟩

/-- `src/cbadc/synthesis/leap_frog.py:91-100`. -/
noncomputable def leapOsr (k : Kw) (BW OSR : ℝ) : Res LeapPar :=
  match pyDiv 1 (2 * OSR * BW) with
  | .error e => .error e
  | .ok T =>
    let omega := 2 * Real.pi * BW
    let delta := k.delta.getD 1
    let gamma := delta * OSR / (2 * Real.pi)
    let beta := gamma * omega
    match pyDiv (-(omega / 2) ^ 2) beta with
    | .error e => .error e
    | .ok alpha => .ok ⟨beta, alpha, beta, delta, T⟩

/-- The common end of `get_leap_frog`, `src/cbadc/synthesis/leap_frog.py:110-116`; `np.ones(N - 1)` raises `ValueError`
for `N = 0`. -/
noncomputable def leapEnd (N : ℕ) (p : LeapPar) : Res Frontend :=
  if N = 0 then .error .valueError
  else
    match leapFrog (ones N p.beta) (ones (N - 1) p.alpha) (ones N 0)
        (.mat N N fun i j => if i = j then p.kappa * p.delta ^ i else 0) with
    | .error e => .error e
    | .ok g =>
      match clocked p.T N none with
      | .error e => .error e
      | .ok dc => .ok ⟨N, g, dc⟩

/-- `get_leap_frog` for a given `BW`, `src/cbadc/synthesis/leap_frog.py:74-116`. -/
noncomputable def leapBW (k : Kw) (g : ℕ → ℝ) (N : ℕ) (BW : ℝ) : Res Frontend :=
  match k.ENOB, k.OSR, k.SNR with
  | some e, _, _ => if N = 0 then .error .zeroDivision else leapEnd N (leapEnob k (g N) N BW e)
  | none, some osr, _ =>
    match leapOsr k BW osr with
    | .error e => .error e
    | .ok p => leapEnd N p
  | none, none, some s => if N = 0 then .error .zeroDivision else leapEnd N (leapEnob k (g N) N BW (Fom.snrToEnob s))
  | none, none, none => .error .notImplemented

/-- `get_leap_frog`, `src/cbadc/synthesis/leap_frog.py:43-116`; without `BW` it calls itself with the one computed from
`OSR` and `T` (lines 103-106). -/
noncomputable def leapSynthesis (k : Kw) (g : ℕ → ℝ) : Res Frontend :=
  match k.N with
  | none => .error .notImplemented
  | some N =>
    match k.BW with
    | some BW => leapBW k g N BW
    | none =>
      match k.OSR, k.T with
      | some osr, some T =>
        match pyDiv 1 (2 * osr * T) with
        | .error e => .error e
        | .ok BW => leapBW k g N BW
      | _, _ => .error .notImplemented

end Cbadc.Synthesis
