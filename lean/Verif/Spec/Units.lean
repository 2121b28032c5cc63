import Verif.Model.FilterCoefficients
import Verif.Model.Simulator
import Verif.Model.Synthesis

/-!
# Units of time

What it means that a converter is another one with every time divided by `r` (and every rate multiplied by `r`): the vocabulary of
C150.
-/

namespace Cbadc.Units

open Cbadc.Analog Cbadc.Control Cbadc.Simulate Cbadc.Synthesis

/-- all rates of an analog system times `r` -/
abbrev sys (r : ℝ) (g : Sys ℝ) : Sys ℝ :=
  { g with A := fun i j => r * g.A i j, B := fun i j => r * g.B i j, Gamma := g.Gamma.map fun G i j => r * G i j }

/-- all times of a waveform divided by `r` -/
noncomputable def ir (r : ℝ) (h : IR ℝ) : IR ℝ := ⟨h.t0 / r, fun t => h.f (r * t)⟩

/-- all times of a digital control divided by `r` -/
noncomputable def dc {M : ℕ} (r : ℝ) (d : DC ℝ M) : DC ℝ M := ⟨d.T / r, d.tt2 / r, d.tDelay / r, fun m => ir r (d.ir m), d.offsets⟩

/-- a simulation set-up with all times divided by `r`: the inputs run `r` times as fast -/
noncomputable def cfg {M : ℕ} (r : ℝ) (c : Cfg M) : Cfg M := ⟨sys r c.sys, dc r c.dc, fun k t => c.input k (r * t), c.hasInput⟩

/-- the state of a simulation with its time divided by `r` -/
noncomputable def st {M : ℕ} (r : ℝ) (s : St M) : St M := { s with t := s.t / r }

/-- specifications for a converter `r` times as fast -/
noncomputable def kw (r : ℝ) (k : Kw) : Kw :=
  { k with BW := k.BW.map (r * ·), T := k.T.map (· / r), rho := k.rho.map (r * ·) }

/-- what becomes of a converter when it is to run `r` times as fast: the transition time of the clock stays what it is, so
that the clock is refused once its period gets too short -/
noncomputable def speedUp (r : ℝ) (f : Frontend) : Res Frontend :=
  if f.dc.T / r / 2 < 1 / 10 ^ 14 then .error .exception else .ok ⟨f.M, sys r f.sys, { dc r f.dc with tt2 := f.dc.tt2 }⟩

end Cbadc.Units
