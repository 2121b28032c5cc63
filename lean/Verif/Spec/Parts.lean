import Verif.Model.FilterCoefficients
import Verif.Model.Simulator

/-!
# Parts of a stacked converter

What it means to look at one part of a converter that was put together from several: the vocabulary of C164.  The part has the states,
inputs and controls with `n` consecutive numbers from an offset on.
-/

namespace Cbadc.Parts

open Matrix Cbadc.Analog Cbadc.Control Cbadc.Simulate Cbadc.Estimator

/-- the matrix that picks `n` of `N` entries, from number `o` on -/
def pick {K : Type*} [Zero K] [One K] (n N o : ℕ) : Matrix (Fin n) (Fin N) K := fun i j => if (j : ℕ) = o + i then 1 else 0

/-- the entries of the part -/
def take {α : Type*} {m M o : ℕ} (h : o + m ≤ M) (v : Fin M → α) : Fin m → α := fun i => v ⟨o + i, by omega⟩

/-- the digital control of the part: same clock and delay, its own waveforms and comparator offsets -/
abbrev control {K : Type*} {m M o : ℕ} (h : o + m ≤ M) (d : DC K M) : DC K m := { d with ir := take h d.ir, offsets := take h d.offsets }

/-- the part `g` of a set-up, with its own inputs, from number `oL` on -/
abbrev config {M o : ℕ} (c : Cfg M) (g : Sys ℝ) (oL : ℕ) (h : o + g.M ≤ M) : Cfg g.M :=
  ⟨g, control h c.dc, fun k t l => c.input k t (oL + l), c.hasInput⟩

/-- what the simulator's attributes are for the part, whose states are those from number `oN` on -/
abbrev st {m M o : ℕ} (oN : ℕ) (h : o + m ≤ M) (s : St M) : St m :=
  ⟨s.ticks, s.t, fun n => s.x (oN + n), ⟨take h s.c.s, take h s.c.cur, take h s.c.old⟩⟩

/-- The part's estimates can be computed from the part alone: in the rows of the part, the coefficients are those of the part and zero
for the states and controls of the others. -/
structure Restricts {K : Type*} [CommRing K] {N M L n m l : ℕ} (oN oM oL : ℕ) (c : Coeffs K N M L) (c' : Coeffs K n m l) : Prop where
  Af : pick n N oN * c.Af = c'.Af * pick n N oN
  Ab : pick n N oN * c.Ab = c'.Ab * pick n N oN
  Bf : pick n N oN * c.Bf = c'.Bf * pick m M oM
  Bb : pick n N oN * c.Bb = c'.Bb * pick m M oM
  WT : pick l L oL * c.WT = c'.WT * pick n N oN

end Cbadc.Parts
