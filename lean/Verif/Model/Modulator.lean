import Mathlib.Analysis.SpecialFunctions.Trigonometric.Basic
import Verif.Model.AnalogSystem

/-!
# Modulated analog systems (`src/cbadc/analog_system/modulator.py`, `SineWaveModulator`)

Exact arithmetic over the reals.  Not modelled: `SquareWaveModulator`, whose constructor passes three arguments to a
constructor with two (lines 198-208 and 29-33) and so always raises `TypeError`; that `modulate` and `demodulate` return the
same array object, which each of them overwrites (within the class every result is used before the next call).
-/

namespace Cbadc.Modulator

open Analog

/-- The attributes of a `SineWaveModulator`, `src/cbadc/analog_system/modulator.py:34-44`. -/
structure SineMod where
  sys : Sys ℝ
  omega : ℝ

/-- `SineWaveModulator.__init__`, `src/cbadc/analog_system/modulator.py:29-64`.  The constructor of the base class accepts the
matrices of an analog system (lines 34-43).  For an odd number of controls the assignment of line 59 has arrays of
different sizes and raises `ValueError`. -/
noncomputable def sineWaveModulator (g : Sys ℝ) (f : ℝ) : Res SineMod :=
  if g.N % 2 ≠ 0 then .error .valueError
  else if g.M % 2 ≠ 0 then .error .valueError
  else .ok ⟨g, 2 * Real.pi * f⟩

/-- `_x_shuffler` and `_s_shuffler` for an even size, `src/cbadc/analog_system/modulator.py:48-52`, `56-60`. -/
def shuffler (n k : ℕ) : ℕ := if k % 2 = 0 then k / 2 else n / 2 + k / 2

/-- `_x_de_shuffler` and `_s_de_shuffler`, `src/cbadc/analog_system/modulator.py:53-54`, `61-62`: the assignment inverts the
permutation. -/
def deShuffler (n k : ℕ) : ℕ := if k < n / 2 then 2 * k else 2 * (k - n / 2) + 1

/-- `_rotation_matrix`, `src/cbadc/analog_system/modulator.py:151-159`: the two blocks are assigned after the diagonal. -/
noncomputable def rotation (n : ℕ) (phi : ℝ) (r c : ℕ) : ℝ :=
  if n / 2 ≤ r ∧ c < n / 2 then (if r - n / 2 = c then Real.sin phi else 0)
  else if r < n / 2 ∧ n / 2 ≤ c then -(if r = c - n / 2 then Real.sin phi else 0)
  else if r = c then Real.cos phi else 0

/-- `x[shuffler]`: an index that is too large raises `IndexError` (`src/cbadc/analog_system/modulator.py:100`, `130`). -/
def gather (n : ℕ) (x : Vec ℝ) : Res (Vec ℝ) :=
  if x.len < n then .error .indexError else .ok ⟨n, fun k => x.v (shuffler n k)⟩

/-- `np.dot(self.demodulate(t), x[self._x_shuffler])[self._x_de_shuffler].flatten()`,
`src/cbadc/analog_system/modulator.py:130-132`, `147-149`. -/
noncomputable def SineMod.demodulated (m : SineMod) (t : ℝ) (x : Vec ℝ) : Res (Vec ℝ) := do
  let z ← gather m.sys.N x
  let y ← npDot m.sys.N m.sys.N (rotation m.sys.N (-m.omega * t)) z
  .ok ⟨m.sys.N, fun k => y.v (deShuffler m.sys.N k)⟩

/-- `np.dot(self.modulate(t)[:M, :M], s[self._s_shuffler])[self._s_de_shuffler]`,
`src/cbadc/analog_system/modulator.py:100-102`, `143-145`; the slice has at most `N` rows and columns. -/
noncomputable def SineMod.modulated (m : SineMod) (t : ℝ) (s : Vec ℝ) : Res (Vec ℝ) := do
  let z ← gather m.sys.M s
  let y ← npDot (min m.sys.M m.sys.N) (min m.sys.M m.sys.N) (rotation m.sys.N (m.omega * t)) z
  .ok ⟨m.sys.M, fun k => y.v (deShuffler m.sys.M k)⟩

/-- `SineWaveModulator.derivative`, `src/cbadc/analog_system/modulator.py:66-104`.  (Without `Gamma` the last product raises,
as in the base class.) -/
noncomputable def SineMod.derivative (m : SineMod) (x : Vec ℝ) (t : ℝ) (u s : Vec ℝ) : Res (Vec ℝ) := do
  let a ← npDot m.sys.N m.sys.N m.sys.A x
  let b ← npDot m.sys.N m.sys.L m.sys.B u
  let z ← m.modulated t s
  match m.sys.Gamma with
  | none => .error .typeError
  | some G =>
    let c ← npDot m.sys.N m.sys.M G z
    .ok (npAdd (npAdd a b) c)

/-- `SineWaveModulator.control_observation`, `src/cbadc/analog_system/modulator.py:106-141`: the state is demodulated, the rest
is as in the base class (including the missing `return` of line 136). -/
noncomputable def SineMod.controlObservation (m : SineMod) (t : ℝ) (x : Vec ℝ) (u s : Option (Vec ℝ)) : Res (Vec ℝ) := do
  let z ← m.demodulated t x
  m.sys.controlObservation z u s

end Cbadc.Modulator
