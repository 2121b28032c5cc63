import Mathlib.Analysis.SpecialFunctions.Pow.Real
import Mathlib.MeasureTheory.Integral.IntervalIntegral.Basic
import Verif.Model.Basic
import Verif.Model.Fom
import Verif.Model.TransferFunction

/-!
# Noise and distortion budgets of the states (`src/cbadc/digital_estimator/batch_estimator.py:563-675`)

`G` is `general_transfer_function` at one frequency (`Sys.generalTransfer`, or any other function).  The limits of the band
are taken positive where they are not zero; for negative limits NumPy returns negative or complex frequencies, which is not
modelled.  A division by zero is `inf` in NumPy and zero here; the theorems exclude it.
-/

namespace Cbadc.Analog

variable {L N : ℕ}

/-- Entry `k` of `np.geomspace(a, b, 1000)`, `src/cbadc/digital_estimator/batch_estimator.py:564,585`. -/
noncomputable def geomFreq (a b : ℝ) (k : ℕ) : ℝ := a * (b / a) ^ ((k : ℝ) / 999)

/-- `max_transfer_function_peak`, `src/cbadc/digital_estimator/batch_estimator.py:563-567`, and the branch `max=True` of
`white_noise_balance`, lines 584-587.  `geomspace` raises `ValueError` if an end is zero. -/
noncomputable def peakPower (G : ℝ → Matrix (Fin L) (Fin N) ℂ) (a b : ℝ) : Res (Fin L → Fin N → ℝ) :=
  if a = 0 ∨ b = 0 then .error .valueError
  else .ok fun l n => ⨆ k : Fin 1000, ‖G (geomFreq a b k) l n‖ ^ 2

/-- The branch `max=False` of `white_noise_balance`, `src/cbadc/digital_estimator/batch_estimator.py:588-606`; the solver is
taken as exact. -/
noncomputable def bandPower (G : ℝ → Matrix (Fin L) (Fin N) ℂ) (a b : ℝ) (l : Fin L) (n : Fin N) : ℝ :=
  ∫ ω in a..b, ‖G ω l n‖ ^ 2

/-- The array `res` of `white_noise_balance`, `src/cbadc/digital_estimator/batch_estimator.py:584-606`. -/
noncomputable def noiseGain (G : ℝ → Matrix (Fin L) (Fin N) ℂ) (a b : ℝ) (mx : Bool) : Res (Fin L → Fin N → ℝ) :=
  if mx then peakPower G a b else .ok (bandPower G a b)

/-- Entry `i` of `np.max(res, axis=1)`, `src/cbadc/digital_estimator/batch_estimator.py:610`. -/
noncomputable def rowMax (res : Fin L → Fin N → ℝ) (i : ℕ) : ℝ :=
  if h : i < L then ⨆ n, res ⟨i, h⟩ n else 0

/-- A two-dimensional array of any shape.  `src/cbadc/digital_estimator/batch_estimator.py:610`. -/
structure Table where
  rows : ℕ
  cols : ℕ
  at' : ℕ → ℕ → ℝ

/-- Entry `[l, n]` of an array.  `src/cbadc/digital_estimator/batch_estimator.py:610`. -/
noncomputable def entry (res : Fin L → Fin N → ℝ) (l n : ℕ) : ℝ :=
  if h : l < L ∧ n < N then res ⟨l, h.1⟩ ⟨n, h.2⟩ else 0

/-- `np.max(res, axis=1) / res / self.analog_system.N`, `src/cbadc/digital_estimator/batch_estimator.py:610`: an array of
length `L` is divided by an array of shape `(L, N)`, so that the first is laid along the *columns*; NumPy raises
`ValueError` if the lengths differ and neither is one, and `np.max` does for an empty axis. -/
noncomputable def balanceOf (res : Fin L → Fin N → ℝ) : Res Table :=
  if N = 0 then .error .valueError
  else if L = N ∨ L = 1 then
    .ok ⟨L, N, fun l n => rowMax res (if L = 1 then 0 else n) / entry res l n / N⟩
  else if N = 1 then .ok ⟨L, L, fun l n => rowMax res n / entry res l 0 / N⟩
  else .error .valueError

/-- `white_noise_balance`, `src/cbadc/digital_estimator/batch_estimator.py:569-610`. -/
noncomputable def noiseBalance (G : ℝ → Matrix (Fin L) (Fin N) ℂ) (a b : ℝ) (mx : Bool) : Res Table :=
  match noiseGain G a b mx with
  | .error e => .error e
  | .ok res => balanceOf res

/-- `white_noise_sensitivities`, `src/cbadc/digital_estimator/batch_estimator.py:612-658`. -/
noncomputable def sensitivities (G : ℝ → Matrix (Fin L) (Fin N) ℂ) (a b : ℝ) (targetSnr inputPower : ℝ)
    (mx spectrum : Bool) : Res (Fin L → Fin N → ℝ) :=
  match noiseBalance G a b mx with
  | .error e => .error e
  | .ok t =>
    if spectrum then .ok fun l n => inputPower / targetSnr * t.at' l n / (b - a)
    else .ok fun l n => inputPower / targetSnr * t.at' l n

/-! ### Harmonics -/

/-- Entry `k` of `np.logspace(np.log(a), np.log(b), 1000)`, `src/cbadc/digital_estimator/batch_estimator.py:664-665`. -/
noncomputable def logFreq (a b : ℝ) (k : ℕ) : ℝ :=
  (10 : ℝ) ^ (Real.log a + k * ((Real.log b - Real.log a) / 999))

/-- Entry `[l, n]` of `np.max(tfs, axis=2)`, `src/cbadc/digital_estimator/batch_estimator.py:666,671`. -/
noncomputable def logPeak (G : ℝ → Matrix (Fin L) (Fin N) ℂ) (a b : ℝ) (l : Fin L) (n : Fin N) : ℝ :=
  ⨆ k : Fin 1000, ‖G (logFreq a b k) l n‖

/-- `1.0 / temp`, `src/cbadc/digital_estimator/batch_estimator.py:668-673`. -/
noncomputable def localHarmonics (G : ℝ → Matrix (Fin L) (Fin N) ℂ) (a b : ℝ) (l : Fin L) (n : Fin N) : ℝ :=
  1 / (logPeak G a b l n / ⨆ p : Fin L × Fin N, logPeak G a b p.1 p.2)

/-- `np.linalg.norm(x, ord=1)` of a two-dimensional array: the largest sum of magnitudes in a column.
`src/cbadc/digital_estimator/batch_estimator.py:674`. -/
noncomputable def normOne (x : Fin L → Fin N → ℝ) : ℝ := ⨆ n, ∑ l, |x l n|

/-- `max_harmonic_estimate`, `src/cbadc/digital_estimator/batch_estimator.py:660-675`; `np.max` of an empty array raises
`ValueError`. -/
noncomputable def maxHarmonic (G : ℝ → Matrix (Fin L) (Fin N) ℂ) (a b : ℝ) (SFDR : ℝ) : Res (Fin L → Fin N → ℝ) :=
  if L = 0 ∨ N = 0 then .error .valueError
  else .ok fun l n =>
    localHarmonics G a b l n / normOne (localHarmonics G a b) / Fom.snrFromDB SFDR

end Cbadc.Analog
