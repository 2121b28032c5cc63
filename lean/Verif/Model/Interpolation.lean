import Verif.Model.Signals
import Verif.Model.SignalTree

/-!
# Interpolated samples (`src/cbadc/analog_signal/zero_order_hold.py:85-185`)

`BandLimitedSignal` and `RaisedCosine` differ only in their impulse response.  The samples are a one-dimensional array.
-/

namespace Cbadc.Signal

/-- The attributes of a `BandLimitedSignal` or `RaisedCosine`,
`src/cbadc/analog_signal/zero_order_hold.py:92-100,143-151`; `BW` is `2 / T`. -/
structure Interp where
  data : List ℝ
  T : ℝ
  BW : ℝ
  alpha : ℝ
  number : ℤ

/-- The constructors, `src/cbadc/analog_signal/zero_order_hold.py:92-100,143-151`. -/
noncomputable def Interp.new (data : List ℝ) (T alpha : ℝ) (number : ℤ) : Res Interp := do
  let bw ← pyDiv 2 T
  return ⟨data, T, bw, alpha, number⟩

/-- `BandLimitedSignal._impulse_response`, `src/cbadc/analog_signal/zero_order_hold.py:105-106`. -/
noncomputable def Interp.sincResponse (s : Interp) (t : ℝ) : ℝ := npSinc (2 * s.BW * t)

/-- `RaisedCosine._impulse_response`, `src/cbadc/analog_signal/zero_order_hold.py:156-160`.  Where the denominator
vanishes NumPy returns `inf` or `nan`, the model zero; the theorems exclude it. -/
noncomputable def Interp.cosineResponse (s : Interp) (t : ℝ) : ℝ :=
  npSinc (2 * s.BW * t) * (Real.cos (2 * Real.pi * s.alpha * s.BW * t) / (1 - (4 * s.alpha * s.BW * t) ^ 2))

/-- One round of the loop, `src/cbadc/analog_signal/zero_order_hold.py:124-127,178-181`; `h` is the impulse response. -/
noncomputable def Interp.round (s : Interp) (h : ℝ → ℝ) (t : ℝ) (index i : ℕ) (res : ℝ) : ℝ :=
  let res := if (index : ℤ) - i > 0 then res + h (t - i * s.T) * s.data.getD (index - i) 0 else res
  if index + i < s.data.length then res + h (t + i * s.T) * s.data.getD (index + i) 0 else res

/-- `evaluate(t)`, `src/cbadc/analog_signal/zero_order_hold.py:108-128,162-182`. -/
noncomputable def Interp.evaluate (s : Interp) (h : ℝ → ℝ) (t : ℝ) : Res ℝ := do
  let q ← pyDiv t s.T
  if s.data.length = 0 then .error .zeroDivision
  else
    let index := (pyInt q % (s.data.length : ℤ)).toNat
    return (List.range' 1 ((s.number / 2).toNat - 1)).foldl (fun res i => s.round h t index i res) (s.data.getD index 0)

end Cbadc.Signal
