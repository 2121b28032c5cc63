import Mathlib.Analysis.SpecialFunctions.Trigonometric.Deriv
import Mathlib.Analysis.SpecialFunctions.Arsinh
import Mathlib.Analysis.Real.Sqrt
import Verif.Model.Zpk

/-!
# Standard filters (`src/cbadc/analog_system/filters.py`)

Exact complex arithmetic.  The filters call `scipy.signal.iirfilter` with `analog=True`, `btype="lowpass"` and
`output="zpk"`; of scipy the prototypes `buttap`, `cheb1ap`, `cheb2ap` and the transform `lp2lp_zpk` that this call
consists of are modelled.  `Cauer` and `IIRDesign` are in `Verif.Model.FilterDesign`.
-/

namespace Cbadc.Filters
open Complex Cbadc.Analog

/-- Zeros, poles and gain, as `scipy.signal.iirfilter` returns them (`src/cbadc/analog_system/filters.py:90-92`,
`180-182`, `270-272`). -/
structure Zpk where
  z : List ℂ
  p : List ℂ
  k : ℝ

/-- `pi * m / (2 * N)` for the entry `i` of `m = numpy.arange(-N + 1, N, 2)` in scipy's prototypes, called from
`src/cbadc/analog_system/filters.py:90-92`, `180-182`, `270-272`. -/
noncomputable def angle (N i : ℕ) : ℝ := Real.pi * (2 * i - N + 1) / (2 * N)

/-- `scipy.signal.buttap`, called from `src/cbadc/analog_system/filters.py:90-92`. -/
noncomputable def buttap (N : ℕ) : Zpk := ⟨[], (List.range N).map fun i => -exp (I * angle N i), 1⟩

/-- `eps` of `scipy.signal.cheb1ap`, called from `src/cbadc/analog_system/filters.py:180-182`. -/
noncomputable def ripple (rp : ℝ) : ℝ := Real.sqrt ((10 : ℝ) ^ (rp / 10) - 1)

/-- `scipy.signal.cheb1ap` for a positive ripple, called from `src/cbadc/analog_system/filters.py:180-182`. -/
noncomputable def cheb1ap (N : ℕ) (rp : ℝ) : Zpk :=
  let eps := ripple rp
  let mu := Real.arsinh (1 / eps) / N
  let p := (List.range N).map fun i => -sinh (mu + I * angle N i)
  let k := ((p.map fun p => -p).prod).re
  ⟨[], p, if N % 2 = 0 then k / Real.sqrt (1 + eps ^ 2) else k⟩

/-- `scipy.signal.cheb2ap` for a positive attenuation, called from `src/cbadc/analog_system/filters.py:270-272`; the
angle zero, which an odd order has, gives no zero. -/
noncomputable def cheb2ap (N : ℕ) (rs : ℝ) : Zpk :=
  let de := 1 / Real.sqrt ((10 : ℝ) ^ (rs / 10) - 1)
  let mu := Real.arsinh (1 / de) / N
  let z := ((List.range N).filter fun i => 2 * i + 1 ≠ N).map fun i =>
    -(starRingEnd ℂ) (I / (Real.sin (angle N i) : ℝ))
  let p := (List.range N).map fun i =>
    let q := -exp (I * angle N i)
    1 / ((Real.sinh mu * q.re : ℝ) + I * (Real.cosh mu * q.im : ℝ))
  ⟨z, p, ((p.map fun p => -p).prod / (z.map fun z => -z).prod).re⟩

/-- `scipy.signal.lp2lp_zpk`, called from `src/cbadc/analog_system/filters.py:90-92`, `180-182`, `270-272`. -/
noncomputable def lp2lp (f : Zpk) (wo : ℝ) : Zpk :=
  ⟨f.z.map fun z => wo * z, f.p.map fun p => wo * p, f.k * wo ^ (f.p.length - f.z.length)⟩

/-- `zpk2abcd` and the constructor of the base class, `src/cbadc/analog_system/filters.py:94-95`, `183-184`,
`273-274`; `sort` is the sorting of `zpk2abcd`. -/
noncomputable def system (sort : List ℂ → List ℂ) (f : Zpk) : Res (Sys ℂ) := do
  let q ← zpk2abcd sort f.z f.p f.k
  Sys.new (.mat q.n q.n q.A) (.mat q.n 1 q.B) (.mat 1 q.n q.CT) none none (some (.mat 1 1 q.D)) none none

/-- `ButterWorth.__init__`, `src/cbadc/analog_system/filters.py:84-95`; `iirfilter` raises `ValueError` for a
frequency that is not positive. -/
noncomputable def butterWorth (sort : List ℂ → List ℂ) (N : ℕ) (Wn : ℝ) : Res (Sys ℂ) :=
  if Wn ≤ 0 then .error .valueError else system sort (lp2lp (buttap N) Wn)

/-- `ChebyshevI.__init__`, `src/cbadc/analog_system/filters.py:174-184`; `iirfilter` raises `ValueError` for a
frequency that is not positive and for a negative ripple.  For `rp = 0` the prototype divides by zero (the result
is `nan`, here `zeroDivision`). -/
noncomputable def chebyshevI (sort : List ℂ → List ℂ) (N : ℕ) (Wn rp : ℝ) : Res (Sys ℂ) :=
  if Wn ≤ 0 ∨ rp < 0 then .error .valueError
  else if rp = 0 then .error .zeroDivision
  else system sort (lp2lp (cheb1ap N rp) Wn)

/-- `ChebyshevII.__init__`, `src/cbadc/analog_system/filters.py:265-274`; `iirfilter` raises `ValueError` for a
frequency that is not positive and for a negative attenuation.  For `rs = 0` the prototype divides by zero (the
result is `nan`, here `zeroDivision`). -/
noncomputable def chebyshevII (sort : List ℂ → List ℂ) (N : ℕ) (Wn rs : ℝ) : Res (Sys ℂ) :=
  if Wn ≤ 0 ∨ rs < 0 then .error .valueError
  else if rs = 0 then .error .zeroDivision
  else system sort (lp2lp (cheb2ap N rs) Wn)

end Cbadc.Filters
