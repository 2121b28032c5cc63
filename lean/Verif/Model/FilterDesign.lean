import Mathlib.Analysis.SpecialFunctions.Log.Base
import Mathlib.Analysis.SpecialFunctions.Pow.Complex
import Verif.Model.Filters

/-!
# Filters designed from a specification (`src/cbadc/analog_system/filters.py:277-501`)

Exact complex arithmetic.  Of scipy, as it is called by `IIRDesign`, the choice of the band type, the band transforms
`lp2hp_zpk`, `lp2bp_zpk`, `lp2bs_zpk` and, for Butterworth filters, the choice of the order are modelled.  The
elliptic prototype, the orders of the other filter types and the order of a Butterworth band-stop filter (which scipy
finds with a numerical optimisation) are parameters.
-/

namespace Cbadc.Filters
open Complex Cbadc.Analog

/-- The filter types that the documentation lists, `src/cbadc/analog_system/filters.py:415-423`. -/
inductive FType
  | butter | cheby1 | cheby2 | ellip | bessel

/-- Edge frequencies, a number or a pair, `src/cbadc/analog_system/filters.py:401-402`. -/
inductive Freq
  | one (w : ℝ)
  | two (lo hi : ℝ)

/-- The band types of `scipy.signal.iirdesign`, called from `src/cbadc/analog_system/filters.py:495-497`. -/
inductive Band
  | lowpass | highpass | bandstop | bandpass

/-- The band type that `scipy.signal.iirdesign` (called from `src/cbadc/analog_system/filters.py:495-497`) derives from
the edges.  Edges of different shapes raise `ValueError`; the other checks of the edges (that they are positive and
nested) are not modelled. -/
noncomputable def bandOf : Freq → Freq → Res Band
  | .one wp, .one ws => .ok (if ws ≤ wp then .highpass else .lowpass)
  | .two wp _, .two ws _ => .ok (if ws ≤ wp then .bandpass else .bandstop)
  | _, _ => .error .valueError

/-- `scipy.signal.lp2hp_zpk`, called from `src/cbadc/analog_system/filters.py:495-497`. -/
noncomputable def lp2hp (f : Zpk) (wo : ℝ) : Zpk :=
  ⟨(f.z.map fun z => (wo : ℂ) / z) ++ List.replicate (f.p.length - f.z.length) 0, f.p.map fun p => (wo : ℂ) / p,
    f.k * ((f.z.map fun z => -z).prod / (f.p.map fun p => -p).prod).re⟩

/-- `np.sqrt` of a complex number, used by the band transforms called from
`src/cbadc/analog_system/filters.py:495-497`. -/
noncomputable def csqrt (x : ℂ) : ℂ := x ^ ((2 : ℕ) : ℂ)⁻¹

/-- The two lists `x + sqrt(x**2 - wo**2)` and `x - sqrt(x**2 - wo**2)` that scipy's band transforms concatenate,
called from `src/cbadc/analog_system/filters.py:495-497`. -/
noncomputable def split (wo : ℝ) (l : List ℂ) : List ℂ :=
  (l.map fun x => x + csqrt (x ^ 2 - (wo : ℂ) ^ 2)) ++ l.map fun x => x - csqrt (x ^ 2 - (wo : ℂ) ^ 2)

/-- `scipy.signal.lp2bp_zpk`, called from `src/cbadc/analog_system/filters.py:495-497`. -/
noncomputable def lp2bp (f : Zpk) (wo bw : ℝ) : Zpk :=
  ⟨split wo (f.z.map fun z => z * bw / 2) ++ List.replicate (f.p.length - f.z.length) 0,
    split wo (f.p.map fun p => p * bw / 2), f.k * bw ^ (f.p.length - f.z.length)⟩

/-- `scipy.signal.lp2bs_zpk`, called from `src/cbadc/analog_system/filters.py:495-497`. -/
noncomputable def lp2bs (f : Zpk) (wo bw : ℝ) : Zpk :=
  ⟨split wo (f.z.map fun z => (bw : ℂ) / 2 / z) ++
      (List.replicate (f.p.length - f.z.length) (I * wo) ++ List.replicate (f.p.length - f.z.length) (-I * wo)),
    split wo (f.p.map fun p => (bw : ℂ) / 2 / p),
    f.k * ((f.z.map fun z => -z).prod / (f.p.map fun p => -p).prod).re⟩

/-- The band transform of `scipy.signal.iirfilter`, called by `iirdesign` from
`src/cbadc/analog_system/filters.py:495-497`; `ValueError` for critical frequencies that are not positive or not as
many as the band type needs. -/
noncomputable def transform (f : Zpk) : Band → Freq → Res Zpk
  | .lowpass, .one w => if w ≤ 0 then .error .valueError else .ok (lp2lp f w)
  | .highpass, .one w => if w ≤ 0 then .error .valueError else .ok (lp2hp f w)
  | .bandpass, .two lo hi =>
    if lo ≤ 0 ∨ hi ≤ 0 then .error .valueError else .ok (lp2bp f (Real.sqrt (lo * hi)) (hi - lo))
  | .bandstop, .two lo hi =>
    if lo ≤ 0 ∨ hi ≤ 0 then .error .valueError else .ok (lp2bs f (Real.sqrt (lo * hi)) (hi - lo))
  | _, _ => .error .valueError

/-- The selectivity `nat` of `scipy.signal.buttord`, called by `iirdesign` from
`src/cbadc/analog_system/filters.py:495-497`, for all but band-stop filters. -/
noncomputable def selectivity : Freq → Freq → ℝ
  | .one wp, .one ws => if ws ≤ wp then wp / ws else ws / wp
  | .two p0 p1, .two s0 s1 =>
    min |(s0 ^ 2 - p0 * p1) / (s0 * (p0 - p1))| |(s1 ^ 2 - p0 * p1) / (s1 * (p0 - p1))|
  | _, _ => 0

/-- The order that `scipy.signal.buttord` computes from the selectivity, called by `iirdesign` from
`src/cbadc/analog_system/filters.py:495-497`. -/
noncomputable def buttOrder (nat gpass gstop : ℝ) : ℕ :=
  ⌈Real.logb 10 (((10 : ℝ) ^ (gstop / 10) - 1) / ((10 : ℝ) ^ (gpass / 10) - 1)) / (2 * Real.logb 10 nat)⌉₊

/-- The natural frequency `W0` of `scipy.signal.buttord` for the order `N`, called by `iirdesign` from
`src/cbadc/analog_system/filters.py:495-497`. -/
noncomputable def buttW0 (N : ℕ) (gpass : ℝ) : ℝ := ((10 : ℝ) ^ (gpass / 10) - 1) ^ (-1 / (2 * (N : ℝ)))

/-- The critical frequencies of `scipy.signal.buttord` for all but band-stop filters, called by `iirdesign` from
`src/cbadc/analog_system/filters.py:495-497`; `W0` is the natural frequency.  (The two numbers are sorted by scipy;
the smaller one is the one with `-W0` in the formula below for a positive `W0`.) -/
noncomputable def buttWn (W0 : ℝ) : Band → Freq → Freq
  | .lowpass, .one wp => .one (W0 * wp)
  | .highpass, .one wp => .one (wp / W0)
  | _, .two p0 p1 =>
    let r := Real.sqrt (W0 ^ 2 / 4 * (p1 - p0) ^ 2 + p0 * p1)
    .two |-W0 * (p1 - p0) / 2 + r| |W0 * (p1 - p0) / 2 + r|
  | _, w => w

/-- Order and critical frequencies; `other` stands for the parts of scipy that are not modelled.  Called by `iirdesign`
from `src/cbadc/analog_system/filters.py:495-497`. -/
noncomputable def order (other : FType → Freq → Freq → ℝ → ℝ → ℕ × Freq) (ft : FType) (b : Band) (wp ws : Freq)
    (gpass gstop : ℝ) : ℕ × Freq :=
  match ft, b with
  | .butter, .bandstop => other ft wp ws gpass gstop
  | .butter, b =>
    let N := buttOrder (selectivity wp ws) gpass gstop
    (N, buttWn (buttW0 N gpass) b wp)
  | ft, _ => other ft wp ws gpass gstop

/-- The low-pass prototype; `ellipap` stands for `scipy.signal.ellipap`.  `iirdesign` raises `ValueError` for Bessel
filters, for which scipy has no choice of the order.  Called from `src/cbadc/analog_system/filters.py:366-368`,
`495-497`. -/
noncomputable def prototype (ellipap : ℕ → ℝ → ℝ → Zpk) (ft : FType) (N : ℕ) (rp rs : ℝ) : Res Zpk :=
  match ft with
  | .butter => .ok (buttap N)
  | .cheby1 => .ok (cheb1ap N rp)
  | .cheby2 => .ok (cheb2ap N rs)
  | .ellip => .ok (ellipap N rp rs)
  | .bessel => .error .valueError

/-- `IIRDesign.__init__`, `src/cbadc/analog_system/filters.py:493-501`.  scipy rejects `gpass` and `gstop` that are not
positive and `gpass > gstop`.  (`CT[-1:, :]` and `D[-1:, :]` of lines 499-500 are all of the single row that
`zpk2abcd` returns.) -/
noncomputable def iirDesign (ellipap : ℕ → ℝ → ℝ → Zpk) (other : FType → Freq → Freq → ℝ → ℝ → ℕ × Freq)
    (sort : List ℂ → List ℂ) (wp ws : Freq) (gpass gstop : ℝ) (ft : FType) : Res (Sys ℂ) := do
  let b ← bandOf wp ws
  if gpass ≤ 0 ∨ gstop ≤ 0 ∨ gstop < gpass then .error .valueError
  else
    let o := order other ft b wp ws gpass gstop
    let f ← prototype ellipap ft o.1 gpass gstop
    let f' ← transform f b o.2
    system sort f'

/-- `Cauer.__init__`, `src/cbadc/analog_system/filters.py:359-370`; `iirfilter` raises `ValueError` for a frequency that
is not positive and for a negative ripple or attenuation. -/
noncomputable def cauer (ellipap : ℕ → ℝ → ℝ → Zpk) (sort : List ℂ → List ℂ) (N : ℕ) (Wn rp rs : ℝ) : Res (Sys ℂ) :=
  if Wn ≤ 0 ∨ rp < 0 ∨ rs < 0 then .error .valueError else system sort (lp2lp (ellipap N rp rs) Wn)

end Cbadc.Filters
