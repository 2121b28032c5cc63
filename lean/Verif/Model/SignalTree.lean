import Mathlib.Analysis.SpecialFunctions.Trigonometric.Basic
import Mathlib.Analysis.SpecialFunctions.Exp
import Mathlib.Analysis.SpecialFunctions.Sqrt
import Mathlib.Algebra.Order.Floor.Ring
import Mathlib.Algebra.Order.Archimedean.Real.Basic
import Mathlib.Analysis.SpecialFunctions.Trigonometric.Sinc
import Verif.Model.Signals

/-!
# Combining signals (`src/cbadc/analog_signal`)

Signals over the real numbers.  Objects with state (reference signals and held samples) live in a heap, because
the same object may occur several times in a combination.
-/

namespace Cbadc.Signal

open Classical

/-- The objects with mutable attributes: `BinaryReferenceSignal` / `TernaryReferenceSignal`
(`src/cbadc/analog_signal/random.py:7-77`), `GaussianReferenceSignal` (`random.py:80-133`),
`UniformReferenceSignal` (`random.py:136-207`) and `ZeroOrderHold`
(`src/cbadc/analog_signal/zero_order_hold.py:10-82`).  `BandLimitedSignal` and `RaisedCosine`
(`zero_order_hold.py:85-180`) are not modelled. -/
inductive Obj
  | finite (r : Rand ℝ)
  | gaussian (r : Rand ℝ)
  | uniform (r : Rand ℝ)
  | zoh (z : ZOH ℝ)

/-- The objects by identity (no single source location: Python's heap). -/
abbrev Heap := ℕ → Obj

/-- A signal expression.  `base` is `_AnalogSignal` itself; `add` and `mul` are `SuperpositionSignal` and
`ModulatedSignal`, also created by `+` and `*` (`src/cbadc/analog_signal/_analog_signal.py:59-66,72-137`); `quad` is
`QuadratureSignal` and `modulator` is `SineWaveModulator` (`src/cbadc/analog_signal/quadrature.py:62-152`). -/
inductive Sig
  | base
  | constant (offset : ℝ)
  | sinusoidal (amplitude frequency phase offset : ℝ)
  | sinc (amplitude bandwidth t0 offset : ℝ)
  | ramp (r : Ramp ℝ)
  | clock (c : Clock ℝ)
  | step (t0 amplitude : ℝ)
  | nrz (tStart tEnd amplitude : ℝ)
  | rc (tau t0 amplitude : ℝ)
  | obj (i : ℕ)
  | add (l : List Sig)
  | mul (l : List Sig)
  | quad (amplitude angularFrequency : ℝ) (inPhase : Bool) (i q : Sig)
  | modulator (i q : Sig) (carrier : ℝ)

/-- `Sinusoidal.evaluate`, `src/cbadc/analog_signal/sinusoidal.py:62-67,86-102`. -/
noncomputable def sinusoidal (amplitude frequency phase offset t : ℝ) : ℝ :=
  amplitude * Real.sin (2 * Real.pi * frequency * t + phase) + offset

/-- `np.sinc(x)`, i.e. `sin(pi x) / (pi x)` and 1 at 0, used at `src/cbadc/analog_signal/sinc_pulse.py:83`. -/
noncomputable def npSinc (x : ℝ) : ℝ := if x = 0 then 1 else Real.sin (Real.pi * x) / (Real.pi * x)

/-- `SincPulse.evaluate`, `src/cbadc/analog_signal/sinc_pulse.py:69-84`. -/
noncomputable def sincPulse (amplitude bandwidth t0 offset t : ℝ) : ℝ :=
  amplitude * npSinc (2 * bandwidth * (t - t0)) + offset

/-- `StepResponse.evaluate`, `src/cbadc/analog_signal/impulse_responses.py:25-44`. -/
noncomputable def stepEval (t0 amplitude t : ℝ) : ℝ := if t ≥ t0 then amplitude else 0

/-- `NonReturnToZeroDAC.evaluate`, `src/cbadc/analog_signal/impulse_responses.py:66-85`. -/
noncomputable def nrzEval (tStart tEnd amplitude t : ℝ) : ℝ :=
  if t < tEnd then stepEval tStart amplitude t else 0

/-- `RCImpulseResponse.evaluate`, `src/cbadc/analog_signal/impulse_responses.py:98-128`.  For `tau = 0` Python
raises; here the quotient is 0, the theorems assume `tau ≠ 0`. -/
noncomputable def rcEval (tau t0 amplitude t : ℝ) : ℝ :=
  if t < t0 then 0 else amplitude * Real.exp ((t0 - t) / tau)

/-- `evaluate` of an object in the heap and the object afterwards,
`src/cbadc/analog_signal/random.py:21-29,112-133,180-204`, `src/cbadc/analog_signal/zero_order_hold.py:65-78`. -/
noncomputable def Obj.evaluate : Obj → ℝ → Res ℝ × Obj
  | .finite r, t => (.ok (r.finiteStep t).value, .finite (r.finiteStep t))
  | .gaussian r, t => (.ok (r.finiteStep t).value, .gaussian (r.finiteStep t))
  | .uniform r, t => (.ok (r.uniformStep t).value, .uniform (r.uniformStep t))
  | .zoh z, t => (z.evaluate t, .zoh z)

/-- `signal(t)` inside a sum or product, for an object of the heap: `_AnalogSignal.__call__`
(`src/cbadc/analog_signal/_analog_signal.py:53-54`) evaluates, but `ZeroOrderHold.__call__`
(`src/cbadc/analog_signal/zero_order_hold.py:80-82`) stores its argument as data and returns the object, and adding or
multiplying a number with that object raises `TypeError`. -/
noncomputable def Obj.call : Obj → ℝ → Res ℝ × Obj
  | .zoh z, _ => (.error .typeError, .zoh { z with data := none })
  | o, t => o.evaluate t

/-- The heap after evaluating object `i` (no single source location: assignment to attributes). -/
noncomputable def Heap.set (h : Heap) (i : ℕ) (o : Obj) : Heap := Function.update h i o

/-- The two coordinates of `_rotation_matrix(angle) @ [i, q]` selected by `phase`,
`src/cbadc/analog_signal/quadrature.py:10-23,127-130,148-152`. -/
noncomputable def rotated (inPhase : Bool) (angle i q : ℝ) : ℝ :=
  if inPhase then Real.cos angle * i - Real.sin angle * q else Real.sin angle * i + Real.cos angle * q

mutual
/-- `evaluate`, per class: `src/cbadc/analog_signal/_analog_signal.py:31-44,81-97,116-132`,
`constant_signal.py:53-66`, `sinusoidal.py:86-102`, `sinc_pulse.py:69-84`, `ramp.py:56-67`, `clock.py:124-137`,
`impulse_responses.py:25-128`, `quadrature.py:75-91,135-152`. -/
noncomputable def Sig.evaluate : Sig → ℝ → Heap → Res ℝ × Heap
  | .base, _, h => (.ok 0, h)
  | .constant c, _, h => (.ok c, h)
  | .sinusoidal a f p o, t, h => (.ok (Signal.sinusoidal a f p o t), h)
  | .sinc a b t0 o, t, h => (.ok (sincPulse a b t0 o t), h)
  | .ramp r, t, h => (r.evaluate t, h)
  | .clock c, t, h => (c.evaluate t, h)
  | .step t0 a, t, h => (.ok (stepEval t0 a t), h)
  | .nrz t0 t1 a, t, h => (.ok (nrzEval t0 t1 a t), h)
  | .rc tau t0 a, t, h => (.ok (rcEval tau t0 a t), h)
  | .obj i, t, h => ((h i).evaluate t |>.1, h.set i ((h i).evaluate t).2)
  | .add l, t, h => Sig.sumLoop l t 0 h
  | .mul l, t, h => Sig.mulLoop l t 1 h
  | .quad a w p i q, t, h =>
    match Sig.evaluate i t h with
    | (.error e, h) => (.error e, h)
    | (.ok vi, h) =>
      match Sig.evaluate q t h with
      | (.error e, h) => (.error e, h)
      | (.ok vq, h) => (.ok (a * rotated p (w * t) vi vq), h)
  | .modulator i q f, t, h =>
    match Sig.evaluate i t h with
    | (.error e, h) => (.error e, h)
    | (.ok vi, h) =>
      match Sig.evaluate q t h with
      | (.error e, h) => (.error e, h)
      | (.ok vq, h) =>
        (.ok (1 / Real.sqrt 2 * (Real.cos (2 * Real.pi * f * t) * vi + Real.sin (2 * Real.pi * f * t) * vq)), h)

/-- The loop of `SuperpositionSignal.evaluate`, `src/cbadc/analog_signal/_analog_signal.py:129-132`. -/
noncomputable def Sig.sumLoop : List Sig → ℝ → ℝ → Heap → Res ℝ × Heap
  | [], _, res, h => (.ok res, h)
  | .obj i :: l, t, res, h =>
    match (h i).call t with
    | (.error e, o) => (.error e, h.set i o)
    | (.ok v, o) => Sig.sumLoop l t (res + v) (h.set i o)
  | s :: l, t, res, h =>
    match Sig.evaluate s t h with
    | (.error e, h) => (.error e, h)
    | (.ok v, h) => Sig.sumLoop l t (res + v) h

/-- The loop of `ModulatedSignal.evaluate`, `src/cbadc/analog_signal/_analog_signal.py:94-97`. -/
noncomputable def Sig.mulLoop : List Sig → ℝ → ℝ → Heap → Res ℝ × Heap
  | [], _, res, h => (.ok res, h)
  | .obj i :: l, t, res, h =>
    match (h i).call t with
    | (.error e, o) => (.error e, h.set i o)
    | (.ok v, o) => Sig.mulLoop l t (res * v) (h.set i o)
  | s :: l, t, res, h =>
    match Sig.evaluate s t h with
    | (.error e, h) => (.error e, h)
    | (.ok v, h) => Sig.mulLoop l t (res * v) h
end

mutual
/-- Construction of a signal and the attribute `piecewise_constant` it ends up with:
`src/cbadc/analog_signal/_analog_signal.py:15-19,73-79,108-114`, `constant_signal.py:42`,
`impulse_responses.py:10-14`, `zero_order_hold.py:59`, `random.py:16,175`.  `none`: the attribute does not exist
(`GaussianReferenceSignal.__init__`, `random.py:100-107`, does not call the base class), which makes the constructors
of sums and products raise `AttributeError`. -/
noncomputable def Sig.construct : Sig → Heap → Res (Option Bool)
  | .base, _ => .ok (some false)
  | .constant _, _ => .ok (some true)
  | .sinusoidal _ _ _ _, _ => .ok (some false)
  | .sinc _ _ _ _, _ => .ok (some false)
  | .ramp _, _ => .ok (some false)
  | .clock _, _ => .ok (some false)
  | .step _ _, _ => .ok (some true)
  | .nrz _ _ _, _ => .ok (some true)
  | .rc _ _ _, _ => .ok (some true)
  | .obj i, h => match h i with
    | .gaussian _ => .ok none
    | _ => .ok (some true)
  | .add l, h => Sig.flagLoop l h true
  | .mul l, h => Sig.flagLoop l h true
  | .quad _ _ _ i q, h =>
    match Sig.construct i h, Sig.construct q h with
    | .ok _, .ok _ => .ok (some false)
    | .error e, _ => .error e
    | _, .error e => .error e
  | .modulator i q _, h =>
    match Sig.construct i h, Sig.construct q h with
    | .ok _, .ok _ => .ok (some false)
    | .error e, _ => .error e
    | _, .error e => .error e

/-- The loop of the constructors of sums and products, `src/cbadc/analog_signal/_analog_signal.py:75-79,110-114`, where each
part is constructed just before it is inspected (the order of the exceptions is simplified). -/
noncomputable def Sig.flagLoop : List Sig → Heap → Bool → Res (Option Bool)
  | [], _, b => .ok (some b)
  | s :: l, h, b =>
    match Sig.construct s h with
    | .error e => .error e
    | .ok none => .error .attributeError
    | .ok (some p) => Sig.flagLoop l h (if p then b else false)
end

/-- `get_quadrature_signal_pair`, `src/cbadc/analog_signal/quadrature.py:26-59`: `phase` and `offset` are accepted
and not used. -/
def quadraturePair (amplitude angularFrequency : ℝ) (inPhase quadrature : Sig) (_phase _offset : ℝ) : Sig × Sig :=
  (.quad amplitude angularFrequency true inPhase quadrature, .quad amplitude angularFrequency false inPhase quadrature)

/-- `_mpmath`, the value used by the mpmath based simulators, for the classes that define it:
`src/cbadc/analog_signal/sinusoidal.py:104-112`, `sinc_pulse.py:86-94`, `impulse_responses.py:46-47,130-132`
(`NonReturnToZeroDAC` inherits it), `ramp.py:69-71`; otherwise `_analog_signal.py:50-51`.  mpmath's division by zero
at the peak of a sinc pulse raises.  Objects of the heap are left out. -/
noncomputable def Sig.mpmath : Sig → ℝ → Heap → Res ℝ
  | .sinusoidal a f p o, t, _ => .ok (a * Real.sin (2 * Real.pi * f * t + p) + o)
  | .sinc a b t0 _, t, _ =>
    if 2 * Real.pi * b * (t - t0) = 0 then .error .zeroDivision
    else .ok (a * Real.sin (2 * Real.pi * b * (t - t0)) / (2 * Real.pi * b * (t - t0)))
  | .step _ a, _, _ => .ok a
  | .nrz _ _ a, _, _ => .ok a
  | .rc tau t0 a, t, _ => .ok (a * Real.exp ((t0 - t) / tau))
  | s, t, h => (s.evaluate t h).1

/-- `symbolic`, as the function of time (and of the symbolic phase `φ`) that the sympy expression denotes, for the
classes that define one: `src/cbadc/analog_signal/constant_signal.py:43-51`, `sinusoidal.py:114-126`,
`sinc_pulse.py:96-107` (sympy's `sinc` is `sin x / x`), `impulse_responses.py:49-58,134-142`, `ramp.py:73-81`.
`none`: `NotImplementedError` of `_analog_signal.py:21-29`, or `Clock.symbolic`, which compares symbolic
expressions (`clock.py:78`) and is not modelled. -/
noncomputable def Sig.symbolic : Sig → Option (ℝ → ℝ → Res ℝ)
  | .constant c => some fun _ _ => .ok c
  | .sinusoidal a f p o => some fun φ t => .ok (a * Real.sin (2 * Real.pi * f * t + p + φ) + o)
  | .sinc a b t0 o => some fun _ t => .ok (a * Real.sinc (2 * b * (t - t0)) + o)
  | .step _ a => some fun _ _ => .ok a
  | .nrz _ _ a => some fun _ _ => .ok a
  | .rc tau t0 a => some fun _ t => .ok (a * Real.exp ((t0 - t) / tau))
  | .ramp r => some fun _ t => r.evaluate t
  | _ => none

end Cbadc.Signal
