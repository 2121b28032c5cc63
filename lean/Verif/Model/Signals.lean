import Mathlib.Algebra.Order.Floor.Ring
import Mathlib.Algebra.Order.Field.Basic
import Verif.Model.Basic
import Verif.Model.FixedPoint
import Verif.Model.DigitalControl

/-!
# Clocks, ramps, held samples and reference signals (`src/cbadc/analog_signal`)

Exact arithmetic over an ordered field `K` with floor.
-/

namespace Cbadc.Signal

variable {K : Type*} [Field K] [LinearOrder K] [FloorRing K]

/-- Python's float `a % b` (result with the sign of `b`, `ZeroDivisionError` for `b = 0`), as used at
`src/cbadc/analog_signal/clock.py:85,105` and `src/cbadc/analog_signal/ramp.py:67`. -/
def pyMod (a b : K) : Res K := if b = 0 then .error .zeroDivision else .ok (a - b * (⌊a / b⌋ : K))

/-- The attributes of a `Clock`, `src/cbadc/analog_signal/clock.py:53-59`. -/
structure Clock (K : Type*) where
  T : K
  tt : K
  tt2 : K
  td : K
  duty : K
  negPulseTime : K
  maxValue : K
  deriving DecidableEq

omit [FloorRing K] in
/-- `Clock.max_step`, `src/cbadc/analog_signal/clock.py:73-74`. -/
def Clock.maxStep (c : Clock K) : K := c.T * min c.duty (1 - c.duty)

omit [FloorRing K] in
/-- `Clock.__init__`, `src/cbadc/analog_signal/clock.py:44-71`.  Lines 52 (symbols for sympy) are not
modelled. -/
def Clock.new (T tt td duty maxSwing : K) : Res (Clock K) :=
  let c : Clock K := ⟨T, tt, tt / 2, td, duty, duty * T, maxSwing / 2⟩
  if duty > 1 ∨ duty ≤ 0 then .error .exception
  else if tt > c.maxStep then .error .exception
  else if td > T then .error .exception
  else .ok c

omit [FloorRing K] in
/-- Python's float division, `ZeroDivisionError` for a zero divisor, as used at
`src/cbadc/analog_signal/clock.py:77-81`. -/
def pyDiv (a b : K) : Res K := if b = 0 then .error .zeroDivision else .ok (a / b)

omit [FloorRing K] in
/-- `Clock._pos_edge`, `src/cbadc/analog_signal/clock.py:76-82`. -/
def Clock.posEdge (c : Clock K) (t : K) : Res K := do
  let tmp ← pyDiv (t - c.tt2) c.tt2
  if tmp > c.maxValue then pyDiv tmp tmp
  else if tmp < -c.maxValue then pyDiv (-tmp) tmp
  else return tmp

/-- `Clock.clock_edge` and `Clock.evaluate`, `src/cbadc/analog_signal/clock.py:84-89,124-137`. -/
def Clock.evaluate (c : Clock K) (t : K) : Res K := do
  let t' ← pyMod (t - c.td + c.tt2) c.T
  if t' > c.negPulseTime then
    let v ← c.posEdge (t' - c.negPulseTime)
    return -v
  else c.posEdge t'

/-- `Clock.next_tick`, `src/cbadc/analog_signal/clock.py:91-108`; `np.allclose` with its default
tolerances. -/
def Clock.nextTick (c : Clock K) (t : K) : Res K := do
  let t' ← pyMod (t - c.td) c.T
  if Control.allclose t' 0 (1 / 100000000) then return t
  else return t + c.T - t'

omit [FloorRing K] in
/-- `delay_clock_by_duty_cycle`, `src/cbadc/analog_signal/clock.py:143-167`.  The new clock is built without
`duty_cycle`, i.e. with the default 0.5 (line 49). -/
def delayClock (c : Clock K) (delay : K) : Res (Clock K) :=
  let d := if delay = 0 then c.duty * c.T else delay
  Clock.new c.T c.tt (c.td + d) (1 / 2) (c.maxValue * 2)

/-- The attributes of a `Ramp`, `src/cbadc/analog_signal/ramp.py:40-43`. -/
structure Ramp (K : Type*) where
  amplitude : K
  period : K
  phase : K
  offset : K

omit [FloorRing K] [LinearOrder K] in
/-- `Ramp.__init__`, `src/cbadc/analog_signal/ramp.py:36-49`. -/
def Ramp.new (amplitude period phase offset : K) : Ramp K :=
  ⟨amplitude, period, phase, offset - amplitude / 2⟩

/-- `Ramp.evaluate`, `src/cbadc/analog_signal/ramp.py:56-67`. -/
def Ramp.evaluate (r : Ramp K) (t : K) : Res K := do
  let m ← pyMod (t + r.phase) r.period
  return r.amplitude * m + r.offset

/-- The attributes `_data` and `T` of a `ZeroOrderHold`, `src/cbadc/analog_signal/zero_order_hold.py:55-59`.
`data = none` means that `_data` is not an array any more: `__call__` (lines 80-82) stores whatever it is
called with. -/
structure ZOH (K : Type*) where
  data : Option (List K)
  T : K

/-- `ZeroOrderHold.evaluate`, `src/cbadc/analog_signal/zero_order_hold.py:65-78`.  A float has no attribute
`shape`; `% 0` raises.  (`int % n` of Python is `emod` for `n > 0`.) -/
def ZOH.evaluate (z : ZOH K) (t : K) : Res K := do
  let q ← pyDiv t z.T
  match z.data with
  | none => .error .attributeError
  | some l =>
    if l.length = 0 then .error .zeroDivision
    else return l.getD (pyInt q % (l.length : ℤ)).toNat 0

/-- The number of values drawn at once, `_buffer_size`, `src/cbadc/analog_signal/random.py:11,105,167`. -/
def bufferSize : ℕ := 1024

/-- The attributes of `_FiniteRandomSignal` and `UniformReferenceSignal`,
`src/cbadc/analog_signal/random.py:8-16,162-175`.  The random number generator is an arbitrary function:
`draws b i` is entry `i` of the `b`-th buffer drawn, `buf` the number of buffers drawn so far minus one. -/
structure Rand (K : Type*) where
  draws : ℕ → ℕ → K
  buf : ℕ
  index : ℕ
  t : K
  T : K

omit [LinearOrder K] [FloorRing K] in
/-- State after construction, `src/cbadc/analog_signal/random.py:8-16,162-175`. -/
def Rand.new (draws : ℕ → ℕ → K) (T : K) : Rand K := ⟨draws, 0, 0, 0, T⟩

omit [Field K] [LinearOrder K] [FloorRing K] in
/-- The buffer bookkeeping common to the reference signals,
`src/cbadc/analog_signal/random.py:25-28,129-132,198-203`. -/
def Rand.advance (r : Rand K) : Rand K :=
  let i := r.index + 1
  if i = bufferSize then { r with buf := r.buf + 1, index := 0 } else { r with index := i }

omit [Field K] [LinearOrder K] [FloorRing K] in
/-- The returned value, `src/cbadc/analog_signal/random.py:29,133,204`. -/
def Rand.value (r : Rand K) : K := r.draws r.buf r.index

omit [FloorRing K] in
/-- `_FiniteRandomSignal.evaluate` and `GaussianReferenceSignal.evaluate`,
`src/cbadc/analog_signal/random.py:21-29,112-133`: the object afterwards. -/
def Rand.finiteStep (r : Rand K) (t : K) : Rand K :=
  if t - r.t ≥ r.T then { r with t := t }.advance else r

omit [FloorRing K] in
/-- `UniformReferenceSignal.evaluate`, `src/cbadc/analog_signal/random.py:180-204`: the object afterwards. -/
def Rand.uniformStep (r : Rand K) (t : K) : Rand K :=
  if t - r.t > r.T then { r with t := r.t + r.T }.advance else r

omit [FloorRing K] in
/-- `UniformReferenceSignal.tick`, `src/cbadc/analog_signal/random.py:206-207`. -/
def Rand.uniformTick (r : Rand K) : Rand K := r.uniformStep (r.T + r.t + 1 / 10)

omit [Field K] [LinearOrder K] [FloorRing K] in
/-- The object after `n` calls of `evaluate` at the times `ts 0, ts 1, …` (repeated
`src/cbadc/analog_signal/random.py:21-29` or `180-204`). -/
def Rand.after (step : Rand K → K → Rand K) (r : Rand K) (ts : ℕ → K) : ℕ → Rand K
  | 0 => r
  | n + 1 => step (Rand.after step r ts n) (ts n)

omit [Field K] [LinearOrder K] [FloorRing K] in
/-- The value returned by the `n`-th call of `evaluate`: the one held after its own update,
`src/cbadc/analog_signal/random.py:29,133,204`. -/
def Rand.returned (step : Rand K → K → Rand K) (r : Rand K) (ts : ℕ → K) (n : ℕ) : K :=
  (Rand.after step r ts (n + 1)).value

omit [LinearOrder K] [FloorRing K] in
/-- `BinaryReferenceSignal.__init__`: the set of values, `src/cbadc/analog_signal/random.py:50-52`. -/
def binarySet (amplitude offset : K) : List K := [-amplitude + offset, amplitude + offset]

omit [LinearOrder K] [FloorRing K] in
/-- `TernaryReferenceSignal.__init__`: the set of values, `src/cbadc/analog_signal/random.py:75-77`. -/
def ternarySet (amplitude offset : K) : List K := [-amplitude + offset, offset, amplitude + offset]

omit [LinearOrder K] [FloorRing K] in
/-- `BinaryReferenceSignal`, `src/cbadc/analog_signal/random.py:8-15,50-52`; `ix b i` is the index that `np.random.choice`
draws for entry `i` of buffer `b`. -/
def Rand.binary (ix : ℕ → ℕ → Fin 2) (T amplitude offset : K) : Rand K :=
  Rand.new (fun b i => (binarySet amplitude offset)[ix b i]) T

omit [LinearOrder K] [FloorRing K] in
/-- `TernaryReferenceSignal`, `src/cbadc/analog_signal/random.py:8-15,75-77`; `ix b i` is the index that `np.random.choice`
draws for entry `i` of buffer `b`. -/
def Rand.ternary (ix : ℕ → ℕ → Fin 3) (T amplitude offset : K) : Rand K :=
  Rand.new (fun b i => (ternarySet amplitude offset)[ix b i]) T

end Cbadc.Signal
