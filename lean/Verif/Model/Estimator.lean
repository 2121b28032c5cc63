import Mathlib.Data.Matrix.Mul
import Verif.Model.Basic
import Verif.Model.Streams

/-!
# Digital estimators (`src/cbadc/digital_estimator`)

`FIRFilter`, `IIRFilter` and `BatchEstimator`, over an arbitrary commutative ring `K` standing for exact
arithmetic.  The coefficient matrices `Af, Ab, Bf, Bb, WT` computed by `compute_filter_coefficients`
(a Riccati solver) are parameters.  The control-signal iterator is `src : ℕ → Res (Fin M → K)`, the result
of its n-th `next()`; the number of calls made so far is part of the estimator state.
-/

namespace Cbadc.Estimator
open Matrix

/-- Filter coefficients, `src/cbadc/digital_estimator/batch_estimator.py:261-275`
(results of `compute_filter_coefficients`, taken as parameters). -/
structure Coeffs (K : Type*) (N M L : ℕ) where
  Af : Matrix (Fin N) (Fin N) K
  Ab : Matrix (Fin N) (Fin N) K
  Bf : Matrix (Fin N) (Fin M) K
  Bb : Matrix (Fin N) (Fin M) K
  WT : Matrix (Fin L) (Fin N) K

variable {K : Type*} [CommRing K] {N M L : ℕ}

/-- `2 * s - 1`: `src/cbadc/digital_estimator/fir_estimator.py:235`,
`src/cbadc/digital_estimator/iir_estimator.py:189`, `src/cbadc/digital_estimator/batch_estimator.py:331-333`. -/
def valued (s : Fin M → K) : Fin M → K := fun m => 2 * s m - 1

/-- `np.roll(buf, -d, axis=0)` of a buffer with `n` rows:
`src/cbadc/digital_estimator/fir_estimator.py:228-230`, `src/cbadc/digital_estimator/iir_estimator.py:180`,
`src/cbadc/digital_estimator/batch_estimator.py:321`.  Rows are indexed by naturals; only rows `< n` are
meaningful. -/
def roll {V : Type*} (n d : ℕ) (buf : ℕ → V) : ℕ → V := fun k => buf ((k + d) % n)

/-! ### FIR filter -/

/-- The lookback loop of `FIRFilter.__init__` (floating-point branch),
`src/cbadc/digital_estimator/fir_estimator.py:187-193`, with `k1 = K1 - 1 - i` for `i = 0, 1, ...`;
the pair is `(h, temp1)`. -/
def firLookback (c : Coeffs K N M L) (K1 : ℕ) :
    ℕ → (ℕ → Matrix (Fin L) (Fin M) K) × Matrix (Fin N) (Fin M) K
  | 0 => (fun _ => 0, c.Bf)
  | i + 1 =>
    let (h, temp1) := firLookback c K1 i
    (Function.update h (K1 - 1 - i) (-(c.WT * temp1)), c.Af * temp1)

/-- The lookahead loop of `FIRFilter.__init__` (floating-point branch),
`src/cbadc/digital_estimator/fir_estimator.py:196-202`, with `k2 = K1 + i`; the pair is `(h, temp2)`. -/
def firLookahead (c : Coeffs K N M L) (K1 : ℕ) (h0 : ℕ → Matrix (Fin L) (Fin M) K) :
    ℕ → (ℕ → Matrix (Fin L) (Fin M) K) × Matrix (Fin N) (Fin M) K
  | 0 => (h0, c.Bb)
  | i + 1 =>
    let (h, temp2) := firLookahead c K1 h0 i
    (Function.update h (K1 + i) (c.WT * temp2), c.Ab * temp2)

/-- The filter taps `h[:, k, :]`, `src/cbadc/digital_estimator/fir_estimator.py:183-202`. -/
def firTaps (c : Coeffs K N M L) (K1 K2 : ℕ) : ℕ → Matrix (Fin L) (Fin M) K :=
  (firLookahead c K1 (firLookback c K1 K1).1 K2).1

/-- A constructed `FIRFilter`: `src/cbadc/digital_estimator/fir_estimator.py:128-205`
(floating-point branch; `limit` is `stop_after_number_of_iterations`, `ds` is `downsample`). -/
structure FIR (K : Type*) (M L : ℕ) where
  K1 : ℕ
  K2 : ℕ
  ds : ℕ
  limit : ℕ
  h : ℕ → Matrix (Fin L) (Fin M) K
  offset : Fin L → K

/-- Argument checks of `FIRFilter.__init__`, `src/cbadc/digital_estimator/fir_estimator.py:128-161`:
`K1 ≥ 0`, `K2 ≥ 1`, `eta2 ≥ 0`, no mid point, and the taps.  Simplification: a wrong offset size (line 158)
is excluded by typing, an omitted offset is the zero vector. -/
def FIR.new [LinearOrder K] (c : Coeffs K N M L) (K1 K2 : ℤ) (eta2 : K) (midPoint : Bool) (ds limit : ℕ)
    (offset : Option (Fin L → K)) : Res (FIR K M L) :=
  if K1 < 0 then .error .exception
  else if K2 < 1 then .error .exception
  else if eta2 < 0 then .error .exception
  else if midPoint then .error .notImplemented
  else .ok
    { K1 := K1.toNat, K2 := K2.toNat, ds := ds, limit := limit,
      h := firTaps c K1.toNat K2.toNat, offset := offset.getD 0 }

/-- Mutable state of a `FIRFilter` with its iterator set: `_control_signal_valued`, `_iteration` and
`_time_index` (`src/cbadc/digital_estimator/fir_estimator.py:143,203,208`) and the number of `next()` calls
made on the control-signal iterator.  The scratch array `_temp_controls` (line 152) is fully overwritten
before every use and therefore not kept. -/
structure FIRState (K : Type*) (M : ℕ) where
  buf : ℕ → Fin M → K
  iteration : ℕ
  calls : ℕ
  timeIndex : ℕ

/-- Initial state, `src/cbadc/digital_estimator/fir_estimator.py:143,203-208`. -/
def FIRState.init : FIRState K M := ⟨fun _ => 0, 0, 0, 0⟩

/-- The loop `for index in range(downsample): _temp_controls[index,:] = 2 * next() - 1`,
`src/cbadc/digital_estimator/fir_estimator.py:234-235`.  Returns the rows (or the exception) and the number
of `next()` calls. -/
def firPull (src : ℕ → Res (Fin M → K)) (start : ℕ) : ℕ → Res (ℕ → Fin M → K) × ℕ
  | 0 => (.ok fun _ => 0, 0)
  | n + 1 =>
    match firPull src start n with
    | (.error e, k) => (.error e, k)
    | (.ok rows, k) =>
      match src (start + n) with
      | .error e => (.error e, k + 1)
      | .ok s => (.ok (Function.update rows n (valued s)), k + 1)

/-- `np.tensordot(h, buf, axes=((1, 2), (0, 1)))`: sum over taps and controls,
`src/cbadc/digital_estimator/fir_estimator.py:247`. -/
def tensordot (n : ℕ) (h : ℕ → Matrix (Fin L) (Fin M) K) (buf : ℕ → Fin M → K) : Fin L → K :=
  fun l => ∑ k ∈ Finset.range n, ∑ m, h k l m * buf k m

/-- `FIRFilter.__next__` (floating-point branch): `src/cbadc/digital_estimator/fir_estimator.py:217-254`.
`limit = 0` means "no limit" (line 224 tests `self.number_of_iterations and ...`).  When
`downsample > K1 + K2` the slice assignment of line 240 has mismatching shapes and numpy raises
`ValueError`. -/
def FIR.next (f : FIR K M L) (src : ℕ → Res (Fin M → K)) (st : FIRState K M) :
    Res (Fin L → K) × FIRState K M :=
  let K3 := f.K1 + f.K2
  let it := st.iteration + f.ds
  if f.limit ≠ 0 ∧ f.limit < it then (.error .stopIteration, { st with iteration := it })
  else
    let rolled := roll K3 f.ds st.buf
    match firPull src st.calls f.ds with
    | (.error .runtimeError, k) =>
      (.error .stopIteration, { st with iteration := it, buf := rolled, calls := st.calls + k })
    | (.error e, k) =>
      (.error e, { st with iteration := it, buf := rolled, calls := st.calls + k })
    | (.ok rows, k) =>
      if K3 < f.ds then
        (.error .valueError, { st with iteration := it, buf := rolled, calls := st.calls + k })
      else
        let buf := fun j => if K3 - f.ds ≤ j then rows (j - (K3 - f.ds)) else rolled j
        (.ok (tensordot K3 f.h buf + f.offset),
          { iteration := it, buf := buf, calls := st.calls + k, timeIndex := st.timeIndex + 1 })

/-! ### IIR filter -/

/-- A constructed `IIRFilter`: `src/cbadc/digital_estimator/iir_estimator.py:117-157`. -/
structure IIR (K : Type*) (N M L : ℕ) where
  c : Coeffs K N M L
  K2 : ℕ
  ds : ℕ
  limit : ℕ
  h : ℕ → Matrix (Fin L) (Fin M) K

/-- The lookahead loop of `IIRFilter.__init__`, `src/cbadc/digital_estimator/iir_estimator.py:152-155`;
the pair is `(h, temp2)`. -/
def iirLookahead (c : Coeffs K N M L) :
    ℕ → (ℕ → Matrix (Fin L) (Fin M) K) × Matrix (Fin N) (Fin M) K
  | 0 => (fun _ => 0, c.Bb)
  | i + 1 =>
    let (h, temp2) := iirLookahead c i
    (Function.update h i (c.WT * temp2), c.Ab * temp2)

/-- `IIRFilter.__init__`: `src/cbadc/digital_estimator/iir_estimator.py:117-157` (checks of lines 117, 123). -/
def IIR.new [LinearOrder K] (c : Coeffs K N M L) (K2 : ℤ) (eta2 : K) (ds limit : ℕ) : Res (IIR K N M L) :=
  if K2 < 0 then .error .exception
  else if eta2 < 0 then .error .exception
  else .ok ⟨c, K2.toNat, ds, limit, (iirLookahead c K2.toNat).1⟩

/-- Mutable state of an `IIRFilter`: `src/cbadc/digital_estimator/iir_estimator.py:128,156-160`, and the
number of `next()` calls made on the control-signal iterator. -/
structure IIRState (K : Type*) (N M : ℕ) where
  buf : ℕ → Fin M → K
  mean : Fin N → K
  iteration : ℕ
  calls : ℕ
  timeIndex : ℕ

/-- Initial state, `src/cbadc/digital_estimator/iir_estimator.py:128,156-160`. -/
def IIRState.init : IIRState K N M := ⟨fun _ => 0, 0, 0, 0, 0⟩

/-- One pass through the body of `IIRFilter.__next__`,
`src/cbadc/digital_estimator/iir_estimator.py:169-204`; `.ok none` means that line 204 (the recursive call)
is reached.  `K2 = 0`: the assignment to row `-1` of an empty buffer (line 189) raises `IndexError`.
`downsample = 0`: the modulo in line 197 raises `ZeroDivisionError`. -/
def IIR.pass (f : IIR K N M L) (src : ℕ → Res (Fin M → K)) (st : IIRState K N M) :
    Res (Option (Fin L → K)) × IIRState K N M :=
  let it := st.iteration + 1
  if f.limit ≠ 0 ∧ f.limit < it then (.error .stopIteration, { st with iteration := it })
  else
    let rolled := roll f.K2 1 st.buf
    match src st.calls with
    | .error .runtimeError =>
      (.error .stopIteration, { st with iteration := it, buf := rolled, calls := st.calls + 1 })
    | .error e => (.error e, { st with iteration := it, buf := rolled, calls := st.calls + 1 })
    | .ok s =>
      if f.K2 = 0 then
        (.error .indexError, { st with iteration := it, buf := rolled, calls := st.calls + 1 })
      else
        let buf := Function.update rolled (f.K2 - 1) (valued s)
        let result := -(f.c.WT *ᵥ st.mean)
        let mean := f.c.Af *ᵥ st.mean + f.c.Bf *ᵥ buf 0
        let st' : IIRState K N M :=
          { buf := buf, mean := mean, iteration := it, calls := st.calls + 1, timeIndex := st.timeIndex }
        if f.ds = 0 then (.error .zeroDivision, st')
        else if (it - 1) % f.ds = 0 then
          (.ok (some (tensordot f.K2 f.h buf + result)), { st' with timeIndex := st.timeIndex + 1 })
        else (.ok none, st')

/-- `IIRFilter.__next__` with its self-recursion (line 204) unrolled:
`src/cbadc/digital_estimator/iir_estimator.py:169-204`.  `fuel` bounds the recursion depth; `IIR.next`
supplies `downsample + 1`, which is never exhausted (Python's recursion limit is not modelled). -/
def IIR.nextFuel (f : IIR K N M L) (src : ℕ → Res (Fin M → K)) :
    ℕ → IIRState K N M → Res (Fin L → K) × IIRState K N M
  | 0, st => (.error .runtimeError, st)
  | fuel + 1, st =>
    match f.pass src st with
    | (.error e, st') => (.error e, st')
    | (.ok (some v), st') => (.ok v, st')
    | (.ok none, st') => IIR.nextFuel f src fuel st'

/-- `IIRFilter.__next__`: `src/cbadc/digital_estimator/iir_estimator.py:169-204`. -/
def IIR.next (f : IIR K N M L) (src : ℕ → Res (Fin M → K)) (st : IIRState K N M) :
    Res (Fin L → K) × IIRState K N M :=
  f.nextFuel src (f.ds + 1) st

/-! ### Batch estimator -/

/-- A constructed `BatchEstimator`: `src/cbadc/digital_estimator/batch_estimator.py:139-183`. -/
structure Batch (K : Type*) (N M L : ℕ) where
  c : Coeffs K N M L
  K1 : ℕ
  K2 : ℕ
  limit : ℕ

/-- `BatchEstimator.__init__`: `src/cbadc/digital_estimator/batch_estimator.py:139-183`
(checks of lines 139, 142, 156, 165). -/
def Batch.new [LinearOrder K] (c : Coeffs K N M L) (K1 K2 : ℤ) (eta2 : K) (ds : ℤ) (limit : ℕ) :
    Res (Batch K N M L) :=
  if K1 < 1 then .error .exception
  else if K2 < 0 then .error .exception
  else if eta2 < 0 then .error .exception
  else if ds ≠ 1 then .error .notImplemented
  else .ok ⟨c, K1.toNat, K2.toNat, limit⟩

/-- Mutable state of a `BatchEstimator`:
`src/cbadc/digital_estimator/batch_estimator.py:171-177,277-282`, and the number of `next()` calls made on
the control-signal iterator. -/
structure BatchState (K : Type*) (N M L : ℕ) where
  cs : ℕ → Fin M → K
  inBuffer : ℕ
  estimate : ℕ → Fin L → K
  mean : ℕ → Fin N → K
  pointer : ℕ
  stop : Bool
  iteration : ℕ
  calls : ℕ

/-- Initial state, `src/cbadc/digital_estimator/batch_estimator.py:171-177,277-282`. -/
def Batch.init (f : Batch K N M L) : BatchState K N M L :=
  ⟨fun _ => 0, 0, fun _ => 0, fun _ => 0, f.K1, false, 0, 0⟩

/-- The look-ahead loop of `_compute_batch`, `src/cbadc/digital_estimator/batch_estimator.py:291-296`:
the value of `_mean[K1, :]` after `i` iterations (`k1 = K3 - 1 - i`). -/
def batchLookahead (c : Coeffs K N M L) (K3 : ℕ) (cs : ℕ → Fin M → K) (m0 : Fin N → K) : ℕ → Fin N → K
  | 0 => m0
  | i + 1 => c.Ab *ᵥ batchLookahead c K3 cs m0 i + c.Bb *ᵥ cs (K3 - 1 - i)

/-- The forward loop of `_compute_batch`, `src/cbadc/digital_estimator/batch_estimator.py:298-307`, after
`i` iterations: the array `_mean` and `temp_forward_mean`. -/
def batchForward (c : Coeffs K N M L) (K1 : ℕ) (cs : ℕ → Fin M → K) (mean : ℕ → Fin N → K) :
    ℕ → (ℕ → Fin N → K) × (Fin N → K)
  | 0 => (mean, 0)
  | k2 + 1 =>
    let (mean', tfm) := batchForward c K1 cs mean k2
    let temp := c.Af *ᵥ mean' k2 + c.Bf *ᵥ cs k2
    if k2 + 1 < K1 then (Function.update mean' (k2 + 1) temp, tfm) else (mean', temp)

/-- The backward loop of `_compute_batch`, `src/cbadc/digital_estimator/batch_estimator.py:309-315`, after
`i` iterations (`k3 = K1 - 1 - i`): the arrays `_mean` and `_estimate`. -/
def batchBackward (c : Coeffs K N M L) (K1 : ℕ) (cs : ℕ → Fin M → K) (mean : ℕ → Fin N → K)
    (est : ℕ → Fin L → K) : ℕ → (ℕ → Fin N → K) × (ℕ → Fin L → K)
  | 0 => (mean, est)
  | i + 1 =>
    let (mean', est') := batchBackward c K1 cs mean est i
    let k3 := K1 - 1 - i
    let temp := c.Ab *ᵥ mean' (k3 + 1) + c.Bb *ᵥ cs k3
    (Function.update mean' k3 temp, Function.update est' k3 (c.WT *ᵥ (temp - mean' k3)))

/-- `_compute_batch`: `src/cbadc/digital_estimator/batch_estimator.py:284-322`. -/
def Batch.computeBatch (f : Batch K N M L) (st : BatchState K N M L) : Res (BatchState K N M L) :=
  let K3 := f.K1 + f.K2
  if st.inBuffer < K3 then .error .exception
  else
    let mean1 := Function.update st.mean f.K1 (batchLookahead f.c K3 st.cs (st.mean f.K1) f.K2)
    let (mean2, tfm) := batchForward f.c f.K1 st.cs mean1 f.K1
    let (mean3, est) := batchBackward f.c f.K1 st.cs mean2 st.estimate f.K1
    let mean4 := Function.update (Function.update mean3 0 tfm) f.K1 0
    .ok { st with
      mean := mean4, estimate := est, cs := roll K3 f.K1 st.cs, inBuffer := st.inBuffer - f.K1 }

/-- `_input`: `src/cbadc/digital_estimator/batch_estimator.py:324-335`; the Boolean is the return value. -/
def Batch.input (f : Batch K N M L) (st : BatchState K N M L) (s : Fin M → K) :
    Res (Bool × BatchState K N M L) :=
  let K3 := f.K1 + f.K2
  if st.inBuffer = K3 then .error .exception
  else
    .ok (decide (K3 - 1 < st.inBuffer + 1),
      { st with cs := Function.update st.cs st.inBuffer (valued s), inBuffer := st.inBuffer + 1 })

/-- The loop `while not full`, `src/cbadc/digital_estimator/batch_estimator.py:366-375`.  `RuntimeError` of
the control-signal iterator sets the stop flag and substitutes a zero vector; any other exception
propagates.  `fuel` bounds the number of iterations; `Batch.nextFuel` supplies `K1 + K2 + 1`, which is never
exhausted. -/
def Batch.fill (f : Batch K N M L) (src : ℕ → Res (Fin M → K)) :
    ℕ → BatchState K N M L → Res Unit × BatchState K N M L
  | 0, st => (.error .exception, st)
  | fuel + 1, st =>
    let go (s : Fin M → K) (st' : BatchState K N M L) : Res Unit × BatchState K N M L :=
      match f.input st' s with
      | .error e => (.error e, st')
      | .ok (full, st'') => if full then (.ok (), st'') else Batch.fill f src fuel st''
    match src st.calls with
    | .ok s => go s { st with calls := st.calls + 1 }
    | .error .runtimeError => go 0 { st with calls := st.calls + 1, stop := true }
    | .error e => (.error e, { st with calls := st.calls + 1 })

/-- `BatchEstimator.__next__` with its self-recursion (line 384) unrolled:
`src/cbadc/digital_estimator/batch_estimator.py:343-384`.  `fuel` bounds the recursion depth; `Batch.next`
supplies 2, which is never exhausted.  The limit test is `number_of_iterations < _iteration` (line 348). -/
def Batch.nextFuel (f : Batch K N M L) (src : ℕ → Res (Fin M → K)) :
    ℕ → BatchState K N M L → Res (Fin L → K) × BatchState K N M L
  | 0, st => (.error .runtimeError, st)
  | fuel + 1, st =>
    if f.limit < st.iteration then (.error .stopIteration, st)
    else
      let st1 := { st with iteration := st.iteration + 1 }
      if st1.pointer < f.K1 then
        (.ok (st1.estimate st1.pointer), { st1 with pointer := st1.pointer + 1 })
      else if st1.stop then (.error .stopIteration, st1)
      else
        match f.fill src (f.K1 + f.K2 + 1) st1 with
        | (.error e, st2) => (.error e, st2)
        | (.ok (), st2) =>
          match f.computeBatch st2 with
          | .error e => (.error e, st2)
          | .ok st3 => Batch.nextFuel f src fuel { st3 with pointer := st3.pointer - f.K1 }

/-- `BatchEstimator.__next__`: `src/cbadc/digital_estimator/batch_estimator.py:343-384`. -/
def Batch.next (f : Batch K N M L) (src : ℕ → Res (Fin M → K)) (st : BatchState K N M L) :
    Res (Fin L → K) × BatchState K N M L :=
  f.nextFuel src 2 st

end Cbadc.Estimator

/-! ### Tap shaping -/

namespace Cbadc.Estimator
open Matrix

variable {K : Type*} [CommRing K] {N M L : ℕ}

/-- `np.convolve(a, g, mode="full")` of an array of length `n` and one of length `F`, entry `u`
(used in `src/cbadc/digital_estimator/fir_estimator.py:317`). -/
def npConvolve (n : ℕ) (a : ℕ → K) (F : ℕ) (g : ℕ → K) (u : ℕ) : K :=
  ∑ j ∈ Finset.range F, if j ≤ u ∧ u - j < n then a (u - j) * g j else 0

/-- `FIRFilter.convolve(filter)`: `src/cbadc/digital_estimator/fir_estimator.py:305-325`.  An empty filter is
rejected by `np.convolve`; for odd `K3` (and more than one filter tap) the slice of line 323 has `K3 - 1`
entries and the assignment raises `ValueError`.  Simplification: `L, M ≥ 1`, so that the loops run. -/
def FIR.convolve (f : FIR K M L) (F : ℕ) (g : ℕ → K) : Res (FIR K M L) :=
  let K3 := f.K1 + f.K2
  let size := K3 + F - 1
  if F = 0 then .error .valueError
  else if size = K3 then
    .ok { f with h := fun k l m => npConvolve K3 (fun i => f.h i l m) F g k }
  else if 2 * (K3 / 2) ≠ K3 then .error .valueError
  else
    .ok { f with h := fun k l m => npConvolve K3 (fun i => f.h i l m) F g (size / 2 - K3 / 2 + k) }

end Cbadc.Estimator
