import Verif.Model.FixedPoint
import Verif.Model.Estimator

/-!
# `FIRFilter` with fixed-point coefficients (`src/cbadc/digital_estimator/fir_estimator.py`)

The branches taken when the argument `fixed_point` is given, over an ordered field `K` standing for exact
arithmetic.
-/

namespace Cbadc.Estimator
open Matrix

variable {K : Type*} [Field K] [LinearOrder K] [FloorRing K] {N M L : ℕ}

/-- `np.vectorize(fixed_point.float_to_fixed)` applied to a matrix:
`src/cbadc/digital_estimator/fir_estimator.py:167`.  One entry out of range raises `ArithmeticError`.
Simplification: the resulting integers are stored as `np.int64` (line 180); the model keeps them exact, which
is the same for formats of at most 63 bits. -/
def toFixed (fp : FixedPoint K) (X : Matrix (Fin L) (Fin M) K) : Res (Matrix (Fin L) (Fin M) ℤ) :=
  if ∃ l m, |X l m| > fp.max then .error .arithmeticError
  else .ok fun l m => pyInt (X l m * fp.scale)

/-- The lookback loop with fixed-point coefficients,
`src/cbadc/digital_estimator/fir_estimator.py:187-193` (line 190), with `k1 = K1 - 1 - i`; the pair is
`(h, temp1)`. -/
def fixedLookback (fp : FixedPoint K) (c : Coeffs K N M L) (K1 : ℕ) :
    ℕ → Res ((ℕ → Matrix (Fin L) (Fin M) ℤ) × Matrix (Fin N) (Fin M) K)
  | 0 => .ok (fun _ => 0, c.Bf)
  | i + 1 =>
    match fixedLookback fp c K1 i with
    | .error e => .error e
    | .ok (h, temp1) =>
      match toFixed fp (-(c.WT * temp1)) with
      | .error e => .error e
      | .ok q => .ok (Function.update h (K1 - 1 - i) q, c.Af * temp1)

/-- The lookahead loop with fixed-point coefficients,
`src/cbadc/digital_estimator/fir_estimator.py:196-202` (line 199), with `k2 = K1 + i`; the pair is
`(h, temp2)`. -/
def fixedLookahead (fp : FixedPoint K) (c : Coeffs K N M L) (K1 : ℕ)
    (h0 : ℕ → Matrix (Fin L) (Fin M) ℤ) :
    ℕ → Res ((ℕ → Matrix (Fin L) (Fin M) ℤ) × Matrix (Fin N) (Fin M) K)
  | 0 => .ok (h0, c.Bb)
  | i + 1 =>
    match fixedLookahead fp c K1 h0 i with
    | .error e => .error e
    | .ok (h, temp2) =>
      match toFixed fp (c.WT * temp2) with
      | .error e => .error e
      | .ok q => .ok (Function.update h (K1 + i) q, c.Ab * temp2)

/-- The integer taps `h[:, k, :]`: `src/cbadc/digital_estimator/fir_estimator.py:178-202`. -/
def fixedTaps (fp : FixedPoint K) (c : Coeffs K N M L) (K1 K2 : ℕ) :
    Res (ℕ → Matrix (Fin L) (Fin M) ℤ) :=
  match fixedLookback fp c K1 K1 with
  | .error e => .error e
  | .ok (h, _) =>
    match fixedLookahead fp c K1 h K2 with
    | .error e => .error e
    | .ok (h, _) => .ok h

/-- A constructed `FIRFilter` with fixed-point coefficients:
`src/cbadc/digital_estimator/fir_estimator.py:128-205`. -/
structure FixedFIR (K : Type*) (M L : ℕ) where
  fp : FixedPoint K
  K1 : ℕ
  K2 : ℕ
  ds : ℕ
  limit : ℕ
  h : ℕ → Matrix (Fin L) (Fin M) ℤ
  offset : Fin L → K

/-- `FIRFilter.__init__(..., fixed_point=fp)`: `src/cbadc/digital_estimator/fir_estimator.py:128-205`.  The
checks of the arguments come first, then the taps are computed and converted.  Simplifications as for
`FIR.new`. -/
def FixedFIR.new (fp : FixedPoint K) (c : Coeffs K N M L) (K1 K2 : ℤ) (eta2 : K) (midPoint : Bool)
    (ds limit : ℕ) (offset : Option (Fin L → K)) : Res (FixedFIR K M L) :=
  if K1 < 0 then .error .exception
  else if K2 < 1 then .error .exception
  else if eta2 < 0 then .error .exception
  else if midPoint then .error .notImplemented
  else
    match fixedTaps fp c K1.toNat K2.toNat with
    | .error e => .error e
    | .ok h => .ok ⟨fp, K1.toNat, K2.toNat, ds, limit, h, offset.getD 0⟩

omit [FloorRing K] in
/-- `np.vectorize(fixed_point.fixed_to_float)` applied to the accumulated vector:
`src/cbadc/digital_estimator/fir_estimator.py:166,252`; the accumulator is a floating-point number (a sum of
products with the entries of the floating-point buffer), on which the test and the division of
`src/cbadc/utilities.py:684-686` work as on integers. -/
def toFloat (fp : FixedPoint K) (res : Fin L → K) : Res (Fin L → K) :=
  if ∃ l, |res l| > (fp.intMax : K) then .error .arithmeticError
  else .ok fun l => res l / fp.scale

omit [FloorRing K] in
/-- The arrays `__next__` works with: the integer taps enter the product of line 247 as numbers.
`src/cbadc/digital_estimator/fir_estimator.py:246-249`. -/
def FixedFIR.numeric (f : FixedFIR K M L) : FIR K M L :=
  ⟨f.K1, f.K2, f.ds, f.limit, fun k l m => (f.h k l m : K), f.offset⟩

omit [FloorRing K] in
/-- `FIRFilter.__next__` with fixed-point coefficients:
`src/cbadc/digital_estimator/fir_estimator.py:217-254`.  Everything up to line 250 is shared with the
floating-point filter (the offset is added to the integer accumulator), then line 252 converts. -/
def FixedFIR.next (f : FixedFIR K M L) (src : ℕ → Res (Fin M → K)) (st : FIRState K M) :
    Res (Fin L → K) × FIRState K M :=
  match f.numeric.next src st with
  | (.error e, st') => (.error e, st')
  | (.ok res, st') => (toFloat f.fp res, st')

end Cbadc.Estimator
