import Mathlib.Algebra.Order.Floor.Ring
import Mathlib.Algebra.Order.Field.Basic
import Verif.Model.Basic

/-! # `FixedPoint` (`src/cbadc/utilities.py:633-726`) over exact arithmetic -/

namespace Cbadc

variable {K : Type*} [Field K] [LinearOrder K] [FloorRing K]

/-- Attributes set by `FixedPoint.__init__`: `src/cbadc/utilities.py:645-650` (`__min` is derived). -/
structure FixedPoint (K : Type*) where
  bits : ℕ
  max : K
  intMax : ℤ
  scale : K

/-- Python's `int(x)` of a float: truncation toward zero, used at `src/cbadc/utilities.py:668`. -/
def pyInt (x : K) : ℤ := if 0 ≤ x then ⌊x⌋ else ⌈x⌉

/-- `FixedPoint.float_to_fixed`: `src/cbadc/utilities.py:652-668`. -/
def FixedPoint.floatToFixed (fp : FixedPoint K) (value : K) : Res ℤ :=
  if |value| > fp.max then .error .arithmeticError else .ok (pyInt (value * fp.scale))

omit [FloorRing K] in
/-- `FixedPoint.fixed_to_float`: `src/cbadc/utilities.py:670-686`. -/
def FixedPoint.fixedToFloat (fp : FixedPoint K) (value : ℤ) : Res K :=
  if |value| > fp.intMax then .error .arithmeticError else .ok ((value : K) / fp.scale)

omit [FloorRing K] in
/-- `FixedPoint.__init__`: `src/cbadc/utilities.py:645-650`.  `1 << (bits - 1)` raises `ValueError` for a
negative shift count; division by `max = 0` raises `ZeroDivisionError`; line 650 evaluates
`fixed_to_float(1)`, which never raises for `bits ≥ 1`. -/
def FixedPoint.new (bits : ℕ) (max : K) : Res (FixedPoint K) :=
  if bits = 0 then .error .valueError
  else if max = 0 then .error .zeroDivision
  else .ok ⟨bits, max, 2 ^ (bits - 1), ((2 ^ (bits - 1) : ℤ) : K) / max⟩

end Cbadc
