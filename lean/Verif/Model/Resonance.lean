import Mathlib.FieldTheory.RatFunc.AsPolynomial
import Verif.Model.TransferFunction

/-!
# Transfer functions at every frequency, numerical and symbolic
(`AnalogSystem.transfer_function_matrix`, `src/cbadc/analog_system/analog_system.py:414-447,507-562`)

`Sys.atf` and `Sys.tfm` use the matrix inverse, so they describe the code at frequencies where `jωI - A` is invertible.
Here `np.linalg.pinv` is a parameter and every frequency is covered, as is the option `symbolic=True`.
-/

namespace Cbadc.Analog

open Matrix

/-- `AnalogSystem._atf`, `src/cbadc/analog_system/analog_system.py:433-438`, with the function `np.linalg.pinv` (exact
arithmetic; `rcond=1e-300` drops nothing). -/
noncomputable def Sys.atfAt (g : Sys ℂ) (pinv : Matrix (Fin g.N) (Fin g.N) ℂ → Matrix (Fin g.N) (Fin g.N) ℂ) (ω : ℝ) :
    Matrix (Fin g.N) (Fin g.L) ℂ :=
  pinv (jw ω • (1 : Matrix (Fin g.N) (Fin g.N) ℂ) - toM g.N g.N g.A) * toM g.N g.L g.B

/-- `transfer_function_matrix(omega)` at one frequency, `src/cbadc/analog_system/analog_system.py:540-562`. -/
noncomputable def Sys.tfmAt (g : Sys ℂ) (pinv : Matrix (Fin g.N) (Fin g.N) ℂ → Matrix (Fin g.N) (Fin g.N) ℂ) (ω : ℝ) :
    Matrix (Fin g.Nt) (Fin g.L) ℂ :=
  toM g.Nt g.L g.D + toM g.Nt g.N g.CT * g.atfAt pinv ω

/-- What `sp.simplify` returns for an entry, `src/cbadc/analog_system/analog_system.py:421-424`: a fraction of two
polynomials in `omega`.  (sympy is free to print it in other ways; only the value and where it divides by zero matter.) -/
structure Frac where
  num : Polynomial ℂ
  den : Polynomial ℂ

/-- The function of `omega` that the expression stands for (`src/cbadc/analog_system/analog_system.py:421-424`). -/
noncomputable def Frac.val (f : Frac) : RatFunc ℂ :=
  algebraMap (Polynomial ℂ) (RatFunc ℂ) f.num / algebraMap (Polynomial ℂ) (RatFunc ℂ) f.den

open Classical in
/-- The function that `sp.lambdify` makes, `src/cbadc/analog_system/analog_system.py:425-426`, at one frequency; `none`
stands for the `inf` or `nan` of a division by zero. -/
noncomputable def Frac.at (f : Frac) (ω : ℝ) : Option ℂ :=
  if f.den.eval (ω : ℂ) = 0 then none else some (f.num.eval (ω : ℂ) / f.den.eval (ω : ℂ))

/-- `sp.I * self.omega * sp.eye(self.N) - self._A_s`, `src/cbadc/analog_system/analog_system.py:422`. -/
noncomputable def Sys.pencilSym (g : Sys ℂ) : Matrix (Fin g.N) (Fin g.N) (RatFunc ℂ) :=
  (RatFunc.C Complex.I * RatFunc.X) • (1 : Matrix (Fin g.N) (Fin g.N) (RatFunc ℂ)) - (toM g.N g.N g.A).map RatFunc.C

/-- `_general_atf_s_matrix`, `src/cbadc/analog_system/analog_system.py:421-423`; `simp` is `sp.simplify`, which works on
the entries. -/
noncomputable def Sys.generalAtfSym (g : Sys ℂ) (simp : RatFunc ℂ → Frac) : Matrix (Fin g.N) (Fin g.N) Frac :=
  (g.pencilSym⁻¹).map simp

/-- `_atf_s_matrix`, `src/cbadc/analog_system/analog_system.py:424`. -/
noncomputable def Sys.atfSym (g : Sys ℂ) (simp : RatFunc ℂ → Frac) : Matrix (Fin g.N) (Fin g.L) Frac :=
  ((g.generalAtfSym simp).map Frac.val * (toM g.N g.L g.B).map RatFunc.C).map simp

/-- A column of numbers, unless one of them is not finite (`src/cbadc/analog_system/analog_system.py:561`: the product
with the output matrix of a column with an `inf` or `nan` has no finite entry, or `nan` for a zero coefficient). -/
def allSome {n : ℕ} (f : Fin n → Option ℂ) : Option (Fin n → ℂ) :=
  if h : ∀ k, (f k).isSome then some fun k => (f k).get (h k) else none

/-- Column `l` of `_atf_symbolic(omega)`, `src/cbadc/analog_system/analog_system.py:428-431`. -/
noncomputable def Sys.atfSymAt (g : Sys ℂ) (simp : RatFunc ℂ → Frac) (ω : ℝ) (l : Fin g.L) : Option (Fin g.N → ℂ) :=
  allSome fun k => (g.atfSym simp k l).at ω

/-- Entry `n, l` of `transfer_function_matrix(omega, symbolic=True)`, `src/cbadc/analog_system/analog_system.py:540-562`. -/
noncomputable def Sys.tfmSymAt (g : Sys ℂ) (simp : RatFunc ℂ → Frac) (ω : ℝ) (n : Fin g.Nt) (l : Fin g.L) : Option ℂ :=
  (g.atfSymAt simp ω l).map fun x => g.D n l + ∑ k : Fin g.N, g.CT n k * x k

/-- `transfer_function_matrix(omega, general=True)` at one frequency, `src/cbadc/analog_system/analog_system.py:445-447`,
`540-562`; `pinv` is `numpy.linalg.pinv` as in `Sys.atfAt`. -/
noncomputable def Sys.generalTfmAt (g : Sys ℂ) (pinv : Matrix (Fin g.N) (Fin g.N) ℂ → Matrix (Fin g.N) (Fin g.N) ℂ) (ω : ℝ) :
    Matrix (Fin g.Nt) (Fin g.N) ℂ :=
  toM g.Nt g.N g.CT * pinv (jw ω • (1 : Matrix (Fin g.N) (Fin g.N) ℂ) - toM g.N g.N g.A)

/-- Entry `n, k` of `transfer_function_matrix(omega, symbolic=True, general=True)`,
`src/cbadc/analog_system/analog_system.py:440-443`, `540-562`. -/
noncomputable def Sys.generalTfmSymAt (g : Sys ℂ) (simp : RatFunc ℂ → Frac) (ω : ℝ) (n : Fin g.Nt) (k : Fin g.N) : Option ℂ :=
  (allSome fun i => (g.generalAtfSym simp i k).at ω).map fun x => ∑ i : Fin g.N, g.CT n i * x i

end Cbadc.Analog
