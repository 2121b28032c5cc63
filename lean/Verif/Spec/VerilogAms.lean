import Mathlib.MeasureTheory.Integral.IntervalIntegral.Basic
import Mathlib.Algebra.BigOperators.Group.List.Basic
import Verif.Model.Basic

/-!
# Specification of the Verilog-AMS expressions and of the code models of ngspice

The value of a contribution is a signal, a function of time.
-/

namespace Cbadc.Vams

/-- The tokens of the expressions that the templates in `src/cbadc/circuit/templates/verilog_ams` print; `idt(` is one
token, and so is a voltage probe `V(a)` or `V(a,b)`. -/
inductive Tok
  | num (v : ℝ)
  | plus
  | minus
  | times
  | lpar
  | idt
  | rpar
  | probe (a : String)
  | probe2 (a b : String)

namespace Spec

/-- The state of reading an expression within one pair of parentheses: the sum of the finished terms, the product of the
factors of the current term, the sign in front of the next factor, whether a factor must follow, and what the closing
parenthesis applies to the value. -/
structure Frame where
  sum : ℝ → ℝ := 0
  prod : ℝ → ℝ := 1
  sign : ℝ → ℝ := 1
  open_ : Bool := true
  close : (ℝ → ℝ) → (ℝ → ℝ) := id

/-- A factor with the value `v` has been read. -/
noncomputable def Frame.factor (f : Frame) (v : ℝ → ℝ) : Option Frame :=
  if f.open_ then some { f with prod := f.prod * (f.sign * v), sign := 1, open_ := false } else none

/-- `idt(u)`: the integral of `u` from time zero. -/
noncomputable def idt (u : ℝ → ℝ) : ℝ → ℝ := fun t => ∫ s in (0 : ℝ)..t, u s

/-- The value of an expression of Verilog-AMS by the rules of precedence (unary sign, product, sum), from left to right;
`env` gives the voltages of the nets.  No value for what is not an expression. -/
noncomputable def parse (env : String → ℝ → ℝ) : List Tok → Frame → List Frame → Option (ℝ → ℝ)
  | [], f, [] => if f.open_ then none else some (f.sum + f.prod)
  | [], _, _ :: _ => none
  | .num v :: ts, f, st => (f.factor fun _ => v).bind fun g => parse env ts g st
  | .probe a :: ts, f, st => (f.factor (env a)).bind fun g => parse env ts g st
  | .probe2 a b :: ts, f, st => (f.factor (env a - env b)).bind fun g => parse env ts g st
  | .plus :: ts, f, st =>
    if f.open_ then parse env ts f st else parse env ts { f with sum := f.sum + f.prod, prod := 1, open_ := true } st
  | .minus :: ts, f, st =>
    if f.open_ then parse env ts { f with sign := -f.sign } st
    else parse env ts { f with sum := f.sum + f.prod, prod := -1, open_ := true } st
  | .times :: ts, f, st => if f.open_ then none else parse env ts { f with open_ := true } st
  | .lpar :: ts, f, st => if f.open_ then parse env ts {} (f :: st) else none
  | .idt :: ts, f, st => if f.open_ then parse env ts { close := idt } (f :: st) else none
  | .rpar :: _, _, [] => none
  | .rpar :: ts, f, g :: st =>
    if f.open_ then none else (g.factor (f.close (f.sum + f.prod))).bind fun h => parse env ts h st

/-- The value of an expression. -/
noncomputable def value (env : String → ℝ → ℝ) (ts : List Tok) : Option (ℝ → ℝ) := parse env ts {} []

/-- The output of the code model `summer` of ngspice: `out_gain (Σ in_gain (in + in_offset)) + out_offset`. -/
noncomputable def summer (gain offset : List ℝ) (outGain outOffset : ℝ) (input : List (ℝ → ℝ)) : ℝ → ℝ := fun t =>
  outGain * ((gain.zip (offset.zip input)).map fun p => p.1 * (p.2.2 t + p.2.1)).sum + outOffset

/-- The output of the code model `int` of ngspice without initial value, as long as it is within its limits. -/
noncomputable def integrator (gain offset : ℝ) (input : ℝ → ℝ) : ℝ → ℝ := fun t => ∫ s in (0 : ℝ)..t, gain * (input s + offset)

/-- An `adc_bridge` and a `dac_bridge` of ngspice in a row: below `in_low`, above `in_high`, and between. -/
def bridge {K : Type*} [LT K] [DecidableLT K] (inLow inHigh outLow outHigh outUndef v : K) : K :=
  if v < inLow then outLow else if inHigh < v then outHigh else outUndef

end Spec

end Cbadc.Vams
