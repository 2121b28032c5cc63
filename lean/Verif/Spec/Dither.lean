import Verif.Model.ReferenceSource
import Verif.Spec.Comparator

/-!
# Specification of the dither control circuit

Laws of the reference source and of the converter with a fixed threshold, in addition to those of the comparators.
-/

namespace Cbadc.Circuit.Spec

/-- The level of a digital node. -/
noncomputable def levelValue : Reference.Level → ℝ
  | .zero => 0
  | .one => 1
  | .undef => 1 / 2

/-- A digital source: after the time of a line and before the time of the next one, output `m` has the state of
entry `m` of the line. -/
def SourceLaw (rows : List (Reference.Row ℝ)) (outs : List (ℝ → ℝ)) : Prop :=
  ∀ (k m : ℕ) r b (out : ℝ → ℝ), rows[k]? = some r → r.levels[m]? = some b → outs[m]? = some out →
    ∀ t, r.time < t → (∀ r', rows[k + 1]? = some r' → t < r'.time) → out t = levelValue b

/-- The device of a line of the dither control obeys its law; nothing is said about sub-circuits. -/
def DitherLaw (p : Timing) (rows : List (Reference.Row ℝ)) (v : String → ℝ → ℝ) (l : Line ℝ) : Prop :=
  match l.dev, l.nodes with
  | .other "r_source", ns => SourceLaw rows (ns.map v)
  | .other "adc", [a, out] => AdcLaw p (v a) (fun _ => 0) (v out)
  | .other "dflip", [d, c, _, _, q, qn] => DffLaw p (v d) (v c) (v q) (v qn)
  | .other "dac", [d, out] => DacLaw p (v d) (v out)
  | .sub _, _ => True
  | _, _ => False

end Cbadc.Circuit.Spec
