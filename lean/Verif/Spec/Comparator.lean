import Verif.Spec.Circuit

/-!
# Specification of mixed analog and digital sub-circuits

Laws of the converters and of the flip-flop that the comparators are made of.  A digital node has, like any
other node, a real function of time; the values `1` and `0` are the two definite levels, every other value is
undefined.  The laws say no more than the simulator guarantees away from the thresholds.
-/

namespace Cbadc.Circuit.Spec

/-- The parameters of the devices of a comparator: thresholds and delay of the converters to digital, delay of the
flip-flop, ramp time and levels of the converters to analog. -/
structure Timing where
  lo : ℝ
  hi : ℝ
  adc : ℝ
  dff : ℝ
  ramp : ℝ
  low : ℝ
  high : ℝ

/-- `P` holds around `e`. -/
def Around (e : ℝ) (P : ℝ → Prop) : Prop := ∃ ε > 0, ∀ s, e - ε < s → s < e + ε → P s

/-- The level changes to one at `e`. -/
def Rising (c : ℝ → ℝ) (e : ℝ) : Prop :=
  ∃ ε > 0, (∀ s, e - ε < s → s < e → c s ≠ 1) ∧ ∀ s, e < s → s < e + ε → c s = 1

/-- Arbitrarily close to `e` the level is not one, and arbitrarily close to `e` and not earlier it is one. -/
def MayRise (c : ℝ → ℝ) (e : ℝ) : Prop :=
  ∀ ε > 0, (∃ s, e - ε < s ∧ s ≤ e ∧ c s ≠ 1) ∧ ∃ s, e ≤ s ∧ s < e + ε ∧ c s = 1

/-- A converter to digital of the difference of `a` and `b`. -/
def AdcLaw (p : Timing) (a b out : ℝ → ℝ) : Prop :=
  ∀ t, (a t - b t < p.lo → out (t + p.adc) = 0) ∧ (p.hi < a t - b t → out (t + p.adc) = 1) ∧
    (a t - b t < p.hi → out (t + p.adc) ≠ 1)

/-- A flip-flop: a definite level of the data at a rising edge of the clock is put out until the next one. -/
def DffLaw (p : Timing) (d c q qn : ℝ → ℝ) : Prop :=
  ∀ e b, (b = 0 ∨ b = 1) → Rising c e → Around e (fun s => d s = b) →
    ∀ t, e < t → (∀ e', e < e' → e' < t → ¬ MayRise c e') → q (t + p.dff) = b ∧ qn (t + p.dff) = 1 - b

/-- A converter to analog: a definite level that has lasted for the ramp time is put out. -/
def DacLaw (p : Timing) (d out : ℝ → ℝ) : Prop :=
  ∀ t, ((∀ s, t - p.ramp ≤ s → s ≤ t → d s = 1) → out t = p.high) ∧
    ((∀ s, t - p.ramp ≤ s → s ≤ t → d s = 0) → out t = p.low)

/-- The device of a line in a mixed sub-circuit obeys its law. -/
def MixedLaw (p : Timing) (v : String → ℝ → ℝ) (l : Line ℝ) : Prop :=
  match l.dev, l.nodes with
  | .other "adc_vd", [a, out, b] => AdcLaw p (v a) (v b) (v out)
  | .other "dflip", [d, c, _, _, q, qn] => DffLaw p (v d) (v c) (v q) (v qn)
  | .other "dac", [d, out] => DacLaw p (v d) (v out)
  | _, _ => False

/-- A mixed sub-circuit with the given definition and the given potentials at its ports. -/
def ObeysMixed (p : Timing) (D : Def ℝ) (v : ℕ → ℝ → ℝ) : Prop :=
  ∃ pot : String → ℝ → ℝ, (∀ l ∈ D.body, MixedLaw p pot l) ∧ ∀ k (h : k < D.ports.length), pot D.ports[k] = v k

/-- A period of a clock: below the threshold before `e`, above it from `e` to `f` and below it again from `f` to
the next edge `n`. -/
def Period (hi : ℝ) (clk : ℝ → ℝ) (e f n : ℝ) : Prop :=
  e < f ∧ f ≤ n ∧ (∃ ε > 0, ∀ s, e - ε < s → s < e → clk s < hi) ∧ (∀ s, e < s → s < f → hi < clk s) ∧
    ∀ s, f < s → s < n → clk s < hi

end Cbadc.Circuit.Spec
