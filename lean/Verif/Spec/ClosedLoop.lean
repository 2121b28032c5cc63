import Verif.Spec.Comparator
import Mathlib.Analysis.SpecialFunctions.Exp

/-!
# Specification of a frontend together with its control

The laws of all levels of a netlist with an analog frontend, its digital control, the comparators in it and the
clocked comparators in these, and the bound on the deviation of two trajectories.
-/

namespace Cbadc.Circuit.Spec

/-- A behaviour of a netlist whose instances of `digital_control`, `multi_input_comparator_0`, ... and
`clocked_comparator` have the given definitions; the common mode is at the potential `mid` and Kirchhoff's law
holds at the given nodes. -/
structure Loop (law : Law) (sol : Sol) (p : Timing) (mid : ℝ) (net : List (Line ℝ)) (nodes : List String)
    (control : Def ℝ) (comparators : List (Def ℝ)) (clocked : Def ℝ) : Prop where
  control : ∀ v i, law "digital_control" v i → ObeysDef law control v i
  compare : ∀ k D, comparators[k]? = some D → ∀ v i, law (fmt "multi_input_comparator_" k "") v i → ObeysDef law D v i
  clocked : ∀ v i, law "clocked_comparator" v i → ObeysMixed p clocked v
  devices : ∀ l ∈ net, Obeys law sol l
  nodes : ∀ a ∈ nodes, Kirchhoff sol net a
  mid : ∀ t, sol.v "VCM" t = mid

/-- How far a trajectory can be from another one after `k` periods of length `T`: they start `E` apart, deviations
grow with the rate `a`, and in every period the controls differ for a time `r`, each with an effect of at most
`2 g` per unit of time. -/
noncomputable def deviation (a T g r E : ℝ) : ℕ → ℝ
  | 0 => E
  | k + 1 => (deviation a T g r E k + 2 * g * r) * Real.exp (a * T)

end Cbadc.Circuit.Spec
