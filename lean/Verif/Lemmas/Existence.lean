import Verif.Lemmas.NuvLeastSquares
import Verif.Spec.Waveform

/-! # Solutions of the differential equations behind the filter coefficients exist -/

namespace Cbadc.Filter

open Matrix Set Filter.Spec Cbadc.Nuv MeasureTheory

variable {N : ℕ}

theorem Spec.Waveform.integrable {T : ℝ} {w : ℝ → ℝ} (h : Waveform T w) {e : ℝ → ℝ} (he : Continuous e) :
    IntegrableOn (fun s => w s * e s) (Icc 0 T) := by
  obtain ⟨C, hC⟩ := h.bounded
  obtain ⟨D, hD⟩ := isCompact_Icc.exists_bound_of_continuousOn (s := Icc 0 T) he.continuousOn
  refine Measure.integrableOn_of_bounded (M := C * D) (by simp) (h.meas.mul he.measurable).aestronglyMeasurable ?_
  refine (ae_restrict_mem measurableSet_Icc).mono fun t ht => ?_
  rw [norm_mul]
  exact mul_le_mul (hC t ht) (hD t ht) (norm_nonneg _) ((abs_nonneg _).trans (hC t ht))

/-- Variation of constants for a waveform. -/
theorem duhamel_right (A : Matrix (Fin N) (Fin N) ℝ) {T : ℝ} {w : ℝ → ℝ} (hw : Waveform T w) (b : Fin N → ℝ) :
    ∃ π, Flow A (fun t => w t • b) 0 T π ∧ π 0 = 0 := by
  rcases lt_or_ge T 0 with hT | hT
  · refine ⟨fun _ => 0, ⟨continuousOn_const, fun t ht => ?_⟩, rfl⟩
    exact absurd (ht.1.trans_lt ht.2) (not_lt.2 hT.le)
  have he : ∀ j, Continuous fun s : ℝ => (NormedSpace.exp ((-s) • A) *ᵥ b) j := fun j =>
    (continuous_pi_iff.1 (continuous_exp_mulVec A b) j).comp continuous_neg
  have hi : ∀ j, IntegrableOn (fun s : ℝ => w s * (NormedSpace.exp ((-s) • A) *ᵥ b) j) (Icc 0 T) := fun j => hw.integrable (he j)
  obtain ⟨c, hc⟩ : ∃ c : ℝ → Fin N → ℝ, c = fun t j => ∫ s in (0 : ℝ)..t, w s * (NormedSpace.exp ((-s) • A) *ᵥ b) j := ⟨_, rfl⟩
  have hcc : ∀ j, ContinuousOn (fun t => c t j) (Icc 0 T) := by
    intro j
    have h := intervalIntegral.continuousOn_primitive_interval (a := 0) (b := T) (by rw [uIcc_of_le hT]; exact hi j)
    rw [uIcc_of_le hT] at h
    rw [hc]
    exact h
  have hcd : ∀ t ∈ Ico 0 T, ∀ j, HasDerivWithinAt (fun t => c t j) (w t * (NormedSpace.exp ((-t) • A) *ᵥ b) j) (Ici t) t := by
    intro t ht j
    rw [hc]
    refine intervalIntegral.integral_hasDerivWithinAt_right (s := Ici t) (t := Ioi t)
      (f := fun s => w s * (NormedSpace.exp ((-s) • A) *ᵥ b) j) ?_ ?_ ?_
    · refine IntegrableOn.intervalIntegrable ((hi j).mono_set ?_)
      rw [uIcc_of_le ht.1]
      exact Icc_subset_Icc_right ht.2.le
    · exact (hw.meas.mul (he j).measurable).stronglyMeasurable.stronglyMeasurableAtFilter
    · exact ((hw.right t ht).mono Ioi_subset_Ici_self).mul (he j).continuousWithinAt
  have e : (fun t : ℝ => NormedSpace.exp (t • A) *ᵥ c t) = fun t : ℝ => ∑ j, c t j • NormedSpace.exp (t • A) *ᵥ Pi.single j 1 := by
    funext t; exact exp_mulVec_sum _ _
  refine ⟨fun t => NormedSpace.exp (t • A) *ᵥ c t, ⟨?_, fun t ht => ?_⟩, ?_⟩
  · rw [e]
    exact continuousOn_finsetSum _ fun j _ => (hcc j).smul (continuous_exp_mulVec A _).continuousOn
  · rw [e]
    have h := HasDerivWithinAt.fun_sum (u := Finset.univ) fun j (_ : j ∈ Finset.univ) =>
      (hcd t ht j).fun_smul (hasDerivAt_exp_mulVec A (Pi.single j 1) t).hasDerivWithinAt
    refine h.congr_deriv ?_
    have e2 : ∑ j, (w t * (NormedSpace.exp ((-t) • A) *ᵥ b) j) • NormedSpace.exp (t • A) *ᵥ Pi.single j 1 = w t • b := by
      have : NormedSpace.exp (t • A) *ᵥ (w t • NormedSpace.exp ((-t) • A) *ᵥ b) = w t • b := by
        rw [mulVec_smul, mulVec_mulVec, ← exp_add_smul, add_neg_cancel, zero_smul, NormedSpace.exp_zero, one_mulVec]
      rw [← this]
      exact (exp_mulVec_sum (NormedSpace.exp (t • A)) (w t • NormedSpace.exp ((-t) • A) *ᵥ b)).symm
    rw [Finset.sum_add_distrib, e2]
    congr 1
    rw [exp_mulVec_sum (NormedSpace.exp (t • A)) (c t), mulVec_sum]
    exact Finset.sum_congr rfl fun j _ => (mulVec_smul _ _ _).symm
  · have : c 0 = 0 := by
      rw [hc]; funext j; exact intervalIntegral.integral_same
    dsimp only
    rw [this, mulVec_zero]

/-- Time reversal, the other way round. -/
theorem Spec.Flow.reverse {X : Matrix (Fin N) (Fin N) ℝ} {v x : ℝ → Fin N → ℝ} {T : ℝ} (h : Flow X v 0 T x) :
    FlowLeft (-X) (fun t => -v (T - t)) 0 T (fun t => x (T - t)) := by
  refine ⟨?_, fun t ht => ?_⟩
  · refine h.cont.comp (continuous_const.sub continuous_id).continuousOn fun t ht => ?_
    exact ⟨by linarith [ht.2], by linarith [ht.1]⟩
  · have h1 := h.ode (T - t) ⟨by linarith [ht.2], by linarith [ht.1]⟩
    have h2 : HasDerivWithinAt (fun t : ℝ => T - t) (-1) (Iic t) t :=
      ((hasDerivAt_id t).const_sub T).hasDerivWithinAt
    refine (h1.scomp t h2 fun s hs => ?_).congr_deriv ?_
    · have : s ≤ t := hs
      show T - t ≤ T - s
      linarith
    · rw [neg_one_smul, neg_add, Matrix.neg_mulVec]

/-- The solution that ends at zero. -/
theorem duhamel_end (A : Matrix (Fin N) (Fin N) ℝ) {T : ℝ} {w : ℝ → ℝ} (hw : Waveform T w) (b : Fin N → ℝ) :
    ∃ ψ, Flow A (fun t => w t • b) 0 T ψ ∧ ψ T = 0 := by
  obtain ⟨π, h1, -⟩ := duhamel_right A hw b
  have h2 := h1.add (flow_exp A (-(NormedSpace.exp ((-T) • A) *ᵥ π T)) 0 T)
  refine ⟨_, h2.congr fun t _ => add_zero _, ?_⟩
  show π T + NormedSpace.exp (T • A) *ᵥ (-(NormedSpace.exp ((-T) • A) *ᵥ π T)) = 0
  rw [mulVec_neg, mulVec_mulVec, ← exp_add_smul, add_neg_cancel, zero_smul, NormedSpace.exp_zero, one_mulVec, add_neg_cancel]

end Cbadc.Filter
