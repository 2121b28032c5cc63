import Verif.Lemmas.Flow
import Mathlib.MeasureTheory.Integral.IntervalIntegral.FundThmCalculus
import Mathlib.Analysis.Calculus.MeanValue

/-!
# Joining and shifting solutions of linear differential equations
-/

namespace Cbadc.Filter

open Matrix Spec Set

variable {N : ℕ} {X : Matrix (Fin N) (Fin N) ℝ} {v w : ℝ → Fin N → ℝ} {a b c : ℝ} {x y : ℝ → Fin N → ℝ}

/-- two solutions that meet -/
theorem Spec.Flow.glue (hx : Flow X v a c x) (hy : Flow X v c b y) (h : x c = y c) :
    Flow X v a b (fun t => if t < c then x t else y t) := by
  have hE : (fun t => if t < c then x t else y t) = fun t => if c ≤ t then y t else x t := by
    funext t
    by_cases ht : t < c
    · rw [if_pos ht, if_neg (not_le.2 ht)]
    · rw [if_neg ht, if_pos (not_lt.1 ht)]
  refine ⟨?_, fun t ht => ?_⟩
  · rw [hE]
    refine ContinuousOn.if (p := fun t => c ≤ t) ?_ ?_ ?_
    · rintro t ⟨-, ht⟩
      have : t = c := by
        have := frontier_Ici_subset c ht
        simpa using this
      rw [this, h]
    · refine hy.cont.mono ?_
      rintro t ⟨h1, h2⟩
      have h3 : t ∈ closure (Ici c) := h2
      rw [closure_Ici] at h3
      exact ⟨h3, h1.2⟩
    · refine hx.cont.mono ?_
      rintro t ⟨h1, h2⟩
      have h3 : {t | ¬c ≤ t} = Iio c := by ext; simp
      rw [h3] at h2
      have h4 : closure (Iio c) ⊆ Iic c := closure_minimal Iio_subset_Iic_self isClosed_Iic
      exact ⟨h1.1, h4 h2⟩
  · by_cases hlt : t < c
    · rw [if_pos hlt]
      refine (hx.ode t ⟨ht.1, hlt⟩).congr_of_eventuallyEq ?_ (if_pos hlt)
      refine Filter.Eventually.filter_mono nhdsWithin_le_nhds ?_
      filter_upwards [Iio_mem_nhds hlt] with s hs
      exact if_pos hs
    · rw [if_neg hlt]
      refine (hy.ode t ⟨not_lt.1 hlt, ht.2⟩).congr_of_eventuallyEq ?_ (if_neg hlt)
      filter_upwards [self_mem_nhdsWithin] with s hs
      exact if_neg (not_lt.2 ((not_lt.1 hlt).trans hs))

theorem Spec.Flow.shift (hx : Flow X v a b x) (d : ℝ) : Flow X (fun t => v (t - d)) (a + d) (b + d) (fun t => x (t - d)) := by
  refine ⟨?_, fun t ht => ?_⟩
  · refine hx.cont.comp (continuous_id.sub continuous_const).continuousOn fun t ht => ?_
    exact ⟨by linarith [ht.1], by linarith [ht.2]⟩
  · have h1 := hx.ode (t - d) ⟨by linarith [ht.1], by linarith [ht.2]⟩
    have h2 : HasDerivWithinAt (fun t : ℝ => t - d) 1 (Ici t) t := ((hasDerivAt_id t).sub_const d).hasDerivWithinAt
    have h3 := h1.scomp t h2 fun s hs => by
      have : t ≤ s := hs
      show t - d ≤ s - d
      linarith
    rwa [one_smul] at h3

theorem Spec.Flow.mono {a' b' : ℝ} (hx : Flow X v a b x) (h1 : a ≤ a') (h2 : b' ≤ b) : Flow X v a' b' x :=
  ⟨hx.cont.mono (Icc_subset_Icc h1 h2), fun t ht => hx.ode t ⟨h1.trans ht.1, ht.2.trans_le h2⟩⟩

/-- a continuous drive: the derivatives from the right are also the derivatives from the left -/
theorem Spec.Flow.left (hab : a ≤ b) (hx : Flow X v a b x) (hv : ContinuousOn v (Icc a b)) : FlowLeft X v a b x := by
  have hw : ContinuousOn (fun t => X *ᵥ x t + v t) (Icc a b) :=
    (((LinearMap.toContinuousLinearMap (Matrix.mulVecLin X)).continuous.comp_continuousOn hx.cont)).add hv
  have hc : Continuous (IccExtend hab (domRestrict (Icc a b) fun t => X *ᵥ x t + v t)) :=
    (continuousOn_iff_continuous_domRestrict.1 hw).Icc_extend'
  set F := IccExtend hab (domRestrict (Icc a b) fun t => X *ᵥ x t + v t) with hF
  have hd : ∀ t, HasDerivAt (fun t => ∫ s in a..t, F s) (F t) t := fun t => (hc.integral_hasStrictDerivAt a t).hasDerivAt
  have e : ∀ t ∈ Icc a b, F t = X *ᵥ x t + v t := fun t ht => by rw [hF, IccExtend_of_mem hab _ ht]; rfl
  have hk := constant_of_has_deriv_right_zero (f := fun t => x t - ∫ s in a..t, F s) (a := a) (b := b)
    (hx.cont.sub fun t _ => (hd t).continuousAt.continuousWithinAt) fun t ht => by
      refine ((hx.ode t ht).sub (hd t).hasDerivWithinAt).congr_deriv ?_
      rw [e t (Ico_subset_Icc_self ht), sub_self]
  refine ⟨hx.cont, fun t ht => ?_⟩
  have h1 : HasDerivAt (fun t => x a + ∫ s in a..t, F s) (F t) t := (hd t).const_add _
  rw [← e t (Ioc_subset_Icc_self ht)]
  have h2 : ∀ s ∈ Icc a b, x s = x a + ∫ s in a..s, F s := by
    intro s hs
    have := hk s hs
    simp only [intervalIntegral.integral_same, sub_zero] at this
    rw [← this]
    abel
  refine h1.hasDerivWithinAt.congr_of_eventuallyEq ?_ (h2 t (Ioc_subset_Icc_self ht))
  have h3 : Ioc a t ∈ nhdsWithin t (Iic t) := Ioc_mem_nhdsLE ht.1
  filter_upwards [h3] with s hs
  exact h2 s ⟨hs.1.le, hs.2.trans ht.2⟩

end Cbadc.Filter
