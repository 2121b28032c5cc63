import Mathlib.Analysis.Complex.Exponential
import Mathlib.Analysis.SpecialFunctions.ExpDeriv
import Mathlib.Analysis.SpecialFunctions.Trigonometric.Deriv
import Mathlib.Analysis.Calculus.MeanValue
import Mathlib.Tactic.FieldSimp
import Verif.Lemmas.Stack
import Verif.Spec.Synthesis
import Verif.Model.Quadrature

/-! # Lemmas about quadrature frontends -/

namespace Cbadc.Synthesis
open Analog Control Signal Finset
open Analog.Spec Spec

variable {K : Type*} [Field K]

/-- the stack of a system with itself, block by block -/
theorem stack2 (R C : Sys ℝ → ℕ) (F : Sys ℝ → ℕ → ℕ → ℝ) (g : Sys ℝ) :
    (∀ r < R g, ∀ c < C g, stackMat R C F [g, g] r c = F g r c) ∧
    (∀ r < R g, ∀ c, C g ≤ c → stackMat R C F [g, g] r c = 0) ∧
    (∀ r, ∀ c < C g, stackMat R C F [g, g] (R g + r) c = 0) ∧
    (∀ r < R g, ∀ c < C g, stackMat R C F [g, g] (R g + r) (C g + c) = F g r c) := by
  unfold stackMat
  simp only [stackBlocks, Nat.zero_add]
  refine ⟨fun r hr c hc => ?_, fun r hr c hc => ?_, fun r c hc => ?_, fun r hr c hc => ?_⟩
  · rw [blockSet_out (by omega), blockSet_in (by omega) hr (by omega) hc, Nat.sub_zero, Nat.sub_zero]
  · rw [blockSet_out (by omega), blockSet_out (by omega)]
  · rw [blockSet_out (by omega), blockSet_out (by omega)]
  · rw [blockSet_in (by omega) (by omega) (by omega) (by omega), Nat.add_sub_cancel_left, Nat.add_sub_cancel_left]

/-- rows of the stack of a system with itself, applied to a vector -/
theorem stack2_sum (φ : ℝ →+* K) (R C : Sys ℝ → ℕ) (F : Sys ℝ → ℕ → ℕ → ℝ) (g : Sys ℝ) (x : ℕ → K) (r : ℕ)
    (hr : r < R g) :
    (∑ c ∈ range (C g + C g), φ (stackMat R C F [g, g] r c) * x c = ∑ c ∈ range (C g), φ (F g r c) * x c) ∧
    (∑ c ∈ range (C g + C g), φ (stackMat R C F [g, g] (R g + r) c) * x c =
      ∑ c ∈ range (C g), φ (F g r c) * x (C g + c)) := by
  obtain ⟨h1, h2, h3, h4⟩ := stack2 R C F g
  constructor
  · rw [sum_split, sum_eq_zero (s := range (C g)) (f := fun c => φ (stackMat R C F [g, g] r (C g + c)) * x (C g + c)),
      add_zero]
    · exact sum_congr rfl fun c hc => by rw [h1 r hr c (mem_range.1 hc)]
    · intro c _
      rw [h2 r hr _ (Nat.le_add_right _ _), map_zero, zero_mul]
  · rw [sum_split, sum_eq_zero (s := range (C g)) (f := fun c => φ (stackMat R C F [g, g] (R g + r) c) * x c), zero_add]
    · exact sum_congr rfl fun c hc => by rw [h4 r hr c (mem_range.1 hc)]
    · intro c hc
      rw [h3 r c (mem_range.1 hc), map_zero, zero_mul]

theorem eye_sum (φ : ℝ →+* K) (N : ℕ) (v : ℝ) (x : ℕ → K) (r : ℕ) (hr : r < N) :
    ∑ c ∈ range N, φ (eyeBlock v r c) * x c = φ v * x r := by
  rw [sum_eq_single r]
  · unfold eyeBlock
    rw [if_pos rfl]
  · intro c _ hc
    unfold eyeBlock
    rw [if_neg hc.symm, map_zero, zero_mul]
  · intro h
    exact absurd (mem_range.2 hr) h

/-- rows of the bandpass state matrix, applied to a vector -/
theorem bpA_sum (φ : ℝ →+* K) (g : Sys ℝ) (w : ℝ) (x : ℕ → K) (r : ℕ) (hr : r < g.N) :
    (∑ c ∈ range (g.N + g.N), φ (blockSet g.N (2 * g.N) 0 g.N (blockSet 0 g.N g.N (2 * g.N)
        (stackMat Sys.N Sys.N Sys.A [g, g]) (eyeBlock (-w))) (eyeBlock w) r c) * x c =
      (∑ c ∈ range g.N, φ (g.A r c) * x c) - φ w * x (g.N + r)) ∧
    (∑ c ∈ range (g.N + g.N), φ (blockSet g.N (2 * g.N) 0 g.N (blockSet 0 g.N g.N (2 * g.N)
        (stackMat Sys.N Sys.N Sys.A [g, g]) (eyeBlock (-w))) (eyeBlock w) (g.N + r) c) * x c =
      (∑ c ∈ range g.N, φ (g.A r c) * x (g.N + c)) + φ w * x r) := by
  obtain ⟨h1, h2, h3, h4⟩ := stack2 Sys.N Sys.N Sys.A g
  constructor
  · rw [sum_split, sub_eq_add_neg, ← neg_mul, ← map_neg, ← eye_sum φ g.N (-w) (fun c => x (g.N + c)) r hr]
    congr 1
    · refine sum_congr rfl fun c hc => ?_
      have hc := mem_range.1 hc
      rw [blockSet_out (by omega), blockSet_out (by omega), h1 r hr c hc]
    · refine sum_congr rfl fun c hc => ?_
      have hc := mem_range.1 hc
      rw [blockSet_out (by omega), blockSet_in (by omega) hr (by omega) (by omega), Nat.sub_zero,
        Nat.add_sub_cancel_left]
  · rw [sum_split, add_comm, ← eye_sum φ g.N w x r hr]
    congr 1
    · refine sum_congr rfl fun c hc => ?_
      have hc := mem_range.1 hc
      rw [blockSet_out (by omega), blockSet_out (by omega), h4 r hr c hc]
    · refine sum_congr rfl fun c hc => ?_
      have hc := mem_range.1 hc
      rw [blockSet_in (by omega) (by omega) (by omega) (by omega), Nat.sub_zero, Nat.add_sub_cancel_left]

/-- rows of a rotation block matrix, applied to a vector -/
theorem rot_sum (φ : ℝ →+* K) (N : ℕ) (p q : ℝ) (x : ℕ → K) (r : ℕ) (hr : r < N) :
    (∑ c ∈ range (2 * N), φ (rotBlocks N p q r c) * x c = φ p * x r - φ q * x (N + r)) ∧
    (∑ c ∈ range (2 * N), φ (rotBlocks N p q (N + r) c) * x c = φ q * x r + φ p * x (N + r)) := by
  unfold rotBlocks
  rw [two_mul]
  constructor
  · rw [sum_split, sub_eq_add_neg, ← neg_mul, ← map_neg, ← eye_sum φ N (-q) (fun c => x (N + c)) r hr,
      ← eye_sum φ N p x r hr]
    congr 1
    · refine sum_congr rfl fun c hc => ?_
      have hc := mem_range.1 hc
      rw [blockSet_out (by omega), blockSet_out (by omega), blockSet_out (by omega),
        blockSet_in (by omega) hr (by omega) hc, Nat.sub_zero, Nat.sub_zero]
    · refine sum_congr rfl fun c hc => ?_
      have hc := mem_range.1 hc
      rw [blockSet_out (by omega), blockSet_in (by omega) hr (by omega) (by omega), Nat.sub_zero,
        Nat.add_sub_cancel_left]
  · rw [sum_split, ← eye_sum φ N p (fun c => x (N + c)) r hr, ← eye_sum φ N q x r hr]
    congr 1
    · refine sum_congr rfl fun c hc => ?_
      have hc := mem_range.1 hc
      rw [blockSet_in (by omega) (by omega) (by omega) hc, Nat.sub_zero, Nat.add_sub_cancel_left]
    · refine sum_congr rfl fun c hc => ?_
      have hc := mem_range.1 hc
      rw [blockSet_out (by omega), blockSet_out (by omega), blockSet_in (by omega) (by omega) (by omega) (by omega),
        Nat.add_sub_cancel_left, Nat.add_sub_cancel_left]

/-- a rotating state under a constant and a bounded drive: the end point differs from the undisturbed one by at most the
bound times the duration -/
theorem rotating_bound (w : ℝ) (hw : w ≠ 0) (k : ℂ) (z f : ℝ → ℂ) (a b V : ℝ) (hab : a ≤ b)
    (hc : ContinuousOn z (Set.Icc a b))
    (hz : ∀ t ∈ Set.Ico a b, HasDerivWithinAt z (Complex.I * w * z t + k + f t) (Set.Ici t) t)
    (hf : ∀ t ∈ Set.Ico a b, ‖f t‖ ≤ V) :
    ‖z b - (Complex.exp (Complex.I * w * (b - a : ℝ)) * z a +
      k * ((Complex.exp (Complex.I * w * (b - a : ℝ)) - 1) / (Complex.I * w)))‖ ≤ V * (b - a) := by
  have hwc : (Complex.I * w : ℂ) ≠ 0 := mul_ne_zero Complex.I_ne_zero (Complex.ofReal_ne_zero.2 hw)
  let G : ℝ → ℂ := fun t => Complex.exp (-(Complex.I * w) * t) * (z t + k / (Complex.I * w))
  have he : ∀ t : ℝ, HasDerivAt (fun t : ℝ => Complex.exp (-(Complex.I * w) * t))
      (Complex.exp (-(Complex.I * w) * t) * (-(Complex.I * w) * 1)) t := by
    intro t
    have : HasDerivAt (fun t : ℝ => (-(Complex.I * w) * (t : ℂ))) (-(Complex.I * w) * 1) t :=
      (Complex.ofRealCLM.hasDerivAt (x := t)).const_mul _
    exact this.cexp
  have hn : ∀ (c t : ℝ), ‖Complex.exp (Complex.I * c * t)‖ = 1 := by
    intro c t
    have : Complex.I * c * t = ((c * t : ℝ) : ℂ) * Complex.I := by push_cast; ring
    rw [this, Complex.norm_exp_ofReal_mul_I]
  have hG : ∀ t ∈ Set.Ico a b, HasDerivWithinAt G (Complex.exp (-(Complex.I * w) * t) * f t) (Set.Ici t) t := by
    intro t ht
    have h2 := (he t).hasDerivWithinAt.mul ((hz t ht).add_const (k / (Complex.I * w)))
    refine h2.congr_deriv ?_
    have hk : Complex.I * w * (k / (Complex.I * w)) = k := mul_div_cancel₀ _ hwc
    linear_combination -Complex.exp (-(Complex.I * w) * t) * hk
  have hcont : ContinuousOn G (Set.Icc a b) := by
    refine ContinuousOn.mul (fun t _ => (he t).continuousAt.continuousWithinAt) (hc.add continuousOn_const)
  have hb : ∀ t ∈ Set.Ico a b, ‖Complex.exp (-(Complex.I * w) * t) * f t‖ ≤ V := by
    intro t ht
    rw [norm_mul]
    have : -(Complex.I * w) * t = Complex.I * ((-w : ℝ) : ℂ) * t := by push_cast; ring
    rw [this, hn, one_mul]
    exact hf t ht
  have hmv := norm_image_sub_le_of_norm_deriv_right_le_segment hcont hG hb b ⟨hab, le_rfl⟩
  have e1 : Complex.exp (Complex.I * w * b) * Complex.exp (-(Complex.I * w) * b) = 1 := by
    rw [← Complex.exp_add]
    ring_nf
    exact Complex.exp_zero
  have e2 : Complex.exp (Complex.I * w * b) * Complex.exp (-(Complex.I * w) * a) =
      Complex.exp (Complex.I * w * (b - a : ℝ)) := by
    rw [← Complex.exp_add]
    congr 1
    push_cast
    ring
  have h3 : z b - (Complex.exp (Complex.I * w * (b - a : ℝ)) * z a +
      k * ((Complex.exp (Complex.I * w * (b - a : ℝ)) - 1) / (Complex.I * w))) =
      Complex.exp (Complex.I * w * b) * (G b - G a) := by
    simp only [G]
    rw [mul_sub, ← mul_assoc, e1, one_mul, ← mul_assoc, e2]
    ring
  rw [h3, norm_mul, hn, one_mul]
  exact hmv

end Cbadc.Synthesis
