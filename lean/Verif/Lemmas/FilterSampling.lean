import Verif.Lemmas.FilterCoefficients
import Verif.Spec.Estimator

/-! # The sampled filters -/

namespace Cbadc.Filter

open Matrix Set Filter.Spec Cbadc.Analog Cbadc.Control Cbadc.Estimator

section
variable {N M : ℕ}

/-- superposition of the responses to the single controls -/
theorem flow_superpose {X : Matrix (Fin N) (Fin N) ℝ} {w : Fin M → ℝ → Fin N → ℝ} {a b : ℝ} {ψ : Fin M → ℝ → Fin N → ℝ}
    (h : ∀ m, Flow X (w m) a b (ψ m)) (v : Fin M → ℝ) :
    Flow X (fun t => ∑ m, v m • w m t) a b (fun t => ∑ m, v m • ψ m t) :=
  flow_sum _ _ _ fun m _ => (h m).smul (v m)

theorem ir_sum (dc : DC ℝ M) (Γ : Matrix (Fin N) (Fin M) ℝ) (v : Fin M → ℝ) {t : ℝ} (h0 : 0 ≤ t) (h1 : t ≤ dc.T) :
    ∑ m, v m • (Γ *ᵥ impulseResponse dc m t) = Γ *ᵥ fun m => (dc.ir m).f t * v m := by
  rw [show (fun m => (dc.ir m).f t * v m) = ∑ m, v m • impulseResponse dc m t from ?_]
  · rw [Matrix.mulVec_sum]
    exact Finset.sum_congr rfl fun m _ => (Matrix.mulVec_smul _ _ _).symm
  · ext i
    rw [Finset.sum_apply, Finset.sum_eq_single i]
    · simp [impulseResponse, h0, h1, mul_comm]
    · intro m _ hm
      simp [impulseResponse, Ne.symm hm]
    · intro h
      exact absurd (Finset.mem_univ i) h

theorem sum_col (X : Matrix (Fin N) (Fin M) ℝ) (ψ : Fin M → Fin N → ℝ) (h : ∀ m n, X n m = ψ m n) (v : Fin M → ℝ) :
    ∑ m, v m • ψ m = X *ᵥ v := by
  ext n
  rw [Finset.sum_apply]
  exact Finset.sum_congr rfl fun m _ => (congrArg (v m * ·) (h m n).symm).trans (mul_comm _ _)

end

section
variable {N M : ℕ} {X P : Matrix (Fin N) (Fin N) ℝ} {R : Matrix (Fin N) (Fin M) ℝ} {w : Fin M → ℝ → Fin N → ℝ} {T : ℝ}

theorem samples_forward (hT : 0 ≤ T) (hP : P = NormedSpace.exp (T • X))
    (hψ : ∀ m, ∃ ψ, Flow X (w m) 0 T ψ ∧ ψ 0 = 0 ∧ ∀ n, R n m = ψ T n) :
    SamplesForward X (fun s t => ∑ m, s m • w m t) T P R := by
  choose ψ h1 h0 hR using hψ
  intro s x hx
  rw [flow_end hT hx (flow_superpose h1 s) (by simp [h0]), hP, sum_col R (fun m => ψ m T) (fun m n => hR m n) s]

theorem samples_backward (hT : 0 ≤ T) (hP : P = NormedSpace.exp (T • -X))
    (hψ : ∀ m, ∃ ψ, FlowLeft (-X) (fun t => -w m (T - t)) 0 T ψ ∧ ψ 0 = 0 ∧ ∀ n, R n m = ψ T n) :
    SamplesBackward X (fun s t => ∑ m, s m • w m t) T P R := by
  choose ψ h1 h0 hR using hψ
  intro s x hx
  have h2 : ∀ m, Flow X (w m) 0 T (fun t => ψ m (T - t)) := by
    intro m
    have := (h1 m).reverse
    simpa only [neg_neg, sub_sub_cancel] using this
  rw [flow_start hT hx (flow_superpose h2 s) (by simp [h0]), hP, sub_zero,
    sum_col R (fun m => ψ m T) (fun m n => hR m n) s]

theorem Spec.SamplesForward.congr {q q' : (Fin M → ℝ) → ℝ → Fin N → ℝ} (h : SamplesForward X q T P R)
    (hq : ∀ s, ∀ t ∈ Ico 0 T, q' s t = q s t) : SamplesForward X q' T P R :=
  fun s x hx => h s x (hx.congr (hq s))

theorem Spec.SamplesBackward.congr {q q' : (Fin M → ℝ) → ℝ → Fin N → ℝ} (h : SamplesBackward X q T P R)
    (hq : ∀ s, ∀ t ∈ Ico 0 T, q' s t = q s t) : SamplesBackward X q' T P R :=
  fun s x hx => h s x (hx.congr (hq s))

theorem drive_sum (G : ℕ → ℕ → ℝ) (s h : Fin M → ℝ) :
    ∑ m, s m • (fun n : Fin N => G n m * h m) = toM N M G *ᵥ fun m => h m * s m := by
  ext n
  rw [Finset.sum_apply]
  refine Finset.sum_congr rfl fun m _ => ?_
  show s m * (G n m * h m) = G n m * (h m * s m)
  ring

end

section
variable {M : ℕ} {g : Sys ℝ} {G : ℕ → ℕ → ℝ} {dc : DC ℝ M} {eta2 : ℝ} {Vf Vb : Matrix (Fin g.N) (Fin g.N) ℝ}
  {c : Coeffs ℝ g.N M g.L}

/-- the forward filter over one period -/
theorem forward_period (hc : Common g dc.T eta2 Vf Vb c) (h : Regular g G dc eta2 Vf Vb c) (v : Fin M → ℝ) (y : Fin g.N → ℝ) :
    ∃ x, Flow (tempAf g eta2 Vf) (fun t => toM g.N M G *ᵥ fun m => (dc.ir m).f t * v m) 0 dc.T x ∧ x 0 = y ∧
      x dc.T = c.Af *ᵥ y + c.Bf *ᵥ v := by
  choose ψ hψ h0 hB using h.Bf
  refine ⟨_, (((flow_exp _ y 0 dc.T).add (flow_superpose hψ v))).congr fun t ht => ?_, ?_, ?_⟩
  · rw [zero_add, ir_sum dc _ v ht.1 ht.2.le]
  · rw [exp_zero_smul, one_mulVec]
    simp [h0]
  · rw [sum_col c.Bf (fun m => ψ m dc.T) (fun m n => hB m n) v, hc.Af]

/-- the backward filter over one period -/
theorem backward_period (hc : Common g dc.T eta2 Vf Vb c) (h : Regular g G dc eta2 Vf Vb c) (v : Fin M → ℝ) (y : Fin g.N → ℝ) :
    ∃ x, Flow (tempAb g eta2 Vb) (fun t => toM g.N M G *ᵥ fun m => (dc.ir m).f t * v m) 0 dc.T x ∧ x dc.T = y ∧
      x 0 = c.Ab *ᵥ y + c.Bb *ᵥ v := by
  choose ψ hψ h0 hB using h.Bb
  have h1 : ∀ m, Flow (tempAb g eta2 Vb) (fun t => toM g.N M G *ᵥ impulseResponse dc m t) 0 dc.T
      (fun t => ψ m (dc.T - t)) := by
    intro m
    have := (hψ m).reverse
    simpa only [neg_neg, sub_sub_cancel] using this
  refine ⟨_, (((flow_exp _ (NormedSpace.exp (dc.T • -tempAb g eta2 Vb) *ᵥ y) 0 dc.T).add
    (flow_superpose h1 v))).congr fun t ht => ?_, ?_, ?_⟩
  · rw [zero_add, ir_sum dc _ v ht.1 ht.2.le]
  · have e : NormedSpace.exp (dc.T • tempAb g eta2 Vb) * NormedSpace.exp (dc.T • -tempAb g eta2 Vb) = 1 := by
      have := exp_neg_mul (-tempAb g eta2 Vb) dc.T
      rwa [neg_neg] at this
    rw [mulVec_mulVec, e, one_mulVec, sub_self]
    simp [h0]
  · rw [exp_zero_smul, one_mulVec, sub_zero, sum_col c.Bb (fun m => ψ m dc.T) (fun m n => hB m n) v, hc.Ab]

end

section
variable {N M L : ℕ} (c : Coeffs ℝ N M L) (K : ℕ) (v : ℕ → Fin M → ℝ)

/-- forward means at the updates -/
noncomputable def fSum (k : ℕ) : Fin N → ℝ := ∑ i ∈ Finset.range k, (c.Af ^ i * c.Bf) *ᵥ v (k - 1 - i)

/-- backward means at the updates -/
noncomputable def bSum (k : ℕ) : Fin N → ℝ := ∑ i ∈ Finset.range (K - k), (c.Ab ^ i * c.Bb) *ᵥ v (k + i)

theorem fSum_succ (k : ℕ) : fSum c v (k + 1) = c.Af *ᵥ fSum c v k + c.Bf *ᵥ v k := by
  unfold fSum
  rw [Finset.sum_range_succ', Matrix.mulVec_sum]
  refine congrArg₂ _ (Finset.sum_congr rfl fun i hi => ?_) ?_
  · have := Finset.mem_range.1 hi
    rw [mulVec_mulVec, ← Matrix.mul_assoc, ← pow_succ', show k + 1 - 1 - (i + 1) = k - 1 - i by omega]
  · rw [pow_zero, Matrix.one_mul, show k + 1 - 1 - 0 = k by omega]

theorem bSum_succ {k : ℕ} (hk : k < K) : bSum c K v k = c.Ab *ᵥ bSum c K v (k + 1) + c.Bb *ᵥ v k := by
  unfold bSum
  rw [show K - k = K - (k + 1) + 1 by omega, Finset.sum_range_succ', Matrix.mulVec_sum]
  refine congrArg₂ _ (Finset.sum_congr rfl fun i hi => ?_) ?_
  · rw [mulVec_mulVec, ← Matrix.mul_assoc, ← pow_succ', show k + (i + 1) = k + 1 + i by omega]
  · rw [pow_zero, Matrix.one_mul, show k + 0 = k by omega]

theorem bSum_end : bSum c K v K = 0 := by
  unfold bSum
  rw [Nat.sub_self, Finset.sum_range_zero]

theorem fSum_past (s : ℕ → Fin M → ℝ) (k : ℕ) :
    c.WT *ᵥ fSum c (fun k => valued (s k)) k = Cbadc.Spec.past c.WT c.Af c.Bf (Cbadc.Spec.ext s) k k := by
  unfold fSum Cbadc.Spec.past
  rw [Matrix.mulVec_sum]
  refine Finset.sum_congr rfl fun i hi => ?_
  have := Finset.mem_range.1 hi
  rw [mulVec_mulVec]
  refine congrArg _ ?_
  unfold Cbadc.Spec.ext
  rw [if_pos (by omega), show ((k : ℤ) - 1 - i).toNat = k - 1 - i by omega]
  rfl

theorem bSum_future (s : ℕ → Fin M → ℝ) (k : ℕ) :
    c.WT *ᵥ bSum c K (fun k => valued (s k)) k = Cbadc.Spec.future c.WT c.Ab c.Bb (Cbadc.Spec.ext s) k (K - k) := by
  unfold bSum Cbadc.Spec.future
  rw [Matrix.mulVec_sum]
  refine Finset.sum_congr rfl fun i hi => ?_
  rw [mulVec_mulVec]
  refine congrArg _ ?_
  unfold Cbadc.Spec.ext
  rw [if_pos (by omega), show ((k : ℤ) + i).toNat = k + i by omega]
  rfl

end

section
variable {g : Sys ℝ} {eta2 : ℝ} {Vf Vb : Matrix (Fin g.N) (Fin g.N) ℝ}

theorem careR_inv (he : eta2 ≠ 0) : (careR g eta2)⁻¹ = (1 / eta2) • 1 := by
  refine Matrix.inv_eq_right_inv ?_
  rw [careR, Matrix.smul_mul, Matrix.one_mul, smul_smul, mul_one_div_cancel he, one_smul]

theorem cct_eq (he : eta2 ≠ 0) : cct g eta2 = (1 / eta2) • ((toM g.Nt g.N g.CT)ᵀ * toM g.Nt g.N g.CT) := by
  rw [cct, careR_inv he, Matrix.smul_mul, Matrix.one_mul, Matrix.mul_smul]

theorem Cares.riccati (h : Cares g eta2 Vf Vb) :
    toM g.N g.N g.A * Vf + Vf * (toM g.N g.N g.A)ᵀ - Vf * cct g eta2 * Vf + toM g.N g.L g.B * (toM g.N g.L g.B)ᵀ = 0 ∧
      -toM g.N g.N g.A * Vb - Vb * (toM g.N g.N g.A)ᵀ - Vb * cct g eta2 * Vb + toM g.N g.L g.B * (toM g.N g.L g.B)ᵀ = 0 := by
  have h1 := h.f.eq
  have h2 := h.b.eq
  simp only [careA, careB, careQ, transpose_transpose, transpose_neg] at h1 h2
  constructor
  · rw [cct]
    simpa only [Matrix.mul_assoc] using h1
  · rw [cct]
    simpa only [Matrix.mul_assoc, Matrix.mul_neg, ← sub_eq_add_neg] using h2

theorem Common.WT_eq {M : ℕ} {T : ℝ} {c : Coeffs ℝ g.N M g.L} (hc : Common g T eta2 Vf Vb c) (sf : Vfᵀ = Vf) (sb : Vbᵀ = Vb)
    (hV : IsUnit (Vf + Vb).det) : c.WT = (toM g.N g.L g.B)ᵀ * (Vf + Vb)⁻¹ := by
  have h := hc.WT
  have hs : (Vf + Vb)ᵀ = Vf + Vb := by rw [transpose_add, sf, sb]
  rw [hs] at h
  have h2 : (Vf + Vb) * c.WTᵀ = toM g.N g.L g.B := by
    have := congrArg (fun X => (Vf + Vb)⁻¹ * X) h
    simp only [← Matrix.mul_assoc, nonsing_inv_mul _ hV, Matrix.one_mul, Matrix.mul_zero] at this
    exact sub_eq_zero.1 this
  have h3 : c.WTᵀ = (Vf + Vb)⁻¹ * toM g.N g.L g.B := by
    rw [← h2, ← Matrix.mul_assoc, nonsing_inv_mul _ hV, Matrix.one_mul]
  rw [← transpose_transpose c.WT, h3, transpose_mul, transpose_nonsing_inv, hs]

end

end Cbadc.Filter
