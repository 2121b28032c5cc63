import Verif.Lemmas.LeastSquares

/-! # Lemmas for the principle of control-bounded conversion (C142) -/

namespace Cbadc.Filter

open Matrix Set Filter.Spec Cbadc.Analog Cbadc.Control Cbadc.Estimator

section
variable {N L : ℕ} {A : Matrix (Fin N) (Fin N) ℝ} {B : Matrix (Fin N) (Fin L) ℝ} {T : ℝ} {K : ℕ}

/-- the difference of two explanations explains the difference of the contributions -/
theorem explains_sub {q q' r : ℕ → ℝ → Fin N → ℝ} {u u' : ℕ → ℝ → Fin L → ℝ} {x x' : ℕ → ℝ → Fin N → ℝ}
    (h : Explains A B q T K u x) (h' : Explains A B q' T K u' x') (hr : ∀ k < K, ∀ t ∈ Ico 0 T, r k t = q k t - q' k t) :
    Explains A B r T K (fun k t => u k t - u' k t) (fun k t => x k t - x' k t) := by
  refine ⟨fun k hk => ⟨(h.flow k hk).cont.sub (h'.flow k hk).cont, fun t ht => ?_⟩, fun k hk => ?_⟩
  · have := ((h.flow k hk).ode t ht).sub ((h'.flow k hk).ode t ht)
    refine this.congr_deriv ?_
    rw [hr k hk t ht, mulVec_sub, mulVec_sub]
    abel
  · show x k T - x' k T = x (k + 1) 0 - x' (k + 1) 0
    rw [h.join k hk, h'.join k hk]

/-- an integral is at most its length times a bound of the integrand -/
theorem integrates_le (hT : 0 ≤ T) {w J : ℕ → ℝ → ℝ} (h : Integrates T K w J) {b : ℝ} (hw : ∀ k < K, ∀ t ∈ Ico 0 T, w k t ≤ b)
    {k : ℕ} (hk : k < K) : J k T ≤ T * b := by
  have h1 := nonneg_of_deriv (J := fun t => t * b - J k t) (w := fun t => b - w k t) hT (by simp [h.start k hk])
    ((continuousOn_id.mul continuousOn_const).sub (h.cont k hk))
    (fun t ht => by
      have h2 := ((hasDerivWithinAt_id t (Ici t)).mul_const b).sub (h.deriv k hk t ht)
      exact h2.congr_deriv (by simp)) (fun t ht => sub_nonneg.2 (hw k hk t ht))
  linarith

theorem total_le (hT : 0 ≤ T) {w J : ℕ → ℝ → ℝ} (h : Integrates T K w J) {b : ℝ} (hw : ∀ k < K, ∀ t ∈ Ico 0 T, w k t ≤ b)
    (Vf Vb : Matrix (Fin N) (Fin N) ℝ) (x : ℕ → ℝ → Fin N → ℝ) :
    total Vf Vb T K x J ≤ K * (T * b) + x 0 0 ⬝ᵥ Vf⁻¹ *ᵥ x 0 0 + x K 0 ⬝ᵥ Vb⁻¹ *ᵥ x K 0 := by
  unfold total
  have : ∑ k ∈ Finset.range K, J k T ≤ ∑ k ∈ Finset.range K, T * b :=
    Finset.sum_le_sum fun k hk => integrates_le hT h hw (Finset.mem_range.1 hk)
  rw [Finset.sum_const, Finset.card_range, nsmul_eq_mul] at this
  linarith

theorem integrates_const_zero : Integrates T K (fun _ _ => (0 : ℝ)) fun _ _ => 0 :=
  ⟨fun _ _ => rfl, fun _ _ => continuousOn_const, fun _ _ t _ => hasDerivWithinAt_const t _ _⟩

theorem integrates_congr {w w' J : ℕ → ℝ → ℝ} (h : Integrates T K w J) (hw : ∀ k < K, ∀ t ∈ Ico 0 T, w k t = w' k t) :
    Integrates T K w' J :=
  ⟨h.start, h.cont, fun k hk t ht => (h.deriv k hk t ht).congr_deriv (hw k hk t ht)⟩

end

variable {M : ℕ} {dc : DC ℝ M}

/-- the contribution of a control whose waveforms start at the updates -/
theorem contribution_eq (hd : dc.tDelay = 0) (h0 : ∀ m, (dc.ir m).t0 = 0) {st : State ℝ M} {v : Fin M → ℝ} (hst : st.cur = v)
    {t : ℝ} (ht : t ∈ Ico 0 dc.T) : contribution dc st t = fun m => (dc.ir m).f t * v m := by
  funext m
  unfold contribution
  rw [h0, if_neg (not_lt.2 ht.1), hd, if_neg (not_lt.2 ht.1), hst]

variable {N L : ℕ} {c : Coeffs ℝ N M L}

theorem fSum_sub (v v' : ℕ → Fin M → ℝ) (k : ℕ) : fSum c (fun k => v k - v' k) k = fSum c v k - fSum c v' k := by
  unfold fSum
  simp only [mulVec_sub, Finset.sum_sub_distrib]

theorem bSum_sub (K : ℕ) (v v' : ℕ → Fin M → ℝ) (k : ℕ) : bSum c K (fun k => v k - v' k) k = bSum c K v k - bSum c K v' k := by
  unfold bSum
  simp only [mulVec_sub, Finset.sum_sub_distrib]

end Cbadc.Filter
