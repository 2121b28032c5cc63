import Mathlib.LinearAlgebra.Matrix.PosDef
import Mathlib.Algebra.Order.BigOperators.Group.Finset
import Mathlib.Tactic.Linarith
import Verif.Lemmas.FilterSampling

/-! # The estimator solves a least squares problem -/

namespace Cbadc.Filter

open Matrix Set Filter.Spec Cbadc.Analog Cbadc.Control Cbadc.Estimator

section
variable {N L P : ℕ} {C : Matrix (Fin P) (Fin N) ℝ} {eta2 T : ℝ}

theorem integrates_nonneg (hT : 0 ≤ T) {K : ℕ} {w J : ℕ → ℝ → ℝ} (h : Integrates T K w J) (hw : ∀ k < K, ∀ t ∈ Ico 0 T, 0 ≤ w k t) {k : ℕ}
    (hk : k < K) : 0 ≤ J k T := nonneg_of_deriv hT (h.start k hk) (h.cont k hk) (h.deriv k hk) (hw k hk)

theorem integrates_zero {J w : ℝ → ℝ} (h0 : J 0 = 0) (hc : ContinuousOn J (Icc 0 T))
    (hd : ∀ t ∈ Ico 0 T, HasDerivWithinAt J (w t) (Ici t) t) (hw : ∀ t ∈ Ico 0 T, 0 ≤ w t) (hJ : J T = 0) :
    ∀ t ∈ Ico 0 T, w t = 0 := by
  have hz : ∀ t ∈ Icc 0 T, J t = 0 := by
    intro t ht
    refine le_antisymm ?_ ?_
    · have h := image_le_of_deriv_right_le_deriv_boundary (f := fun r => -J r) (f' := fun r => -w r) (a := t) (b := T)
        (B := fun _ => -J t) (B' := fun _ => 0) (hc.mono (Icc_subset_Icc_left ht.1)).neg
        (fun r hr => (hd r ⟨ht.1.trans hr.1, hr.2⟩).neg) le_rfl continuousOn_const (fun r _ => (hasDerivWithinAt_const r _ _))
        (fun r hr => by have := hw r ⟨ht.1.trans hr.1, hr.2⟩; linarith) (x := T) ⟨ht.2, le_refl _⟩
      rw [hJ] at h
      linarith
    · exact nonneg_of_deriv ht.1 h0 (hc.mono (Icc_subset_Icc_right ht.2))
        (fun r hr => hd r ⟨hr.1, hr.2.trans_le ht.2⟩) (fun r hr => hw r ⟨hr.1, hr.2.trans_le ht.2⟩)
  intro t ht
  have h1 : HasDerivWithinAt J 0 (Ico t T) t :=
    (hasDerivWithinAt_const t (Ico t T) (0 : ℝ)).congr (fun r hr => hz r ⟨ht.1.trans hr.1, hr.2.le⟩) (hz t ⟨ht.1, ht.2.le⟩)
  have h2 := (hd t ht).mono (s := Ico t T) fun r hr => hr.1
  exact (uniqueDiffOn_Ico t T t ⟨le_refl _, ht.2⟩).eq_deriv _ h2 h1

theorem power_zero (he : 0 < eta2) {u : Fin L → ℝ} {x : Fin N → ℝ} (h : power C eta2 u x = 0) : u = 0 := by
  have hn : ∀ {n : ℕ} (z : Fin n → ℝ), 0 ≤ z ⬝ᵥ z := fun z => Finset.sum_nonneg fun i _ => mul_self_nonneg _
  have h1 : 0 ≤ (1 / eta2) * ((C *ᵥ x) ⬝ᵥ (C *ᵥ x)) := mul_nonneg (by positivity) (hn _)
  have h2 : u ⬝ᵥ u = 0 := by
    have := hn u
    unfold power at h
    linarith
  exact dotProduct_self_eq_zero.1 h2

theorem quad_nonneg {V : Matrix (Fin N) (Fin N) ℝ} (h : V.PosDef) (x : Fin N → ℝ) : 0 ≤ x ⬝ᵥ V⁻¹ *ᵥ x := by
  have := h.inv.posSemidef.dotProduct_mulVec_nonneg x
  simpa using this

theorem Spec.Explains.congr {A : Matrix (Fin N) (Fin N) ℝ} {B : Matrix (Fin N) (Fin L) ℝ} {q q' : ℕ → ℝ → Fin N → ℝ} {K : ℕ}
    {u : ℕ → ℝ → Fin L → ℝ} {x : ℕ → ℝ → Fin N → ℝ} (h : Explains A B q T K u x)
    (hq : ∀ k < K, ∀ t ∈ Ico 0 T, q k t = q' k t) : Explains A B q' T K u x :=
  ⟨fun k hk => (h.flow k hk).congr fun t ht => by rw [hq k hk t ht], h.join⟩

end

/-- one horizon: the explanation given by the filters, and the price of every other explanation -/
theorem numerical_pythagoras {M : ℕ} {g : Sys ℝ} {G : ℕ → ℕ → ℝ} {dc : DC ℝ M} {eta2 : ℝ}
    {Vf Vb : Matrix (Fin g.N) (Fin g.N) ℝ} {c : Coeffs ℝ g.N M g.L} (h : Numerical g G dc eta2 Vf Vb c)
    (he : 0 < eta2) (hT : 0 ≤ dc.T) (pf : Vf.PosDef) (pb : Vb.PosDef) (K : ℕ) (v : ℕ → Fin M → ℝ) :
    ∃ uh xh Jh, Explains (toM g.N g.N g.A) (toM g.N g.L g.B) (fun k t => toM g.N M G *ᵥ fun m => (dc.ir m).f t * v k m) dc.T K uh xh ∧
      Integrates dc.T K (fun k t => power (toM g.Nt g.N g.CT) eta2 (uh k t) (xh k t)) Jh ∧
      (∀ u x J, Explains (toM g.N g.N g.A) (toM g.N g.L g.B) (fun k t => toM g.N M G *ᵥ fun m => (dc.ir m).f t * v k m) dc.T K u x →
        Integrates dc.T K (fun k t => power (toM g.Nt g.N g.CT) eta2 (u k t) (x k t)) J →
        ∃ E, Integrates dc.T K (fun k t => power (toM g.Nt g.N g.CT) eta2 (u k t - uh k t) (x k t - xh k t)) E ∧
          total Vf Vb dc.T K x J = total Vf Vb dc.T K xh Jh + total Vf Vb dc.T K (fun k t => x k t - xh k t) E) ∧
      ∀ k ≤ K, uh k 0 = c.WT *ᵥ (bSum c K v k - fSum c v k) := by
  have hVf := (Matrix.isUnit_iff_isUnit_det _).1 pf.isUnit
  have hVb := (Matrix.isUnit_iff_isUnit_det _).1 pb.isUnit
  have hV := (Matrix.isUnit_iff_isUnit_det _).1 (pf.add pb).isUnit
  have hf := fun k => forward_period h.common h.regular (v k) (fSum c v k)
  have hb := fun k => backward_period h.common h.regular (v k) (bSum c K v (k + 1))
  choose f Ff f0 f1 using hf
  choose b0 Fb0 b1 b00 using hb
  obtain ⟨b, hbdef⟩ : ∃ b : ℕ → ℝ → Fin g.N → ℝ, b = fun k => if k < K then b0 k else 0 := ⟨_, rfl⟩
  have hbk : ∀ k < K, b k = b0 k := fun k hk => by rw [hbdef]; exact if_pos hk
  have hbs : ∀ k ≤ K, b k 0 = bSum c K v k := by
    intro k hk
    rcases hk.lt_or_eq with hk | rfl
    · rw [hbk k hk, b00, bSum_succ c K v hk]
    · rw [hbdef, bSum_end]
      simp
  have hric := h.cares.riccati
  have hWT := h.common.WT_eq h.cares.f.symm h.cares.b.symm hV
  obtain ⟨hE, Jh, hJ, hP⟩ := least_squares (cct_eq (g := g) he.ne') hV hVf hVb h.cares.f.symm h.cares.b.symm hric.1 hric.2 hT K
      (fun k _ => Ff k) (fun k hk => by rw [hbk k hk]; exact Fb0 k) (fun k _ => by rw [f1, f0, fSum_succ])
      (fun k hk => by rw [hbk k hk, b1, hbs (k + 1) hk]) (by rw [f0]; simp [fSum]) (by rw [hbs K le_rfl, bSum_end])
      (fun k t => (toM g.N g.L g.B)ᵀ *ᵥ costate Vf Vb (f k t) (b k t)) (fun k t => smooth Vf Vb (f k t) (b k t))
      (fun _ _ => rfl) (fun _ _ => rfl)
  refine ⟨_, _, Jh, hE, hJ, hP, fun k hk => ?_⟩
  show (toM g.N g.L g.B)ᵀ *ᵥ costate Vf Vb (f k 0) (b k 0) = _
  rw [costate, mulVec_mulVec, ← hWT, f0, hbs k hk]

/-- an integrated power with end costs is not negative -/
theorem total_nonneg {N : ℕ} {T : ℝ} {K : ℕ} {Vf Vb : Matrix (Fin N) (Fin N) ℝ} (hT : 0 ≤ T) (pf : Vf.PosDef) (pb : Vb.PosDef)
    {w J : ℕ → ℝ → ℝ} (h : Integrates T K w J) (hw : ∀ k < K, ∀ t ∈ Ico 0 T, 0 ≤ w k t) (x : ℕ → ℝ → Fin N → ℝ) :
    0 ≤ total Vf Vb T K x J :=
  add_nonneg (add_nonneg (Finset.sum_nonneg fun _ hk => integrates_nonneg hT h hw (Finset.mem_range.1 hk)) (quad_nonneg pf _))
    (quad_nonneg pb _)

/-- a power that costs nothing belongs to no input -/
theorem total_zero {N L P : ℕ} {C : Matrix (Fin P) (Fin N) ℝ} {eta2 T : ℝ} {K : ℕ} {Vf Vb : Matrix (Fin N) (Fin N) ℝ} (he : 0 < eta2)
    (hT : 0 ≤ T) (pf : Vf.PosDef) (pb : Vb.PosDef) {u : ℕ → ℝ → Fin L → ℝ} {x : ℕ → ℝ → Fin N → ℝ} {J : ℕ → ℝ → ℝ}
    (h : Integrates T K (fun k t => power C eta2 (u k t) (x k t)) J) (h0 : total Vf Vb T K x J ≤ 0) :
    ∀ k < K, ∀ t ∈ Ico 0 T, u k t = 0 := by
  intro k hk t ht
  have hnn : ∀ k < K, ∀ t ∈ Ico 0 T, (0 : ℝ) ≤ power C eta2 (u k t) (x k t) := fun k _ t _ => power_nonneg he _ _
  have hEn : ∀ k < K, 0 ≤ J k T := fun k hk => integrates_nonneg hT h hnn hk
  have q1 := quad_nonneg pf (x 0 0)
  have q2 := quad_nonneg pb (x K 0)
  have q3 : 0 ≤ ∑ k ∈ Finset.range K, J k T := Finset.sum_nonneg fun k hk => hEn k (Finset.mem_range.1 hk)
  unfold total at h0
  have hs : ∑ k ∈ Finset.range K, J k T = 0 := by linarith
  have hEk := (Finset.sum_eq_zero_iff_of_nonneg fun k hk => hEn k (Finset.mem_range.1 hk)).1 hs k (Finset.mem_range.2 hk)
  exact power_zero he (integrates_zero (h.start k hk) (h.cont k hk) (h.deriv k hk) (hnn k hk) hEk t ht)

/-- everything about one horizon -/
theorem numerical_least_squares {M : ℕ} {g : Sys ℝ} {G : ℕ → ℕ → ℝ} {dc : DC ℝ M} {eta2 : ℝ}
    {Vf Vb : Matrix (Fin g.N) (Fin g.N) ℝ} {c : Coeffs ℝ g.N M g.L} (h : Numerical g G dc eta2 Vf Vb c)
    (he : 0 < eta2) (hT : 0 ≤ dc.T) (pf : Vf.PosDef) (pb : Vb.PosDef) (K : ℕ) (v : ℕ → Fin M → ℝ) :
    ∃ uh, IsLeastSquares (toM g.N g.N g.A) (toM g.N g.L g.B) (toM g.Nt g.N g.CT) eta2 Vf Vb
        (fun k t => toM g.N M G *ᵥ fun m => (dc.ir m).f t * v k m) dc.T K uh ∧
      ∀ k ≤ K, uh k 0 = c.WT *ᵥ (bSum c K v k - fSum c v k) := by
  obtain ⟨uh, xh, Jh, hE, hJ, hP, hs⟩ := numerical_pythagoras h he hT pf pb K v
  refine ⟨uh, ⟨xh, Jh, hE, hJ, fun u x J hEx hI => ?_⟩, hs⟩
  obtain ⟨E, hE', heq⟩ := hP u x J hEx hI
  refine ⟨?_, fun hle k hk t ht => ?_⟩
  · rw [heq]
    exact le_add_of_nonneg_right (total_nonneg hT pf pb hE' (fun k _ t _ => power_nonneg he _ _) _)
  · rw [heq] at hle
    exact sub_eq_zero.1 (total_zero (u := fun k t => u k t - uh k t) (x := fun k t => x k t - xh k t) he hT pf pb hE' (by linarith) k hk t ht)

end Cbadc.Filter
