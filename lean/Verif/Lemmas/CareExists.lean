import Verif.Lemmas.Decay
import Verif.Lemmas.Riccati
import Mathlib.LinearAlgebra.FiniteDimensional.Basic
import Mathlib.LinearAlgebra.Matrix.FiniteDimensional
import Mathlib.Topology.Order.MonotoneConvergence

/-! # Existence of the stabilising solution of a Riccati equation (Newton's iteration) -/

namespace Cbadc.Filter

open Matrix Set Filter.Spec
open scoped ComplexOrder

variable {N P : ℕ}

/-! ### Lyapunov equations -/

theorem lyap_zero {F X : Matrix (Fin N) (Fin N) ℝ} (hF : Hurwitz F) (h : Fᵀ * X + X * F = 0) : X = 0 := by
  have hc : ∀ t : ℝ, (NormedSpace.exp (t • F))ᵀ * X * NormedSpace.exp (t • F) = X := by
    intro t
    let _ : NormedRing (Matrix (Fin N) (Fin N) ℝ) := Matrix.linftyOpNormedRing
    let _ : NormedAlgebra ℝ (Matrix (Fin N) (Fin N) ℝ) := Matrix.linftyOpNormedAlgebra
    let _ : NormedAlgebra ℚ (Matrix (Fin N) (Fin N) ℝ) := NormedAlgebra.restrictScalars ℚ ℝ _
    have hs : SemiconjBy X (t • F) (-(t • Fᵀ)) := by
      show X * (t • F) = -(t • Fᵀ) * X
      rw [Matrix.mul_smul, Matrix.neg_mul, Matrix.smul_mul, ← smul_neg, eq_neg_of_add_eq_zero_right h]
    have := hs.exp_neg_mul_mul_exp_eq_self
    rw [neg_neg] at this
    rw [← Matrix.exp_transpose, transpose_smul]
    exact this
  have hd := hurwitz_decay hF
  have hl : Filter.Tendsto (fun t : ℝ => (NormedSpace.exp (t • F))ᵀ * X * NormedSpace.exp (t • F)) Filter.atTop (nhds (0ᵀ * X * 0)) := by
    have h1 := ((continuous_id.matrix_transpose (X := Matrix (Fin N) (Fin N) ℝ)).tendsto 0).comp hd
    exact (h1.mul tendsto_const_nhds).mul hd
  rw [Matrix.mul_zero] at hl
  exact tendsto_nhds_unique (tendsto_const_nhds (x := X) (f := Filter.atTop (α := ℝ))) (hl.congr hc)

/-- A Lyapunov equation of a stable matrix has a solution, which is symmetric and nonnegative if the right hand side is. -/
theorem lyap_exists {F Y : Matrix (Fin N) (Fin N) ℝ} (hF : Hurwitz F) (hY : Y.PosSemidef) :
    ∃ X, Fᵀ * X + X * F = -Y ∧ Xᵀ = X ∧ X.PosSemidef := by
  let f : Matrix (Fin N) (Fin N) ℝ →ₗ[ℝ] Matrix (Fin N) (Fin N) ℝ :=
    { toFun := fun X => Fᵀ * X + X * F
      map_add' := fun X Z => by rw [Matrix.mul_add, Matrix.add_mul]; abel
      map_smul' := fun c X => by rw [Matrix.mul_smul, Matrix.smul_mul, ← smul_add]; rfl }
  have hinj : Function.Injective f := by
    rw [← LinearMap.ker_eq_bot, LinearMap.ker_eq_bot']
    exact fun X hX => lyap_zero hF hX
  obtain ⟨X, hX⟩ := LinearMap.surjective_of_injective hinj (-Y)
  have hX' : Fᵀ * X + X * F = -Y := hX
  have hYt : Yᵀ = Y := by simpa [conjTranspose_eq_transpose_of_trivial] using hY.1.eq
  have hs : Xᵀ = X := by
    refine hinj ?_
    show Fᵀ * Xᵀ + Xᵀ * F = Fᵀ * X + X * F
    have := congrArg transpose hX'
    rw [transpose_add, transpose_mul, transpose_mul, transpose_transpose, transpose_neg, hYt, ← hX'] at this
    rw [← this, add_comm]
  refine ⟨X, hX', hs, ?_⟩
  have hc : IsCare F (0 : Matrix (Fin N) (Fin N) ℝ) Y 1 X := by
    refine ⟨?_, hs⟩
    rw [hX']
    simp
  refine care_nonneg hc hY PosDef.one ?_
  simpa using hurwitz_decay hF

/-- The right hand side of a Lyapunov equation vanishes on eigenvectors that do not decay. -/
theorem lyap_eig {F X Y : Matrix (Fin N) (Fin N) ℝ} (h : Fᵀ * X + X * F = -Y) (hX : X.PosSemidef) (hY : Y.PosSemidef)
    {μ : ℂ} {x : Fin N → ℂ} (he : cc F *ᵥ x = μ • x) (hμ : 0 ≤ μ.re) : star x ⬝ᵥ cc Y *ᵥ x = 0 := by
  have e := congrArg (fun Z => star x ⬝ᵥ cc Z *ᵥ x) h
  simp only [cc_add, cc_mul, cc_neg, add_mulVec, ← mulVec_mulVec, neg_mulVec, dotProduct_add, dotProduct_neg, he] at e
  have e1 : star x ⬝ᵥ cc Fᵀ *ᵥ (cc X *ᵥ x) = star μ * (star x ⬝ᵥ cc X *ᵥ x) := by
    rw [dotProduct_mulVec, cc_transpose, ← cc_conjTranspose, ← star_mulVec, he, star_smul, smul_dotProduct, smul_eq_mul]
  rw [e1, mulVec_smul, dotProduct_smul, smul_eq_mul, ← add_mul] at e
  have n1 := (ccPSD hX).dotProduct_mulVec_nonneg x
  have n2 := (ccPSD hY).dotProduct_mulVec_nonneg x
  have hs : 0 ≤ star μ + μ := by
    rw [Complex.nonneg_iff]
    simp
    linarith
  have h3 := mul_nonneg hs n1
  rw [e] at h3
  exact le_antisymm (neg_nonneg.1 h3) n2

theorem psd_add_zero {Y Z : Matrix (Fin N) (Fin N) ℝ} (hY : Y.PosSemidef) (hZ : Z.PosSemidef) {x : Fin N → ℂ}
    (h : star x ⬝ᵥ cc (Y + Z) *ᵥ x = 0) : star x ⬝ᵥ cc Y *ᵥ x = 0 ∧ star x ⬝ᵥ cc Z *ᵥ x = 0 := by
  rw [cc_add, add_mulVec, dotProduct_add] at h
  exact (add_eq_zero_iff_of_nonneg ((ccPSD hY).dotProduct_mulVec_nonneg x) ((ccPSD hZ).dotProduct_mulVec_nonneg x)).1 h

/-- `S g S` for symmetric `S` -/
theorem conj_psd {g S : Matrix (Fin N) (Fin N) ℝ} (hg : g.PosSemidef) (hS : Sᵀ = S) : (S * g * S).PosSemidef := by
  have := hg.mul_mul_conjTranspose_same S
  rwa [conjTranspose_eq_transpose_of_trivial, hS] at this

theorem conj_zero {g S : Matrix (Fin N) (Fin N) ℝ} (hg : g.PosSemidef) (hS : Sᵀ = S) {x : Fin N → ℂ}
    (h : star x ⬝ᵥ cc (S * g * S) *ᵥ x = 0) : cc g *ᵥ (cc S *ᵥ x) = 0 := by
  refine ((ccPSD hg).dotProduct_mulVec_zero_iff _).1 ?_
  rw [star_mulVec, cc_conjTranspose, ← cc_transpose, hS, ← dotProduct_mulVec, mulVec_mulVec, mulVec_mulVec, ← cc_mul, ← cc_mul]
  exact h

/-! ### Newton's iteration -/

/-- What all iterates have in common. -/
structure Iterate (A g Q V : Matrix (Fin N) (Fin N) ℝ) : Prop where
  symm : Vᵀ = V
  nonneg : V.PosSemidef
  stable : Hurwitz (A - g * V)
  defect : ∃ D, D.PosSemidef ∧ (A - g * V)ᵀ * V + V * (A - g * V) = -(Q + V * g * V + D)

section
variable {A g Q : Matrix (Fin N) (Fin N) ℝ}

theorem newton_step (hg : g.PosSemidef) (hQ : Q.PosSemidef) {V : Matrix (Fin N) (Fin N) ℝ} (hV : Vᵀ = V)
    (hF : Hurwitz (A - g * V)) :
    ∃ W, Iterate A g Q W ∧ (A - g * V)ᵀ * W + W * (A - g * V) = -(Q + V * g * V) ∧
      (Iterate A g Q V → (V - W).PosSemidef) := by
  have hgt : gᵀ = g := by simpa [conjTranspose_eq_transpose_of_trivial] using hg.1.eq
  obtain ⟨W, h1, h2, h3⟩ := lyap_exists hF (hQ.add (conj_psd hg hV))
  have hD : (V - W)ᵀ = V - W := by rw [transpose_sub, hV, h2]
  have hDp := conj_psd hg hD
  have e : (A - g * W)ᵀ * W + W * (A - g * W) = -(Q + W * g * W + (V - W) * g * (V - W)) := by
    have : (A - g * W)ᵀ * W + W * (A - g * W) = ((A - g * V)ᵀ * W + W * (A - g * V)) + ((V - W) * g * W + W * g * (V - W)) := by
      simp only [transpose_sub, transpose_mul, hgt, h2, hV, Matrix.mul_sub, Matrix.sub_mul, Matrix.mul_assoc]
      abel
    rw [this, h1]
    simp only [Matrix.mul_sub, Matrix.sub_mul, Matrix.mul_assoc]
    abel
  refine ⟨W, ⟨h2, h3, ?_, _, hDp, e⟩, h1, fun hI => ?_⟩
  · intro μ x hx he
    by_contra hn
    have he' : cc (A - g * W) *ᵥ x = μ • x := he
    have z := lyap_eig e h3 ((hQ.add (conj_psd hg h2)).add hDp) he' (not_lt.1 hn)
    have z2 := conj_zero hg hD (psd_add_zero (hQ.add (conj_psd hg h2)) hDp z).2
    refine hn (hF μ x hx ?_)
    show cc (A - g * V) *ᵥ x = μ • x
    have : A - g * V = (A - g * W) - g * (V - W) := by rw [Matrix.mul_sub]; abel
    rw [this, cc_sub, sub_mulVec, he', cc_mul, ← mulVec_mulVec, z2, sub_zero]
  · obtain ⟨D, hDn, hDe⟩ := hI.defect
    have e2 : (A - g * V)ᵀ * (V - W) + (V - W) * (A - g * V) = -D := by
      have : (A - g * V)ᵀ * (V - W) + (V - W) * (A - g * V) =
          ((A - g * V)ᵀ * V + V * (A - g * V)) - ((A - g * V)ᵀ * W + W * (A - g * V)) := by
        simp only [Matrix.mul_sub, Matrix.sub_mul]
        abel
      rw [this, h1, hDe]
      abel
    obtain ⟨X, x1, -, x3⟩ := lyap_exists hF hDn
    have : V - W - X = 0 := by
      refine lyap_zero hF ?_
      have : (A - g * V)ᵀ * (V - W - X) + (V - W - X) * (A - g * V) =
          ((A - g * V)ᵀ * (V - W) + (V - W) * (A - g * V)) - ((A - g * V)ᵀ * X + X * (A - g * V)) := by
        simp only [Matrix.mul_sub, Matrix.sub_mul]
        abel
      rw [this, e2, x1, sub_self]
    rw [sub_eq_zero.1 this]
    exact x3

/-- The limit of a decreasing sequence of nonnegative matrices. -/
theorem psd_limit {V : ℕ → Matrix (Fin N) (Fin N) ℝ} (hs : ∀ k, (V k)ᵀ = V k) (hp : ∀ k, (V k).PosSemidef)
    (hd : ∀ k, (V k - V (k + 1)).PosSemidef) :
    ∃ L, Filter.Tendsto V Filter.atTop (nhds L) ∧ Lᵀ = L ∧ L.PosSemidef := by
  have hq : ∀ x : Fin N → ℝ, ∃ l, Filter.Tendsto (fun k => x ⬝ᵥ V k *ᵥ x) Filter.atTop (nhds l) := by
    intro x
    refine ⟨_, tendsto_atTop_ciInf (antitone_nat_of_succ_le fun k => ?_) ⟨0, ?_⟩⟩
    · have := (hd k).dotProduct_mulVec_nonneg x
      rw [star_trivial, sub_mulVec, dotProduct_sub] at this
      linarith
    · rintro _ ⟨k, rfl⟩
      have := (hp k).dotProduct_mulVec_nonneg x
      rwa [star_trivial] at this
  choose q hq using hq
  have hij : ∀ k i j, V k i j = ((Pi.single i 1 + Pi.single j 1) ⬝ᵥ V k *ᵥ (Pi.single i 1 + Pi.single j 1) -
      (Pi.single i 1) ⬝ᵥ V k *ᵥ (Pi.single i 1) - (Pi.single j 1) ⬝ᵥ V k *ᵥ (Pi.single j 1)) / 2 := by
    intro k i j
    have : V k j i = V k i j := congrFun (congrFun (hs k) i) j
    simp only [mulVec_add, add_dotProduct, dotProduct_add, mulVec_single_one, single_one_dotProduct, Matrix.col_apply]
    rw [this]
    ring
  let L : Matrix (Fin N) (Fin N) ℝ := Matrix.of fun i j =>
    (q (Pi.single i 1 + Pi.single j 1) - q (Pi.single i 1) - q (Pi.single j 1)) / 2
  have hL : Filter.Tendsto V Filter.atTop (nhds L) := by
    refine tendsto_pi_nhds.2 fun i => tendsto_pi_nhds.2 fun j => ?_
    have := (((hq (Pi.single i 1 + Pi.single j 1)).sub (hq (Pi.single i 1))).sub (hq (Pi.single j 1))).div_const 2
    exact this.congr fun k => (hij k i j).symm
  have hLs : Lᵀ = L := by
    refine tendsto_nhds_unique (((continuous_id.matrix_transpose (X := Matrix (Fin N) (Fin N) ℝ)).tendsto L).comp hL) ?_
    exact hL.congr fun k => (hs k).symm
  refine ⟨L, hL, hLs, .of_dotProduct_mulVec_nonneg ?_ fun x => ?_⟩
  · rw [IsHermitian, conjTranspose_eq_transpose_of_trivial, hLs]
  · rw [star_trivial]
    have hc : Continuous fun M : Matrix (Fin N) (Fin N) ℝ => x ⬝ᵥ M *ᵥ x :=
      continuous_const.dotProduct (continuous_id.matrix_mulVec continuous_const)
    refine ge_of_tendsto ((hc.tendsto L).comp hL) (Filter.Eventually.of_forall fun k => ?_)
    have := (hp k).dotProduct_mulVec_nonneg x
    rwa [star_trivial] at this

theorem newton_limit (hg : g.PosSemidef) (hQ : Q.PosSemidef) (oQ : Observable Q A) {V₀ : Matrix (Fin N) (Fin N) ℝ}
    (hV : V₀ᵀ = V₀) (hF : Hurwitz (A - g * V₀)) :
    ∃ V, Vᵀ = V ∧ Aᵀ * V + V * A - V * g * V + Q = 0 ∧ Hurwitz (A - g * V) := by
  have hgt : gᵀ = g := by simpa [conjTranspose_eq_transpose_of_trivial] using hg.1.eq
  obtain ⟨V₁, i₁, -, -⟩ := newton_step hg hQ hV hF
  have hstep : ∀ V : {V // Iterate A g Q V}, ∃ W : {V // Iterate A g Q V},
      (A - g * V.1)ᵀ * W.1 + W.1 * (A - g * V.1) = -(Q + V.1 * g * V.1) ∧ (V.1 - W.1).PosSemidef := by
    rintro ⟨V, hI⟩
    obtain ⟨W, h1, h2, h3⟩ := newton_step hg hQ hI.symm hI.stable
    exact ⟨⟨W, h1⟩, h2, h3 hI⟩
  choose nx hn1 hn2 using hstep
  let V : ℕ → {V // Iterate A g Q V} := fun k => nx^[k] ⟨V₁, i₁⟩
  have hVs : ∀ k, V (k + 1) = nx (V k) := fun k => Function.iterate_succ_apply' nx k _
  obtain ⟨L, hL, hLs, hLp⟩ := psd_limit (V := fun k => (V k).1) (fun k => (V k).2.symm) (fun k => (V k).2.nonneg)
    (fun k => by rw [hVs]; exact hn2 _)
  have hL1 : Filter.Tendsto (fun k => (V (k + 1)).1) Filter.atTop (nhds L) := (Filter.tendsto_add_atTop_iff_nat 1).2 hL
  have hcl : Filter.Tendsto (fun k => A - g * (V k).1) Filter.atTop (nhds (A - g * L)) :=
    tendsto_const_nhds.sub (tendsto_const_nhds.mul hL)
  have hclt : Filter.Tendsto (fun k => (A - g * (V k).1)ᵀ) Filter.atTop (nhds (A - g * L)ᵀ) :=
    ((continuous_id.matrix_transpose (X := Matrix (Fin N) (Fin N) ℝ)).tendsto _).comp hcl
  have hlhs := (hclt.mul hL1).add (hL1.mul hcl)
  have hrhs : Filter.Tendsto (fun k => -(Q + (V k).1 * g * (V k).1)) Filter.atTop (nhds (-(Q + L * g * L))) :=
    (tendsto_const_nhds.add ((hL.mul tendsto_const_nhds).mul hL)).neg
  have e : (A - g * L)ᵀ * L + L * (A - g * L) = -(Q + L * g * L) :=
    tendsto_nhds_unique hlhs (hrhs.congr fun k => by rw [hVs]; exact (hn1 _).symm)
  refine ⟨L, hLs, ?_, ?_⟩
  · have : (A - g * L)ᵀ * L + L * (A - g * L) = Aᵀ * L + L * A - L * g * L - L * g * L := by
      simp only [transpose_sub, transpose_mul, hgt, hLs, Matrix.mul_sub, Matrix.sub_mul, Matrix.mul_assoc]
      abel
    rw [this] at e
    have h2 : Aᵀ * L + L * A - L * g * L + Q = (Aᵀ * L + L * A - L * g * L - L * g * L) + (Q + L * g * L) := by abel
    rw [h2, e, neg_add_cancel]
  · intro μ x hx he
    by_contra hn
    have he' : cc (A - g * L) *ᵥ x = μ • x := he
    have z := lyap_eig e hLp (hQ.add (conj_psd hg hLs)) he' (not_lt.1 hn)
    obtain ⟨z1, z2⟩ := psd_add_zero hQ (conj_psd hg hLs) z
    have z1' := ((ccPSD hQ).dotProduct_mulVec_zero_iff _).1 z1
    have z2' := conj_zero hg hLs z2
    refine oQ μ x hx ?_ z1'
    show cc A *ᵥ x = μ • x
    rw [cc_sub, sub_mulVec, cc_mul, ← mulVec_mulVec, z2', sub_zero] at he'
    exact he'

end

/-! ### A first stabilising matrix -/

theorem shift_hurwitz (A : Matrix (Fin N) (Fin N) ℝ) : ∃ b : ℝ, 0 < b ∧ Hurwitz (-(A + b • 1)) := by
  let _ : NormedRing (Matrix (Fin N) (Fin N) ℂ) := Matrix.linftyOpNormedRing
  refine ⟨‖cc A‖ + 1, by positivity, fun μ x hx he => ?_⟩
  have he' : cc (-(A + (‖cc A‖ + 1) • 1)) *ᵥ x = μ • x := he
  rw [cc_neg, cc_add, cc_smul, cc_one, neg_mulVec, add_mulVec, smul_mulVec, one_mulVec] at he'
  have h1 : cc A *ᵥ x = (-μ - ((‖cc A‖ + 1 : ℝ) : ℂ)) • x := by
    rw [sub_smul, neg_smul, ← he', neg_neg, add_sub_cancel_right]
  have h2 := Matrix.linfty_opNorm_mulVec (cc A) x
  rw [h1, norm_smul] at h2
  have h3 := le_of_mul_le_mul_right h2 (norm_pos_iff.2 hx)
  by_contra hn
  have h5 := (Complex.abs_re_le_norm _).trans h3
  have h6 := (abs_le.1 h5).1
  simp at h6
  linarith

theorem first_stabilising {A g : Matrix (Fin N) (Fin N) ℝ} (hg : g.PosSemidef) (o : Observable g Aᵀ) :
    ∃ V : Matrix (Fin N) (Fin N) ℝ, Vᵀ = V ∧ Hurwitz (A - g * V) := by
  have hgt : gᵀ = g := by simpa [conjTranspose_eq_transpose_of_trivial] using hg.1.eq
  obtain ⟨b, hb, hF⟩ := shift_hurwitz Aᵀ
  obtain ⟨W, h1, h2, h3⟩ := lyap_exists hF (hg.add hg)
  have hW : W.PosDef := by
    have hc : IsCare (-(Aᵀ + b • 1)) (0 : Matrix (Fin N) (Fin N) ℝ) (g + g) 1 W := by
      refine ⟨?_, h2⟩
      rw [h1]
      simp
    refine care_posDef hc (hg.add hg) h3 fun μ x hx he h0 => ?_
    have he' : cc (-(Aᵀ + b • 1)) *ᵥ x = μ • x := he
    have h0' : cc (g + g) *ᵥ x = 0 := h0
    rw [cc_neg, cc_add, cc_smul, cc_one, neg_mulVec, add_mulVec, smul_mulVec, one_mulVec] at he'
    refine o (-μ - (b : ℂ)) x hx ?_ ?_
    · show cc Aᵀ *ᵥ x = _
      rw [sub_smul, neg_smul, ← he', neg_neg, add_sub_cancel_right]
    · show cc g *ᵥ x = 0
      rw [cc_add, add_mulVec, ← two_smul ℂ] at h0'
      exact (smul_eq_zero.1 h0').resolve_left two_ne_zero
  have hu : IsUnit W.det := hW.det_pos.ne'.isUnit
  refine ⟨W⁻¹, by rw [transpose_nonsing_inv, h2], ?_⟩
  have e : ((A - g * W⁻¹)ᵀ)ᵀ * W + W * (A - g * W⁻¹)ᵀ = -(b • W + b • W) := by
    rw [transpose_transpose, Matrix.sub_mul, Matrix.mul_assoc, nonsing_inv_mul _ hu, Matrix.mul_one, transpose_sub, transpose_mul,
      transpose_nonsing_inv, h2, hgt, Matrix.mul_sub, ← Matrix.mul_assoc, mul_nonsing_inv _ hu, Matrix.one_mul]
    rw [transpose_neg, transpose_add, transpose_transpose, transpose_smul, transpose_one, Matrix.neg_mul, Matrix.mul_neg, Matrix.add_mul,
      Matrix.mul_add, Matrix.smul_mul, Matrix.mul_smul, Matrix.one_mul, Matrix.mul_one, ← neg_add, neg_inj] at h1
    have : A * W - g + (W * Aᵀ - g) = (A * W + b • W + (W * Aᵀ + b • W)) - (g + g) - (b • W + b • W) := by abel
    rw [this, h1]
    abel
  have hbW : (b • W).PosDef := hW.smul hb
  intro μ x hx he
  by_contra hn
  -- an eigenvector of the transposed matrix with the same eigenvalue
  have he' : cc (A - g * W⁻¹) *ᵥ x = μ • x := he
  have hd : (cc (A - g * W⁻¹) - μ • 1).det = 0 := by
    refine exists_mulVec_eq_zero_iff.1 ⟨x, hx, ?_⟩
    rw [sub_mulVec, he', smul_mulVec, one_mulVec, sub_self]
  have hd' : ((cc (A - g * W⁻¹))ᵀ - μ • 1).det = 0 := by
    rw [← hd, ← det_transpose, transpose_sub, transpose_smul, transpose_one, transpose_transpose]
  obtain ⟨y, hy, hy0⟩ := exists_mulVec_eq_zero_iff.2 hd'
  have hy1 : cc (A - g * W⁻¹)ᵀ *ᵥ y = μ • y := by
    rw [sub_mulVec, smul_mulVec, one_mulVec] at hy0
    exact sub_eq_zero.1 hy0
  have z := lyap_eig e h3 (hbW.posSemidef.add hbW.posSemidef) hy1 (not_lt.1 hn)
  have z2 := (psd_add_zero hbW.posSemidef hbW.posSemidef z).1
  have z3 := ((ccPSD hbW.posSemidef).dotProduct_mulVec_zero_iff _).1 z2
  have hu' : IsUnit (b • W).det := hbW.det_pos.ne'.isUnit
  have z4 := congrArg (cc (b • W)⁻¹ *ᵥ ·) z3
  simp only [mulVec_mulVec, ← cc_mul, nonsing_inv_mul _ hu', cc_one, one_mulVec, mulVec_zero] at z4
  exact hy z4

/-- The Riccati equation has a stabilising solution if all states can be controlled and all states are penalised. -/
theorem care_exists {A : Matrix (Fin N) (Fin N) ℝ} {B : Matrix (Fin N) (Fin P) ℝ} {Q : Matrix (Fin N) (Fin N) ℝ}
    {R : Matrix (Fin P) (Fin P) ℝ} (hQ : Q.PosSemidef) (hR : R.PosDef) (oQ : Observable Q A) (oB : Observable Bᵀ Aᵀ) :
    ∃ V, IsStabilising A B Q R V := by
  have hg := ccG_psd (B := B) hR
  obtain ⟨V₀, h1, h2⟩ := first_stabilising (A := A) hg fun μ x hx he h0 => oB μ x hx he (ccG_zero hR h0)
  obtain ⟨V, h3, h4, h5⟩ := newton_limit hg hQ oQ h1 h2
  exact ⟨V, ⟨by rw [care_reassoc]; exact h4, h3⟩, h5⟩

end Cbadc.Filter
