import Verif.Lemmas.FilterSampling
import Verif.Lemmas.TransferFunction
import Verif.Spec.Synthesis

/-! # Transfer function of the filters -/

namespace Cbadc.Filter

open Matrix Set Filter.Spec Cbadc.Analog Cbadc.Estimator Synthesis.Spec
open scoped ComplexOrder

/-- real matrices as complex ones -/
noncomputable def cc {n m : ℕ} (X : Matrix (Fin n) (Fin m) ℝ) : Matrix (Fin n) (Fin m) ℂ := X.map (fun a => (a : ℂ))

theorem cc_mul {n m k : ℕ} (X : Matrix (Fin n) (Fin m) ℝ) (Y : Matrix (Fin m) (Fin k) ℝ) : cc (X * Y) = cc X * cc Y :=
  Matrix.map_mul (f := Complex.ofRealHom)

theorem cc_add {n m : ℕ} (X Y : Matrix (Fin n) (Fin m) ℝ) : cc (X + Y) = cc X + cc Y := by ext; simp [cc]

theorem cc_sub {n m : ℕ} (X Y : Matrix (Fin n) (Fin m) ℝ) : cc (X - Y) = cc X - cc Y := by ext; simp [cc]

theorem cc_neg {n m : ℕ} (X : Matrix (Fin n) (Fin m) ℝ) : cc (-X) = -cc X := by ext; simp [cc]

theorem cc_zero {n m : ℕ} : cc (0 : Matrix (Fin n) (Fin m) ℝ) = 0 := by ext; simp [cc]

theorem cc_one {n : ℕ} : cc (1 : Matrix (Fin n) (Fin n) ℝ) = 1 := by
  ext i j; by_cases h : i = j <;> simp [cc, h, Matrix.one_apply]

theorem cc_smul {n m : ℕ} (a : ℝ) (X : Matrix (Fin n) (Fin m) ℝ) : cc (a • X) = (a : ℂ) • cc X := by ext; simp [cc]

theorem cc_transpose {n m : ℕ} (X : Matrix (Fin n) (Fin m) ℝ) : cc Xᵀ = (cc X)ᵀ := rfl

theorem cc_conjTranspose {n m : ℕ} (X : Matrix (Fin n) (Fin m) ℝ) : (cc X)ᴴ = (cc X)ᵀ := by
  ext i j; simp [cc, conjTranspose_apply]

/-- the transfer function of the pair of filters -/
theorem filter_transfer {N L P : ℕ} {A S Vf Vb : Matrix (Fin N) (Fin N) ℝ} {B : Matrix (Fin N) (Fin L) ℝ}
    {C : Matrix (Fin P) (Fin N) ℝ} {W : Matrix (Fin L) (Fin N) ℝ} {eta2 ω : ℝ} (he : 0 < eta2)
    (hS : S = (1 / eta2) • (Cᵀ * C)) (hV : IsUnit (Vf + Vb).det) (hW : W = Bᵀ * (Vf + Vb)⁻¹)
    (hf : A * Vf + Vf * Aᵀ - Vf * S * Vf + B * Bᵀ = 0) (hb : -A * Vb - Vb * Aᵀ - Vb * S * Vb + B * Bᵀ = 0)
    (hA : IsUnit ((jw ω) • (1 : Matrix (Fin N) (Fin N) ℂ) - cc A).det)
    {G : Matrix (Fin P) (Fin L) ℂ} (hG : G = cc C * (((jw ω) • (1 : Matrix (Fin N) (Fin N) ℂ) - cc A)⁻¹ * cc B))
    {u : Fin L → ℂ} {q x f b : Fin N → ℂ}
    (hx : Steady ω A (cc B *ᵥ u + q) x) (hxf : Steady ω (A - Vf * S) q f) (hxb : Steady ω (A + Vb * S) q b) :
    gram' eta2 G *ᵥ (cc W *ᵥ (b - f)) = Gᴴ *ᵥ (G *ᵥ u - cc C *ᵥ x) := by
  have hV1 : cc (Vf + Vb) * cc (Vf + Vb)⁻¹ = 1 := by rw [← cc_mul, mul_nonsing_inv _ hV, cc_one]
  have hV2 : cc (Vf + Vb)⁻¹ * cc (Vf + Vb) = 1 := by rw [← cc_mul, nonsing_inv_mul _ hV, cc_one]
  obtain ⟨l, hl⟩ : ∃ l, l = cc (Vf + Vb)⁻¹ *ᵥ (b - f) := ⟨_, rfl⟩
  have hVl : (cc Vf + cc Vb) *ᵥ l = b - f := by rw [← cc_add, hl, mulVec_mulVec, hV1, one_mulVec]
  have hu : cc W *ᵥ (b - f) = (cc B)ᵀ *ᵥ l := by rw [hW, cc_mul, ← mulVec_mulVec, ← hl, cc_transpose]
  have hf' := congrArg cc hf
  have hb' := congrArg cc hb
  simp only [cc_add, cc_sub, cc_mul, cc_neg, cc_zero, cc_transpose] at hf' hb'
  have r1 := riccati_costate hf' hb' hVl
  have r2 := riccati_state (f := f) (l := l) hf'
  unfold Steady at hx hxf hxb
  rw [show ∀ X : Matrix (Fin N) (Fin N) ℝ, X.map (fun a => (a : ℂ)) = cc X from fun _ => rfl] at hx hxf hxb
  rw [cc_sub, cc_mul] at hxf
  rw [cc_add, cc_mul] at hxb
  obtain ⟨xh, hxh⟩ : ∃ xh, xh = f + cc Vf *ᵥ l := ⟨_, rfl⟩
  rw [← hxh] at r1 r2
  have e1 : jw ω • l = cc S *ᵥ xh - (cc A)ᵀ *ᵥ l := by
    have h1 : cc (Vf + Vb) *ᵥ (jw ω • l) = cc (Vf + Vb) *ᵥ (cc S *ᵥ xh - (cc A)ᵀ *ᵥ l) := by
      rw [cc_add, ← r1, mulVec_smul, hVl, smul_sub]
      show (↑ω * Complex.I) • b - (↑ω * Complex.I) • f = _
      rw [hxb, hxf]; abel
    have h2 := congrArg (fun z => cc (Vf + Vb)⁻¹ *ᵥ z) h1
    simpa only [mulVec_mulVec, hV2, one_mulVec] using h2
  have e2 : jw ω • xh = cc A *ᵥ xh + (cc B *ᵥ ((cc B)ᵀ *ᵥ l) + q) := by
    have h1 : jw ω • f = (cc A - cc Vf * cc S) *ᵥ f + q := hxf
    rw [hxh, smul_add, ← mulVec_smul, e1, h1, ← hxh, mulVec_mulVec]
    linear_combination (exp := 1) r2
  obtain ⟨Z, hZ⟩ : ∃ Z, Z = (jw ω) • (1 : Matrix (Fin N) (Fin N) ℂ) - cc A := ⟨_, rfl⟩
  rw [← hZ] at hA hG
  have e3 : Z *ᵥ (xh - x) = cc B *ᵥ ((cc B)ᵀ *ᵥ l - u) := by
    have h1 : jw ω • x = cc A *ᵥ x + (cc B *ᵥ u + q) := hx
    rw [hZ, sub_mulVec, smul_mulVec, one_mulVec, smul_sub, e2, h1, mulVec_sub, mulVec_sub]
    abel
  have e4 : cc C *ᵥ (xh - x) = G *ᵥ ((cc B)ᵀ *ᵥ l - u) := by
    rw [hG, ← mulVec_mulVec, ← mulVec_mulVec, ← e3, mulVec_mulVec _ Z⁻¹, nonsing_inv_mul _ hA, one_mulVec]
  have hZH : Zᴴ *ᵥ l = -(cc S *ᵥ xh) := by
    have hj : star (jw ω) = -jw ω := by simp [jw, Complex.conj_ofReal]
    rw [hZ, conjTranspose_sub, conjTranspose_smul, conjTranspose_one, cc_conjTranspose, hj, sub_mulVec, smul_mulVec,
      one_mulVec, neg_smul, e1]
    abel
  have hSx : cc S *ᵥ xh = ((1 / eta2 : ℝ) : ℂ) • ((cc C)ᵀ *ᵥ (cc C *ᵥ xh)) := by
    rw [hS, cc_smul, smul_mulVec, cc_mul, ← mulVec_mulVec, cc_transpose]
  have hAH : IsUnit Zᴴ.det := by rw [det_conjTranspose]; exact hA.star
  have e5 : (eta2 : ℂ) • ((cc B)ᵀ *ᵥ l) = -(Gᴴ *ᵥ (cc C *ᵥ xh)) := by
    have h1 : l = -((Zᴴ)⁻¹ *ᵥ (cc S *ᵥ xh)) := by
      rw [← mulVec_neg, ← hZH, mulVec_mulVec, nonsing_inv_mul _ hAH, one_mulVec]
    have h2 : Gᴴ = (cc B)ᵀ * ((Zᴴ)⁻¹ * (cc C)ᵀ) := by
      rw [hG, conjTranspose_mul, conjTranspose_mul, cc_conjTranspose, cc_conjTranspose, conjTranspose_nonsing_inv,
        Matrix.mul_assoc]
    have h3 : (eta2 : ℂ) * ((1 / eta2 : ℝ) : ℂ) = 1 := by
      rw [← Complex.ofReal_mul, mul_one_div_cancel he.ne', Complex.ofReal_one]
    rw [h1, hSx, h2, mulVec_neg, mulVec_smul, mulVec_smul, smul_neg, smul_smul, h3, one_smul]
    simp only [mulVec_mulVec, Matrix.mul_assoc]
  have e6 : cc C *ᵥ xh = cc C *ᵥ x + G *ᵥ ((cc B)ᵀ *ᵥ l) - G *ᵥ u := by
    rw [mulVec_sub, mulVec_sub] at e4
    linear_combination (exp := 1) e4
  rw [e6] at e5
  rw [hu, gram', add_mulVec, smul_mulVec, one_mulVec, e5, ← mulVec_mulVec]
  simp only [mulVec_sub, mulVec_add]
  abel

end Cbadc.Filter
