import Mathlib.LinearAlgebra.Matrix.PosDef
import Mathlib.Analysis.Complex.Order
import Mathlib.Tactic.NoncommRing
import Mathlib.Tactic.FieldSimp
import Mathlib.Tactic.Linarith
import Verif.Spec.TransferFunction
import Verif.Model.TransferFunction

/-! # Lemmas about transfer functions of estimators -/

namespace Cbadc.Analog

open Matrix Spec
open scoped ComplexOrder

variable {Nt L : ℕ}

theorem eta_posDef {n : ℕ} {eta2 : ℝ} (h : 0 < eta2) : ((eta2 : ℂ) • (1 : Matrix (Fin n) (Fin n) ℂ)).PosDef := by
  have : (0 : ℂ) < (eta2 : ℂ) := by exact_mod_cast h
  exact Matrix.PosDef.one.smul this

theorem gram_posDef {eta2 : ℝ} (h : 0 < eta2) (G : Matrix (Fin Nt) (Fin L) ℂ) : (gram eta2 G).PosDef :=
  Matrix.PosDef.posSemidef_add (posSemidef_self_mul_conjTranspose G) (eta_posDef h)

/-- The small Gram matrix. -/
noncomputable def gram' (eta2 : ℝ) (G : Matrix (Fin Nt) (Fin L) ℂ) : Matrix (Fin L) (Fin L) ℂ :=
  Gᴴ * G + (eta2 : ℂ) • 1

theorem gram'_posDef {eta2 : ℝ} (h : 0 < eta2) (G : Matrix (Fin Nt) (Fin L) ℂ) : (gram' eta2 G).PosDef :=
  Matrix.PosDef.posSemidef_add (posSemidef_conjTranspose_mul_self G) (eta_posDef h)

theorem pinv_eq_inv {n : ℕ} {X P : Matrix (Fin n) (Fin n) ℂ} (hX : IsUnit X) (h : IsPinv X P) : P = X⁻¹ := by
  have hdet := (Matrix.isUnit_iff_isUnit_det X).1 hX
  have h1 := h.1
  have h2 : X⁻¹ * (X * P * X) * X⁻¹ = X⁻¹ * X * X⁻¹ := by rw [h1]
  rw [Matrix.nonsing_inv_mul X hdet, Matrix.one_mul] at h2
  rw [← h2, ← Matrix.mul_assoc, ← Matrix.mul_assoc, Matrix.nonsing_inv_mul X hdet, Matrix.one_mul, Matrix.mul_assoc,
    Matrix.mul_nonsing_inv X hdet, Matrix.mul_one]

/-- The push-through identity. -/
theorem push_through {eta2 : ℝ} (h : 0 < eta2) (G : Matrix (Fin Nt) (Fin L) ℂ) :
    gram' eta2 G * (Gᴴ * (gram eta2 G)⁻¹) = Gᴴ := by
  have hdet := (Matrix.isUnit_iff_isUnit_det _).1 (gram_posDef h G).isUnit
  have : gram' eta2 G * Gᴴ = Gᴴ * gram eta2 G := by
    unfold gram gram'
    simp [Matrix.add_mul, Matrix.mul_add, Matrix.mul_assoc]
  rw [← Matrix.mul_assoc, this, Matrix.mul_assoc, Matrix.mul_nonsing_inv _ hdet, Matrix.mul_one]

theorem stf_complement {eta2 : ℝ} (h : 0 < eta2) (G : Matrix (Fin Nt) (Fin L) ℂ) :
    1 - Gᴴ * (gram eta2 G)⁻¹ * G = (eta2 : ℂ) • (gram' eta2 G)⁻¹ := by
  have hdet := (Matrix.isUnit_iff_isUnit_det _).1 (gram'_posDef h G).isUnit
  have h1 : gram' eta2 G * (1 - Gᴴ * (gram eta2 G)⁻¹ * G) = (eta2 : ℂ) • 1 := by
    rw [Matrix.mul_sub, Matrix.mul_one, ← Matrix.mul_assoc, push_through h]
    unfold gram'
    rw [add_sub_cancel_left]
  have h2 := congrArg (fun M => (gram' eta2 G)⁻¹ * M) h1
  rw [← Matrix.mul_assoc, Matrix.nonsing_inv_mul _ hdet, Matrix.one_mul] at h2
  rw [h2, Matrix.mul_smul, Matrix.mul_one]

/-- The squared norm of the small Gram matrix dominates. -/
theorem ntf_gap {eta2 : ℝ} (h : 0 < eta2) (G : Matrix (Fin Nt) (Fin L) ℂ) :
    (((1 : ℂ) / (4 * eta2)) • 1 - Gᴴ * (gram eta2 G)⁻¹ * (Gᴴ * (gram eta2 G)⁻¹)ᴴ).PosSemidef := by
  have hdet := (Matrix.isUnit_iff_isUnit_det _).1 (gram'_posDef h G).isUnit
  have hF : Gᴴ * (gram eta2 G)⁻¹ = (gram' eta2 G)⁻¹ * Gᴴ := by
    have h2 := congrArg (fun M => (gram' eta2 G)⁻¹ * M) (push_through h G)
    rwa [← Matrix.mul_assoc, Matrix.nonsing_inv_mul _ hdet, Matrix.one_mul] at h2
  have hW : ((gram' eta2 G)⁻¹)ᴴ = (gram' eta2 G)⁻¹ := (gram'_posDef h G).inv.1
  have he : (eta2 : ℂ) ≠ 0 := by exact_mod_cast h.ne'
  set P := Gᴴ * G with hP
  set W := (gram' eta2 G)⁻¹ with hWdef
  have hgP : gram' eta2 G = P + (eta2 : ℂ) • 1 := rfl
  have hPH : (P - (eta2 : ℂ) • 1)ᴴ = P - (eta2 : ℂ) • 1 := by
    rw [hP]
    simp [Matrix.conjTranspose_sub, Matrix.conjTranspose_smul]
  have hWg : W * (P + (eta2 : ℂ) • 1) = 1 := by rw [← hgP]; exact Matrix.nonsing_inv_mul _ hdet
  have hgW : (P + (eta2 : ℂ) • 1) * W = 1 := by rw [← hgP]; exact Matrix.mul_nonsing_inv _ hdet
  have hFF : Gᴴ * (gram eta2 G)⁻¹ * (Gᴴ * (gram eta2 G)⁻¹)ᴴ = W * P * W := by
    rw [hF, Matrix.conjTranspose_mul, Matrix.conjTranspose_conjTranspose, hW, hP]
    simp only [Matrix.mul_assoc]
  have hone : (1 : Matrix (Fin L) (Fin L) ℂ) = W * ((P + (eta2 : ℂ) • 1) * (P + (eta2 : ℂ) • 1)) * W := by
    rw [← Matrix.mul_assoc, hWg, Matrix.one_mul, hgW]
  have key : ((1 : ℂ) / (4 * eta2)) • 1 - W * P * W =
      ((1 : ℂ) / (4 * eta2)) • ((W * (P - (eta2 : ℂ) • 1)) * (W * (P - (eta2 : ℂ) • 1))ᴴ) := by
    rw [Matrix.conjTranspose_mul, hPH, hW]
    have h4 : (P + (eta2 : ℂ) • 1) * (P + (eta2 : ℂ) • 1) =
        (P - (eta2 : ℂ) • 1) * (P - (eta2 : ℂ) • 1) + (4 * (eta2 : ℂ)) • P := by
      simp only [Matrix.add_mul, Matrix.mul_add, Matrix.sub_mul, Matrix.mul_sub, Matrix.smul_mul, Matrix.mul_smul,
        Matrix.one_mul, Matrix.mul_one]
      module
    rw [h4] at hone
    have hs : ((1 : ℂ) / (4 * eta2)) • (1 : Matrix (Fin L) (Fin L) ℂ) = ((1 : ℂ) / (4 * eta2)) •
        (W * ((P - (eta2 : ℂ) • 1) * (P - (eta2 : ℂ) • 1) + (4 * (eta2 : ℂ)) • P) * W) := by rw [← hone]
    rw [hs, Matrix.mul_add, Matrix.add_mul, smul_add, Matrix.mul_smul, Matrix.smul_mul, smul_smul]
    have h5 : (1 : ℂ) / (4 * eta2) * (4 * eta2) = 1 := by field_simp
    rw [h5, one_smul]
    simp only [Matrix.mul_assoc, add_sub_cancel_right]
  rw [hFF, key]
  refine (posSemidef_self_mul_conjTranspose _).smul ?_
  have : (0 : ℝ) ≤ 1 / (4 * eta2) := by positivity
  have h2 : ((1 : ℂ) / (4 * eta2)) = ((1 / (4 * eta2) : ℝ) : ℂ) := by push_cast; ring
  rw [h2]
  exact_mod_cast this

end Cbadc.Analog
