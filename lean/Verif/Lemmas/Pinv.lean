import Mathlib.LinearAlgebra.Basis.VectorSpace
import Mathlib.LinearAlgebra.Matrix.ToLin
import Mathlib.LinearAlgebra.Matrix.DotProduct
import Mathlib.Analysis.Complex.Order
import Mathlib.Tactic.NoncommRing
import Verif.Spec.TransferFunction

/-! # Every complex matrix has a Moore-Penrose inverse -/

namespace Cbadc.Analog

open Matrix Spec
open scoped ComplexOrder

variable {n : ℕ}

/-- Every square matrix has a generalised inverse. -/
theorem exists_ginv (X : Matrix (Fin n) (Fin n) ℂ) : ∃ G : Matrix (Fin n) (Fin n) ℂ, X * G * X = X := by
  set f := Matrix.toLin' X with hf
  obtain ⟨r, hr⟩ := f.rangeRestrict.exists_rightInverse_of_surjective f.range_rangeRestrict
  obtain ⟨p, hp⟩ := (LinearMap.range f).subtype.exists_leftInverse_of_injective (Submodule.ker_subtype _)
  refine ⟨LinearMap.toMatrix' (r ∘ₗ p), ?_⟩
  apply Matrix.toLin'.injective
  rw [Matrix.toLin'_mul, Matrix.toLin'_mul, Matrix.toLin'_toMatrix', ← hf]
  ext1 x
  refine LinearMap.ext fun y => ?_
  simp only [LinearMap.comp_apply]
  set z := (LinearMap.single ℂ (fun _ : Fin n => ℂ) x) y
  have h1 : p (f z) = f.rangeRestrict z := by
    have := LinearMap.congr_fun hp (f.rangeRestrict z)
    exact this
  rw [h1]
  have h2 := LinearMap.congr_fun hr (f.rangeRestrict z)
  exact congrArg Subtype.val h2

/-- A Hermitian generalised inverse of a Hermitian matrix. -/
theorem exists_ginv_herm (H : Matrix (Fin n) (Fin n) ℂ) (hH : Hᴴ = H) : ∃ Q, Qᴴ = Q ∧ H * Q * H = H := by
  obtain ⟨G, hG⟩ := exists_ginv H
  have hG' : H * Gᴴ * H = H := by
    have := congrArg conjTranspose hG
    rw [conjTranspose_mul, conjTranspose_mul, hH] at this
    rw [Matrix.mul_assoc]; exact this
  refine ⟨G * H * Gᴴ, ?_, ?_⟩
  · rw [conjTranspose_mul, conjTranspose_mul, conjTranspose_conjTranspose, hH, Matrix.mul_assoc]
  · calc H * (G * H * Gᴴ) * H = (H * G * H) * Gᴴ * H := by simp only [Matrix.mul_assoc]
      _ = H := by rw [hG, hG']

theorem cancel_gram (X Q : Matrix (Fin n) (Fin n) ℂ) (hQ : Qᴴ = Q) (h : (Xᴴ * X) * Q * (Xᴴ * X) = Xᴴ * X) :
    X * Q * (Xᴴ * X) = X := by
  have : X * Q * (Xᴴ * X) - X = 0 := by
    rw [← conjTranspose_mul_self_eq_zero]
    have e : (X * Q * (Xᴴ * X) - X)ᴴ = (Xᴴ * X) * Q * Xᴴ - Xᴴ := by
      rw [conjTranspose_sub, conjTranspose_mul, conjTranspose_mul, conjTranspose_mul, conjTranspose_conjTranspose, hQ]
      simp only [Matrix.mul_assoc]
    rw [e, Matrix.sub_mul, Matrix.mul_sub, Matrix.mul_sub]
    have e1 : (Xᴴ * X) * Q * Xᴴ * (X * Q * (Xᴴ * X)) = ((Xᴴ * X) * Q * (Xᴴ * X)) * Q * (Xᴴ * X) := by
      simp only [Matrix.mul_assoc]
    have e2 : (Xᴴ * X) * Q * Xᴴ * X = Xᴴ * X := by rw [Matrix.mul_assoc _ Xᴴ X, h]
    have e3 : Xᴴ * (X * Q * (Xᴴ * X)) = Xᴴ * X := by
      calc Xᴴ * (X * Q * (Xᴴ * X)) = (Xᴴ * X) * Q * (Xᴴ * X) := by simp only [Matrix.mul_assoc]
        _ = _ := h
    rw [e1, h, h, e2, e3]
    simp
  exact sub_eq_zero.1 this

/-- **Existence** of the Moore-Penrose inverse. -/
theorem exists_pinv (X : Matrix (Fin n) (Fin n) ℂ) : ∃ P, IsPinv X P := by
  obtain ⟨Q, hQ, hQ'⟩ := exists_ginv_herm (Xᴴ * X) (by rw [conjTranspose_mul, conjTranspose_conjTranspose])
  obtain ⟨K, hK, hK'⟩ := exists_ginv_herm (X * Xᴴ) (by rw [conjTranspose_mul, conjTranspose_conjTranspose])
  have h1 : X * Q * (Xᴴ * X) = X := cancel_gram X Q hQ hQ'
  have h2 : (X * Xᴴ) * K * X = X := by
    have := cancel_gram Xᴴ K hK (by rw [conjTranspose_conjTranspose]; exact hK')
    have := congrArg conjTranspose this
    rw [conjTranspose_mul, conjTranspose_mul, conjTranspose_mul, conjTranspose_conjTranspose, hK] at this
    rw [Matrix.mul_assoc]; exact this
  have hXP : X * (Xᴴ * K * X * Q * Xᴴ) = X * Q * Xᴴ := by
    calc X * (Xᴴ * K * X * Q * Xᴴ) = ((X * Xᴴ) * K * X) * Q * Xᴴ := by simp only [Matrix.mul_assoc]
      _ = _ := by rw [h2]
  have hPX : Xᴴ * K * X * Q * Xᴴ * X = Xᴴ * K * X := by
    calc Xᴴ * K * X * Q * Xᴴ * X = Xᴴ * K * (X * Q * (Xᴴ * X)) := by simp only [Matrix.mul_assoc]
      _ = _ := by rw [h1]
  refine ⟨Xᴴ * K * X * Q * Xᴴ, ?_, ?_, ?_, ?_⟩
  · rw [hXP, Matrix.mul_assoc, h1]
  · rw [hPX]
    calc Xᴴ * K * X * (Xᴴ * K * X * Q * Xᴴ) = Xᴴ * K * ((X * Xᴴ) * K * X) * Q * Xᴴ := by simp only [Matrix.mul_assoc]
      _ = _ := by rw [h2]
  · rw [hXP, conjTranspose_mul, conjTranspose_mul, conjTranspose_conjTranspose, hQ, Matrix.mul_assoc]
  · rw [hPX, conjTranspose_mul, conjTranspose_mul, conjTranspose_conjTranspose, hK, Matrix.mul_assoc]

end Cbadc.Analog
