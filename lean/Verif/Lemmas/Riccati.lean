import Verif.Lemmas.FilterTransfer
import Mathlib.LinearAlgebra.Matrix.Charpoly.Basic
import Mathlib.LinearAlgebra.Matrix.PosDef
import Mathlib.LinearAlgebra.Eigenspace.Triangularizable
import Mathlib.Analysis.SpecialFunctions.Exp
import Mathlib.Analysis.Matrix.Order
import Mathlib.Analysis.Complex.Polynomial.Basic
import Mathlib.Analysis.Matrix.Hermitian
import Mathlib.Analysis.Calculus.MeanValue

/-! # Riccati equations from eigenvectors of the Hamiltonian matrix -/

namespace Cbadc.Filter

open Matrix Set Filter.Spec

variable {N P : ℕ}

/-- `Λ' Y + Y Λ = 0` has no other solution than zero when sums of the entries do not vanish. -/
theorem sylvester_zero {d e : Fin N → ℂ} (h : ∀ i j, e i + d j ≠ 0) {Y : Matrix (Fin N) (Fin N) ℂ}
    (hY : diagonal e * Y + Y * diagonal d = 0) : Y = 0 := by
  ext i j
  have := congrFun (congrFun hY i) j
  rw [Matrix.add_apply, diagonal_mul, mul_diagonal] at this
  have h2 : (e i + d j) * Y i j = 0 := by rw [Matrix.zero_apply] at this; rw [← this]; ring
  exact (mul_eq_zero.1 h2).resolve_left (h i j)

section
variable {a g q X1 X2 : Matrix (Fin N) (Fin N) ℂ} {d : Fin N → ℂ}

/-- the quotient is symmetric -/
theorem quotient_symm (hg : gᵀ = g) (hq : qᵀ = q) (h1 : a * X1 - g * X2 = X1 * diagonal d)
    (h2 : -q * X1 - aᵀ * X2 = X2 * diagonal d) (hX : IsUnit X1.det) (hd : ∀ i j, d i + d j ≠ 0) :
    (X2 * X1⁻¹)ᵀ = X2 * X1⁻¹ := by
  have h1t : X1ᵀ * aᵀ - X2ᵀ * g = diagonal d * X1ᵀ := by
    have := congrArg transpose h1
    rwa [transpose_sub, transpose_mul, transpose_mul, transpose_mul, diagonal_transpose, hg] at this
  have h2t : -(X1ᵀ * q) - X2ᵀ * a = diagonal d * X2ᵀ := by
    have := congrArg transpose h2
    rwa [transpose_sub, transpose_mul, transpose_mul, transpose_mul, diagonal_transpose, transpose_neg, hq, transpose_transpose,
      Matrix.mul_neg] at this
  have hY : X1ᵀ * X2 - X2ᵀ * X1 = 0 := by
    refine sylvester_zero hd ?_
    rw [Matrix.mul_sub, Matrix.sub_mul, ← Matrix.mul_assoc, ← Matrix.mul_assoc, ← h1t, ← h2t, Matrix.mul_assoc X1ᵀ X2, ← h2,
      Matrix.mul_assoc X2ᵀ X1, ← h1]
    simp only [Matrix.mul_sub, Matrix.sub_mul, Matrix.neg_mul, Matrix.mul_neg, Matrix.mul_assoc]
    abel
  have hY' : X1ᵀ * X2 = X2ᵀ * X1 := sub_eq_zero.1 hY
  have hX' : IsUnit X1ᵀ.det := by rwa [det_transpose]
  rw [transpose_mul, transpose_nonsing_inv]
  calc X1ᵀ⁻¹ * X2ᵀ = X1ᵀ⁻¹ * (X2ᵀ * X1) * X1⁻¹ := by
        rw [Matrix.mul_assoc, Matrix.mul_assoc, mul_nonsing_inv _ hX, Matrix.mul_one]
    _ = X2 * X1⁻¹ := by rw [← hY', ← Matrix.mul_assoc, nonsing_inv_mul _ hX', Matrix.one_mul]

theorem blocks_herm (ha : aᴴ = aᵀ) (hg : gᴴ = g) (hq : qᴴ = q) (h1 : a * X1 - g * X2 = X1 * diagonal d)
    (h2 : -q * X1 - aᵀ * X2 = X2 * diagonal d) (hd : ∀ i j, star (d i) + d j ≠ 0) : X1ᴴ * X2 = X2ᴴ * X1 := by
  have ha' : aᵀᴴ = a := by rw [← ha, conjTranspose_conjTranspose]
  have h1t : X1ᴴ * aᵀ - X2ᴴ * g = diagonal (star d) * X1ᴴ := by
    have := congrArg conjTranspose h1
    rwa [conjTranspose_sub, conjTranspose_mul, conjTranspose_mul, conjTranspose_mul, diagonal_conjTranspose, hg, ha] at this
  have h2t : -(X1ᴴ * q) - X2ᴴ * a = diagonal (star d) * X2ᴴ := by
    have := congrArg conjTranspose h2
    rwa [conjTranspose_sub, conjTranspose_mul, conjTranspose_mul, conjTranspose_mul, diagonal_conjTranspose, conjTranspose_neg, hq, ha',
      Matrix.mul_neg] at this
  have hY : X1ᴴ * X2 - X2ᴴ * X1 = 0 := by
    refine sylvester_zero (e := star d) hd ?_
    rw [Matrix.mul_sub, Matrix.sub_mul, ← Matrix.mul_assoc, ← Matrix.mul_assoc, ← h1t, ← h2t, Matrix.mul_assoc X1ᴴ X2, ← h2,
      Matrix.mul_assoc X2ᴴ X1, ← h1]
    simp only [Matrix.mul_sub, Matrix.sub_mul, Matrix.neg_mul, Matrix.mul_neg, Matrix.mul_assoc]
    abel
  exact sub_eq_zero.1 hY

/-- the quotient is Hermitian -/
theorem quotient_herm (ha : aᴴ = aᵀ) (hg : gᴴ = g) (hq : qᴴ = q) (h1 : a * X1 - g * X2 = X1 * diagonal d)
    (h2 : -q * X1 - aᵀ * X2 = X2 * diagonal d) (hX : IsUnit X1.det) (hd : ∀ i j, star (d i) + d j ≠ 0) :
    (X2 * X1⁻¹)ᴴ = X2 * X1⁻¹ := by
  have hY' := blocks_herm ha hg hq h1 h2 hd
  have hX' : IsUnit X1ᴴ.det := by rw [det_conjTranspose]; exact hX.star
  rw [conjTranspose_mul, conjTranspose_nonsing_inv]
  calc X1ᴴ⁻¹ * X2ᴴ = X1ᴴ⁻¹ * (X2ᴴ * X1) * X1⁻¹ := by
        rw [Matrix.mul_assoc, Matrix.mul_assoc, mul_nonsing_inv _ hX, Matrix.mul_one]
    _ = X2 * X1⁻¹ := by rw [← hY', ← Matrix.mul_assoc, nonsing_inv_mul _ hX', Matrix.one_mul]

/-- the quotient solves the Riccati equation, and the eigenvectors are those of the closed loop -/
theorem quotient_riccati (h1 : a * X1 - g * X2 = X1 * diagonal d) (h2 : -q * X1 - aᵀ * X2 = X2 * diagonal d)
    (hX : IsUnit X1.det) {V : Matrix (Fin N) (Fin N) ℂ} (hV : V = X2 * X1⁻¹) :
    aᵀ * V + V * a - V * g * V + q = 0 ∧ (a - g * V) * X1 = X1 * diagonal d := by
  have hVX : V * X1 = X2 := by rw [hV, Matrix.mul_assoc, nonsing_inv_mul _ hX, Matrix.mul_one]
  have hcl : (a - g * V) * X1 = X1 * diagonal d := by rw [Matrix.sub_mul, Matrix.mul_assoc, hVX, h1]
  refine ⟨?_, hcl⟩
  have h3 : (aᵀ * V + V * a - V * g * V + q) * X1 = 0 := by
    have h4 : V * ((a - g * V) * X1) = X2 * diagonal d := by rw [hcl, ← Matrix.mul_assoc, hVX]
    rw [← h2, Matrix.sub_mul, Matrix.mul_sub, Matrix.mul_assoc g, hVX] at h4
    simp only [Matrix.add_mul, Matrix.sub_mul, Matrix.mul_assoc, hVX]
    have : V * (a * X1) - V * (g * X2) - (-q * X1 - aᵀ * X2) = 0 := sub_eq_zero.2 h4
    rw [← this]
    simp only [Matrix.neg_mul]
    abel
  have := congrArg (· * X1⁻¹) h3
  simpa only [Matrix.mul_assoc, mul_nonsing_inv _ hX, Matrix.mul_one, Matrix.zero_mul] using this

end

theorem cc_injective {n m : ℕ} {X Y : Matrix (Fin n) (Fin m) ℝ} (h : cc X = cc Y) : X = Y := by
  ext i j
  exact Complex.ofReal_injective (congrFun (congrFun h i) j)

theorem cc_re {n m : ℕ} (X : Matrix (Fin n) (Fin m) ℝ) : (cc X).map Complex.re = X := by ext; simp [cc]

/-- Hermitian and symmetric: real -/
theorem real_of_symm_herm {V : Matrix (Fin N) (Fin N) ℂ} (h1 : Vᵀ = V) (h2 : Vᴴ = V) : cc (V.map Complex.re) = V := by
  ext i j
  have h3 : star (V j i) = V i j := congrFun (congrFun h2 i) j
  have h4 : V j i = V i j := congrFun (congrFun h1 i) j
  rw [h4] at h3
  exact Complex.conj_eq_iff_re.1 h3

/-! ### the order of the eigenvalues -/

/-- the symplectic unit -/
def sj (N : ℕ) : Matrix (Fin N ⊕ Fin N) (Fin N ⊕ Fin N) ℂ := fromBlocks 0 1 (-1) 0

theorem sj_mul : -sj N * sj N = 1 := by
  rw [sj, fromBlocks_neg, fromBlocks_multiply, ← fromBlocks_one]
  simp

/-- the eigenvalues of a Hamiltonian matrix come in pairs `λ, -λ` -/
theorem hamiltonian_charpoly {a g q : Matrix (Fin N) (Fin N) ℂ} (hg : gᵀ = g) (hq : qᵀ = q) :
    (fromBlocks a (-g) (-q) (-aᵀ)).charpoly = (-fromBlocks a (-g) (-q) (-aᵀ)).charpoly := by
  have e : sj N * fromBlocks a (-g) (-q) (-aᵀ) * -sj N = (-fromBlocks a (-g) (-q) (-aᵀ))ᵀ := by
    rw [sj, fromBlocks_neg, fromBlocks_multiply, fromBlocks_neg, fromBlocks_multiply, fromBlocks_transpose]
    simp [hg, hq]
  rw [← charpoly_transpose (-fromBlocks a (-g) (-q) (-aᵀ)), ← e, Matrix.mul_assoc, charpoly_mul_comm, Matrix.mul_assoc, sj_mul, Matrix.mul_one]

theorem charpoly_eig {ι : Type*} [Fintype ι] [DecidableEq ι] {Z E : Matrix ι ι ℂ} {d : ι → ℂ} (h : Z * E = E * diagonal d) (hE : IsUnit E.det) :
    Z.charpoly = ∏ i, (Polynomial.X - Polynomial.C (d i)) := by
  have : Z = E * diagonal d * E⁻¹ := by rw [← h, Matrix.mul_assoc, mul_nonsing_inv _ hE, Matrix.mul_one]
  rw [this, charpoly_mul_comm, ← Matrix.mul_assoc, nonsing_inv_mul _ hE, Matrix.one_mul, charpoly_diagonal]

theorem roots_eig {ι : Type*} [Fintype ι] (d : ι → ℂ) :
    (∏ i, (Polynomial.X - Polynomial.C (d i))).roots = Finset.univ.val.map d := by
  rw [← Polynomial.roots_multiset_prod_X_sub_C (Finset.univ.val.map d), Multiset.map_map]
  rfl

/-- as many eigenvalues in the left half plane as in the right one -/
theorem hamiltonian_count {a g q : Matrix (Fin N) (Fin N) ℂ} (hg : gᵀ = g) (hq : qᵀ = q)
    {E : Matrix (Fin N ⊕ Fin N) (Fin N ⊕ Fin N) ℂ} {d : Fin N ⊕ Fin N → ℂ}
    (h : fromBlocks a (-g) (-q) (-aᵀ) * E = E * diagonal d) (hE : IsUnit E.det) :
    (Finset.univ.filter fun i => (d i).re < 0).card = (Finset.univ.filter fun i => 0 < (d i).re).card := by
  have h' : -fromBlocks a (-g) (-q) (-aᵀ) * E = E * diagonal (fun i => -d i) := by
    rw [Matrix.neg_mul, h, ← Matrix.mul_neg]
    congr 1
    ext i j
    by_cases hij : i = j <;> simp [hij]
  have e := (charpoly_eig h hE).symm.trans ((hamiltonian_charpoly hg hq).trans (charpoly_eig h' hE))
  have e2 := congrArg Polynomial.roots e
  rw [roots_eig, roots_eig] at e2
  have e3 := congrArg (Multiset.countP fun z : ℂ => z.re < 0) e2
  rw [Multiset.countP_map, Multiset.countP_map] at e3
  simp only [Complex.neg_re, Left.neg_neg_iff] at e3
  exact e3

theorem sorted_stable {d : Fin N ⊕ Fin N → ℂ} (hs : ∀ i j, (d (.inl i)).re ≤ (d (.inr j)).re) (h0 : ∀ i, (d i).re ≠ 0)
    (hc : (Finset.univ.filter fun i => (d i).re < 0).card = (Finset.univ.filter fun i => 0 < (d i).re).card) (i : Fin N) :
    (d (.inl i)).re < 0 := by
  by_contra hn
  have hpos : 0 < (d (.inl i)).re := lt_of_le_of_ne (not_lt.1 hn) (h0 _).symm
  have h1 : (Finset.univ.filter fun i => (d i).re < 0) ⊆ (Finset.univ.erase i).map Function.Embedding.inl := by
    intro k hk
    rw [Finset.mem_filter] at hk
    rcases k with k | k
    · refine Finset.mem_map.2 ⟨k, Finset.mem_erase.2 ⟨?_, Finset.mem_univ _⟩, rfl⟩
      rintro rfl
      exact hn hk.2
    · exact absurd hk.2 (not_lt.2 (hpos.le.trans (hs i k)))
  have h2 : Finset.univ.map Function.Embedding.inr ⊆ (Finset.univ.filter fun i => 0 < (d i).re) := by
    intro k hk
    obtain ⟨j, -, rfl⟩ := Finset.mem_map.1 hk
    exact Finset.mem_filter.2 ⟨Finset.mem_univ _, hpos.trans_le (hs i j)⟩
  have c1 := Finset.card_le_card h1
  have c2 := Finset.card_le_card h2
  rw [Finset.card_map, Finset.card_erase_of_mem (Finset.mem_univ _), Finset.card_univ, Fintype.card_fin] at c1
  rw [Finset.card_map, Finset.card_univ, Fintype.card_fin] at c2
  have := i.pos
  omega

/-! ### no eigenvalues on the imaginary axis -/

open scoped ComplexOrder

theorem cc_posSemidef {X : Matrix (Fin N) (Fin N) ℝ} (h : X.PosSemidef) (x : Fin N → ℂ) : 0 ≤ (star x ⬝ᵥ cc X *ᵥ x).re := by
  have hs : Xᵀ = X := by simpa [conjTranspose_eq_transpose_of_trivial] using h.1.eq
  have e : (star x ⬝ᵥ cc X *ᵥ x).re = (fun i => (x i).re) ⬝ᵥ X *ᵥ (fun i => (x i).re) + (fun i => (x i).im) ⬝ᵥ X *ᵥ (fun i => (x i).im) := by
    simp only [dotProduct, mulVec, cc, Matrix.map_apply, Complex.re_sum, ← Finset.sum_add_distrib]
    refine Finset.sum_congr rfl fun i _ => ?_
    simp only [Pi.star_apply, Complex.mul_re, Complex.re_sum, Complex.im_sum, Complex.mul_im, Complex.ofReal_re, Complex.ofReal_im]
    simp [Finset.mul_sum]
  rw [e]
  have h1 := h.dotProduct_mulVec_nonneg (fun i => (x i).re)
  have h2 := h.dotProduct_mulVec_nonneg (fun i => (x i).im)
  simp only [star_trivial] at h1 h2
  exact add_nonneg h1 h2

theorem ccPSD {X : Matrix (Fin N) (Fin N) ℝ} (h : X.PosSemidef) : (cc X).PosSemidef := by
  have hs : Xᵀ = X := by simpa [conjTranspose_eq_transpose_of_trivial] using h.1.eq
  have hh : (cc X).IsHermitian := by
    rw [IsHermitian, cc_conjTranspose, ← cc_transpose, hs]
  refine .of_dotProduct_mulVec_nonneg hh fun x => Complex.nonneg_iff.2 ⟨cc_posSemidef h x, ?_⟩
  exact (hh.im_star_dotProduct_mulVec_self x).symm

/-- the two equations of an eigenvector -/
theorem hamiltonian_mulVec {a g q : Matrix (Fin N) (Fin N) ℂ} {E : Matrix (Fin N ⊕ Fin N) (Fin N ⊕ Fin N) ℂ} {d : Fin N ⊕ Fin N → ℂ}
    (h : fromBlocks a (-g) (-q) (-aᵀ) * E = E * diagonal d) (i : Fin N ⊕ Fin N) :
    (a *ᵥ (fun n => E (.inl n) i) - g *ᵥ (fun n => E (.inr n) i) = d i • fun n => E (.inl n) i) ∧
      (-(q *ᵥ fun n => E (.inl n) i) - aᵀ *ᵥ (fun n => E (.inr n) i) = d i • fun n => E (.inr n) i) := by
  have h1 : ∀ k, ∑ j, fromBlocks a (-g) (-q) (-aᵀ) k j * E j i = E k i * d i := by
    intro k
    have := congrFun (congrFun h k) i
    rwa [mul_diagonal, Matrix.mul_apply] at this
  constructor <;> ext n
  · have := h1 (.inl n)
    rw [Fintype.sum_sum_type] at this
    simp only [fromBlocks_apply₁₁, fromBlocks_apply₁₂, Matrix.neg_apply, neg_mul, Finset.sum_neg_distrib] at this
    rw [Pi.smul_apply, smul_eq_mul, mul_comm, ← this]
    simp [mulVec, dotProduct, sub_eq_add_neg]
  · have := h1 (.inr n)
    rw [Fintype.sum_sum_type] at this
    simp only [fromBlocks_apply₂₁, fromBlocks_apply₂₂, Matrix.neg_apply, neg_mul, Finset.sum_neg_distrib] at this
    rw [Pi.smul_apply, smul_eq_mul, mul_comm, ← this]
    simp [mulVec, dotProduct, sub_eq_add_neg]

theorem imag_zero {a g q : Matrix (Fin N) (Fin N) ℂ} {x y : Fin N → ℂ} {μ : ℂ} (ha : aᴴ = aᵀ) (hg : g.PosSemidef) (hq : q.PosSemidef)
    (h1 : a *ᵥ x - g *ᵥ y = μ • x) (h2 : -(q *ᵥ x) - aᵀ *ᵥ y = μ • y) (hμ : μ.re = 0) : g *ᵥ y = 0 ∧ q *ᵥ x = 0 := by
  have hμ' : star μ = -μ := by
    apply Complex.ext <;> simp [hμ]
  have e1 : star y ⬝ᵥ a *ᵥ x - star y ⬝ᵥ g *ᵥ y = μ * (star y ⬝ᵥ x) := by
    rw [← dotProduct_sub, h1, dotProduct_smul, smul_eq_mul]
  have e2 : -(star x ⬝ᵥ q *ᵥ x) - star y ⬝ᵥ a *ᵥ x = -μ * (star y ⬝ᵥ x) := by
    have h3 := congrArg star h2
    have h4 := congrArg (· ⬝ᵥ x) h3
    simp only [star_sub, star_neg, star_mulVec, star_smul, sub_dotProduct, neg_dotProduct, smul_dotProduct, smul_eq_mul, hμ',
      ← dotProduct_mulVec, hq.1.eq, ← ha, conjTranspose_conjTranspose] at h4
    exact h4
  have e3 : star y ⬝ᵥ g *ᵥ y + star x ⬝ᵥ q *ᵥ x = 0 := by linear_combination -e1 - e2
  have n1 := hg.dotProduct_mulVec_nonneg y
  have n2 := hq.dotProduct_mulVec_nonneg x
  obtain ⟨z1, z2⟩ := (add_eq_zero_iff_of_nonneg n1 n2).1 e3
  exact ⟨(hg.dotProduct_mulVec_zero_iff y).1 z1, (hq.dotProduct_mulVec_zero_iff x).1 z2⟩

/-- the quadratic term -/
theorem ccG_psd {B : Matrix (Fin N) (Fin P) ℝ} {R : Matrix (Fin P) (Fin P) ℝ} (hR : R.PosDef) : (B * R⁻¹ * Bᵀ).PosSemidef := by
  have := hR.inv.posSemidef.mul_mul_conjTranspose_same B
  rwa [conjTranspose_eq_transpose_of_trivial] at this

theorem ccG_zero {B : Matrix (Fin N) (Fin P) ℝ} {R : Matrix (Fin P) (Fin P) ℝ} (hR : R.PosDef) {y : Fin N → ℂ}
    (h : cc (B * R⁻¹ * Bᵀ) *ᵥ y = 0) : cc Bᵀ *ᵥ y = 0 := by
  have h1 : star (cc Bᵀ *ᵥ y) ⬝ᵥ cc R⁻¹ *ᵥ (cc Bᵀ *ᵥ y) = 0 := by
    rw [star_mulVec, cc_conjTranspose, cc_transpose, transpose_transpose, ← dotProduct_mulVec, mulVec_mulVec, mulVec_mulVec, ← cc_transpose,
      ← cc_mul, ← cc_mul, h, dotProduct_zero]
  have h2 := ((ccPSD hR.inv.posSemidef).dotProduct_mulVec_zero_iff _).1 h1
  have h3 := congrArg (cc R *ᵥ ·) h2
  have hRu : IsUnit R.det := hR.det_pos.ne'.isUnit
  simpa only [mulVec_mulVec, ← cc_mul, mul_nonsing_inv _ hRu, cc_one, one_mulVec, mulVec_zero, ← Matrix.mul_assoc, Matrix.one_mul] using h3

theorem hamiltonian_eq {A : Matrix (Fin N) (Fin N) ℝ} {B : Matrix (Fin N) (Fin P) ℝ} {Q : Matrix (Fin N) (Fin N) ℝ}
    {R : Matrix (Fin P) (Fin P) ℝ} :
    hamiltonian A B Q R = fromBlocks (cc A) (-cc (B * R⁻¹ * Bᵀ)) (-cc Q) (-(cc A)ᵀ) := by
  rw [hamiltonian, fromBlocks_map, ← cc_neg, ← cc_neg, ← cc_transpose, ← cc_neg]
  rfl

section
variable {A : Matrix (Fin N) (Fin N) ℝ} {B : Matrix (Fin N) (Fin P) ℝ} {Q : Matrix (Fin N) (Fin N) ℝ} {R : Matrix (Fin P) (Fin P) ℝ}
  {E : Matrix (Fin N ⊕ Fin N) (Fin N ⊕ Fin N) ℂ} {d : Fin N ⊕ Fin N → ℂ} {V : Matrix (Fin N) (Fin N) ℝ}

theorem EigBasis.re_ne (h : EigBasis A B Q R E d) (hQ : Q.PosSemidef) (hR : R.PosDef) (oQ : Observable Q A) (oB : Observable Bᵀ Aᵀ)
    (i : Fin N ⊕ Fin N) : (d i).re ≠ 0 := by
  intro h0
  have he := h.eig
  rw [hamiltonian_eq] at he
  obtain ⟨h1, h2⟩ := hamiltonian_mulVec he i
  obtain ⟨g0, q0⟩ := imag_zero (cc_conjTranspose A) (ccPSD (ccG_psd hR)) (ccPSD hQ) h1 h2 h0
  rw [g0, sub_zero] at h1
  rw [q0, neg_zero, zero_sub] at h2
  have hx : (fun n => E (.inl n) i) = 0 := by
    by_contra hx
    exact oQ _ _ hx h1 q0
  have hy : (fun n => E (.inr n) i) = 0 := by
    by_contra hy
    refine oB (-d i) _ hy ?_ (ccG_zero hR g0)
    rw [neg_smul, ← h2, neg_neg]
    rfl
  have hz : E.det = 0 := by
    refine det_eq_zero_of_column_eq_zero i fun k => ?_
    rcases k with k | k
    · exact congrFun hx k
    · exact congrFun hy k
  exact h.basis.ne_zero hz

/-- the equations of the first half of the eigenvectors -/
theorem EigBasis.blocks (h : EigBasis A B Q R E d) (hQ : Q.PosSemidef) (hR : R.PosDef) (oQ : Observable Q A) (oB : Observable Bᵀ Aᵀ) :
    (∀ i, (d (.inl i)).re < 0) ∧
      cc A * E.toBlocks₁₁ - cc (B * R⁻¹ * Bᵀ) * E.toBlocks₂₁ = E.toBlocks₁₁ * diagonal (fun i => d (.inl i)) ∧
      -cc Q * E.toBlocks₁₁ - (cc A)ᵀ * E.toBlocks₂₁ = E.toBlocks₂₁ * diagonal (fun i => d (.inl i)) := by
  have he := h.eig
  rw [hamiltonian_eq] at he
  have hgt : (cc (B * R⁻¹ * Bᵀ))ᵀ = cc (B * R⁻¹ * Bᵀ) := by rw [← cc_conjTranspose]; exact (ccPSD (ccG_psd hR)).1.eq
  have hqt : (cc Q)ᵀ = cc Q := by rw [← cc_conjTranspose]; exact (ccPSD hQ).1.eq
  refine ⟨sorted_stable h.sorted (h.re_ne hQ hR oQ oB) (hamiltonian_count hgt hqt he h.basis), ?_⟩
  have hE : E = fromBlocks E.toBlocks₁₁ E.toBlocks₁₂ E.toBlocks₂₁ E.toBlocks₂₂ := (fromBlocks_toBlocks E).symm
  have hd : diagonal d = fromBlocks (diagonal fun i => d (.inl i)) 0 0 (diagonal fun i => d (.inr i)) := by
    rw [fromBlocks_diagonal]
    congr 1
    ext i
    rcases i with i | i <;> rfl
  rw [hE, hd, fromBlocks_multiply, fromBlocks_multiply, fromBlocks_inj] at he
  simp only [Matrix.neg_mul, Matrix.mul_zero, add_zero, ← sub_eq_add_neg] at he
  obtain ⟨h1, -, h2, -⟩ := he
  rw [← Matrix.neg_mul] at h2
  exact ⟨h1, h2⟩

/-- the block that is inverted is not singular -/
theorem EigBasis.inv (h : EigBasis A B Q R E d) (hQ : Q.PosSemidef) (hR : R.PosDef) (oQ : Observable Q A) (oB : Observable Bᵀ Aᵀ) :
    IsUnit E.toBlocks₁₁.det := by
  obtain ⟨hst, h1, h2⟩ := h.blocks hQ hR oQ oB
  have hgp := ccPSD (ccG_psd (B := B) hR)
  have hY := blocks_herm (cc_conjTranspose A) hgp.1.eq (ccPSD hQ).1.eq h1 h2 fun i j h0 => by
    have := congrArg Complex.re h0
    simp at this
    linarith [hst i, hst j]
  obtain ⟨X1, hX1⟩ : ∃ X1, X1 = E.toBlocks₁₁ := ⟨_, rfl⟩
  obtain ⟨X2, hX2⟩ : ∃ X2, X2 = E.toBlocks₂₁ := ⟨_, rfl⟩
  rw [← hX1, ← hX2] at h1 h2 hY
  rw [← hX1]
  have hk : ∀ c, X1 *ᵥ c = 0 → cc (B * R⁻¹ * Bᵀ) *ᵥ (X2 *ᵥ c) = 0 ∧ X1 *ᵥ (diagonal (fun i => d (.inl i)) *ᵥ c) = 0 := by
    intro c hc
    have e1 := congrArg (· *ᵥ c) h1
    simp only [sub_mulVec, ← mulVec_mulVec, hc, mulVec_zero, zero_sub] at e1
    have e2 : star (X2 *ᵥ c) ⬝ᵥ cc (B * R⁻¹ * Bᵀ) *ᵥ (X2 *ᵥ c) = 0 := by
      rw [← neg_neg (cc (B * R⁻¹ * Bᵀ) *ᵥ (X2 *ᵥ c)), e1, dotProduct_neg, star_mulVec, ← dotProduct_mulVec, mulVec_mulVec _ X2ᴴ, ← hY,
        ← mulVec_mulVec, dotProduct_mulVec, ← star_mulVec, hc, star_zero, zero_dotProduct, neg_zero]
    have e3 := (hgp.dotProduct_mulVec_zero_iff _).1 e2
    refine ⟨e3, ?_⟩
    rw [← e1, e3, neg_zero]
  rw [isUnit_iff_ne_zero]
  intro h0
  obtain ⟨x, hx0, hx⟩ := exists_mulVec_eq_zero_iff.2 h0
  let K : Submodule ℂ (Fin N → ℂ) := LinearMap.ker (mulVecLin X1)
  have hK : ∀ z ∈ K, mulVecLin (diagonal fun i => d (.inl i)) z ∈ K := fun z hz => (hk z hz).2
  have : Nontrivial K := ⟨⟨⟨x, hx⟩, 0, fun h => hx0 (congrArg Subtype.val h)⟩⟩
  obtain ⟨μ, hμ⟩ := Module.End.exists_eigenvalue ((mulVecLin (diagonal fun i => d (.inl i))).restrict hK)
  obtain ⟨v, hv⟩ := hμ.exists_hasEigenvector
  have hv0 : v.1 ≠ 0 := fun h => hv.2 (Subtype.ext h)
  have hvk : X1 *ᵥ v.1 = 0 := v.2
  have hve : diagonal (fun i => d (.inl i)) *ᵥ v.1 = μ • v.1 := congrArg Subtype.val hv.apply_eq_smul
  have e4 := congrArg (· *ᵥ v.1) h2
  simp only [sub_mulVec, ← mulVec_mulVec, hvk, mulVec_zero, zero_sub, hve, mulVec_smul] at e4
  have hz : X2 *ᵥ v.1 = 0 := by
    by_contra hne
    refine oB (-μ) _ hne ?_ (ccG_zero hR (hk v.1 hvk).1)
    rw [neg_smul, ← e4, neg_neg]
    rfl
  have hE0 : E *ᵥ Sum.elim v.1 0 = 0 := by
    rw [← fromBlocks_toBlocks E, fromBlocks_mulVec, ← hX1, ← hX2]
    simp only [Sum.elim_comp_inl, Sum.elim_comp_inr, hvk, hz, mulVec_zero, add_zero]
    ext i
    rcases i with i | i <;> rfl
  refine h.basis.ne_zero (exists_mulVec_eq_zero_iff.1 ⟨_, fun h => hv0 ?_, hE0⟩)
  funext i
  exact congrFun h (.inl i)

/-- the closed loop has the first half of the eigenvectors -/
theorem EigCare.closed (h : EigCare A B Q R E d V) (hQ : Q.PosSemidef) (hR : R.PosDef) (oQ : Observable Q A) (oB : Observable Bᵀ Aᵀ) :
    IsCare A B Q R V ∧ (∀ i, (d (.inl i)).re < 0) ∧
      cc (A - B * R⁻¹ * Bᵀ * V) * E.toBlocks₁₁ = E.toBlocks₁₁ * diagonal fun i => d (.inl i) := by
  have hgp := ccPSD (ccG_psd (B := B) hR)
  have hqp := ccPSD hQ
  have hgt : (cc (B * R⁻¹ * Bᵀ))ᵀ = cc (B * R⁻¹ * Bᵀ) := by rw [← cc_conjTranspose]; exact hgp.1.eq
  have hqt : (cc Q)ᵀ = cc Q := by rw [← cc_conjTranspose]; exact hqp.1.eq
  obtain ⟨hst, h1, h2⟩ := h.toEigBasis.blocks hQ hR oQ oB
  have s1 := quotient_symm hgt hqt h1 h2 h.inv fun i j h0 => by
    have := congrArg Complex.re h0
    simp only [Complex.add_re, Complex.zero_re] at this
    linarith [hst i, hst j]
  have s2 := quotient_herm (cc_conjTranspose A) hgp.1.eq hqp.1.eq h1 h2 h.inv fun i j h0 => by
    have := congrArg Complex.re h0
    simp at this
    linarith [hst i, hst j]
  have hr := real_of_symm_herm s1 s2
  have hVt : ((E.toBlocks₂₁ * E.toBlocks₁₁⁻¹).map Complex.re)ᵀ = (E.toBlocks₂₁ * E.toBlocks₁₁⁻¹).map Complex.re := by
    rw [← transpose_map, s1]
  have hV : V = (E.toBlocks₂₁ * E.toBlocks₁₁⁻¹).map Complex.re := by
    rw [h.sol, hVt, ← two_smul ℝ, smul_smul]
    norm_num
  have hcV : cc V = E.toBlocks₂₁ * E.toBlocks₁₁⁻¹ := by rw [hV, hr]
  obtain ⟨r1, r2⟩ := quotient_riccati h1 h2 h.inv hcV
  refine ⟨⟨cc_injective ?_, ?_⟩, hst, ?_⟩
  · rw [← cc_zero] at r1
    rw [← r1]
    simp only [cc_add, cc_sub, cc_mul, cc_transpose, Matrix.mul_assoc]
  · rw [hV, hVt]
  · rw [← r2, cc_sub, cc_mul _ V]

end

/-! ### closed loops -/

section
variable {X : Matrix (Fin N) (Fin N) ℝ} {U : Matrix (Fin N) (Fin N) ℂ} {d : Fin N → ℂ}

theorem hurwitz_of_eig (h : cc X * U = U * diagonal d) (hU : IsUnit U.det) (hd : ∀ i, (d i).re < 0) : Hurwitz X := by
  intro μ x hx he
  have he' : cc X *ᵥ x = μ • x := he
  obtain ⟨c, hc⟩ : ∃ c, c = U⁻¹ *ᵥ x := ⟨_, rfl⟩
  have hxc : U *ᵥ c = x := by rw [hc, mulVec_mulVec, mul_nonsing_inv _ hU, one_mulVec]
  have hc0 : c ≠ 0 := by
    rintro rfl
    exact hx (by rw [← hxc, mulVec_zero])
  obtain ⟨i, hi⟩ := Function.ne_iff.1 hc0
  have h1 : U *ᵥ (diagonal d *ᵥ c) = U *ᵥ (μ • c) := by
    rw [mulVec_smul, hxc, ← he', ← hxc, mulVec_mulVec, mulVec_mulVec, h]
  have h2 := congrArg (U⁻¹ *ᵥ ·) h1
  simp only [mulVec_mulVec, nonsing_inv_mul _ hU, one_mulVec] at h2
  rw [← Matrix.mul_assoc, nonsing_inv_mul _ hU, Matrix.one_mul] at h2
  have h3 := congrFun h2 i
  rw [mulVec_diagonal, Pi.smul_apply, smul_eq_mul] at h3
  rw [← mul_right_cancel₀ hi h3]
  exact hd i

theorem hurwitz_eigenvalue_transpose (h : Hurwitz X) {μ : ℂ} {x : Fin N → ℂ} (hx : x ≠ 0) (he : (cc X)ᵀ *ᵥ x = μ • x) : μ.re < 0 := by
  have h0 : ((cc X)ᵀ - μ • 1).det = 0 := by
    refine exists_mulVec_eq_zero_iff.1 ⟨x, hx, ?_⟩
    rw [sub_mulVec, he, smul_mulVec, one_mulVec, sub_self]
  have h1 : (cc X - μ • 1).det = 0 := by
    rw [← h0, ← det_transpose, transpose_sub, transpose_smul, transpose_one]
  obtain ⟨y, hy, hy0⟩ := exists_mulVec_eq_zero_iff.2 h1
  refine h μ y hy ?_
  rw [sub_mulVec, smul_mulVec, one_mulVec, sub_eq_zero] at hy0
  exact hy0

theorem cc_exp (X : Matrix (Fin N) (Fin N) ℝ) : cc (NormedSpace.exp X) = NormedSpace.exp (cc X) := by
  let _ : NormedRing (Matrix (Fin N) (Fin N) ℝ) := Matrix.linftyOpNormedRing
  let _ : NormedAlgebra ℝ (Matrix (Fin N) (Fin N) ℝ) := Matrix.linftyOpNormedAlgebra
  let _ : NormedRing (Matrix (Fin N) (Fin N) ℂ) := Matrix.linftyOpNormedRing
  let _ : NormedAlgebra ℂ (Matrix (Fin N) (Fin N) ℂ) := Matrix.linftyOpNormedAlgebra
  let _ : NormedAlgebra ℚ (Matrix (Fin N) (Fin N) ℝ) := NormedAlgebra.restrictScalars ℚ ℝ _
  refine NormedSpace.map_exp (Complex.ofRealHom.mapMatrix (m := Fin N)) ?_ X
  exact continuous_pi fun i => continuous_pi fun j => Complex.continuous_ofReal.comp ((continuous_apply j).comp (continuous_apply i))

/-- exponentials of stable matrices decay -/
theorem exp_decay (h : cc X * U = U * diagonal d) (hU : IsUnit U.det) (hd : ∀ i, (d i).re < 0) :
    Filter.Tendsto (fun t : ℝ => NormedSpace.exp (t • X)) Filter.atTop (nhds 0) := by
  have hX : ∀ t : ℝ, cc (NormedSpace.exp (t • X)) = U * diagonal (fun i => Complex.exp (t * d i)) * U⁻¹ := by
    intro t
    have e : cc (t • X) = U * diagonal (fun i => (t : ℂ) * d i) * U⁻¹ := by
      have : cc X = U * diagonal d * U⁻¹ := by rw [← h, Matrix.mul_assoc, mul_nonsing_inv _ hU, Matrix.mul_one]
      rw [cc_smul, this, ← Matrix.smul_mul, ← Matrix.mul_smul]
      congr 2
      ext i j
      by_cases hij : i = j <;> simp [hij]
    rw [cc_exp, e, Matrix.exp_conj _ _ ((isUnit_iff_isUnit_det U).2 hU), Matrix.exp_diagonal]
    congr 2
    rw [Pi.exp_def]
    congr 1
    funext i
    rw [Complex.exp_eq_exp_ℂ]
  have hk : ∀ i, Filter.Tendsto (fun t : ℝ => Complex.exp (t * d i)) Filter.atTop (nhds 0) := by
    intro i
    rw [tendsto_zero_iff_norm_tendsto_zero]
    have : (fun t : ℝ => ‖Complex.exp (t * d i)‖) = fun t : ℝ => Real.exp (t * (d i).re) := by
      funext t
      rw [Complex.norm_exp]
      simp
    rw [this]
    exact Real.tendsto_exp_atBot.comp (Filter.tendsto_id.atTop_mul_const_of_neg (hd i))
  refine tendsto_pi_nhds.2 fun i => tendsto_pi_nhds.2 fun j => ?_
  have h1 : Filter.Tendsto (fun t : ℝ => cc (NormedSpace.exp (t • X)) i j) Filter.atTop (nhds 0) := by
    have : (fun t : ℝ => cc (NormedSpace.exp (t • X)) i j) = fun t : ℝ => ∑ k, U i k * Complex.exp (t * d k) * U⁻¹ k j := by
      funext t
      rw [hX t, Matrix.mul_apply]
      simp only [mul_diagonal]
    rw [this, show (0 : ℂ) = ∑ k : Fin N, U i k * 0 * U⁻¹ k j by simp]
    exact tendsto_finsetSum _ fun k _ => ((hk k).const_mul _).mul_const _
  have h2 := (Complex.continuous_re.tendsto 0).comp h1
  exact h2

end

section
variable {A : Matrix (Fin N) (Fin N) ℝ} {B : Matrix (Fin N) (Fin P) ℝ} {Q : Matrix (Fin N) (Fin N) ℝ} {R : Matrix (Fin P) (Fin P) ℝ}
  {V V' : Matrix (Fin N) (Fin N) ℝ} {U : Matrix (Fin N) (Fin N) ℂ} {d : Fin N → ℂ}

theorem care_reassoc : Aᵀ * V + V * A - V * B * R⁻¹ * Bᵀ * V + Q = Aᵀ * V + V * A - V * (B * R⁻¹ * Bᵀ) * V + Q := by
  simp only [Matrix.mul_assoc]

/-- there is one stabilising solution -/
theorem care_unique (hV : IsCare A B Q R V) (hG : (B * R⁻¹ * Bᵀ)ᵀ = B * R⁻¹ * Bᵀ)
    (h : cc (A - B * R⁻¹ * Bᵀ * V) * U = U * diagonal d) (hU : IsUnit U.det) (hd : ∀ i, (d i).re < 0)
    (hV' : IsStabilising A B Q R V') : V' = V := by
  obtain ⟨g, hg⟩ : ∃ g, g = B * R⁻¹ * Bᵀ := ⟨_, rfl⟩
  have e1 := hV.eq
  have e2 := hV'.care.eq
  have hst := hV'.stable
  have s2 := hV'.care.symm
  rw [care_reassoc, ← hg] at e1 e2
  rw [← hg] at h hst hG
  have hD : (A - g * V')ᵀ * (V - V') = -((V - V') * (A - g * V)) := by
    rw [← sub_eq_zero, ← sub_eq_zero.2 (e1.trans e2.symm)]
    rw [transpose_sub, transpose_mul, s2, hG]
    simp only [Matrix.mul_sub, Matrix.sub_mul, Matrix.mul_assoc]
    abel
  have hc : ∀ i, cc (V - V') *ᵥ (fun n => U n i) = 0 := by
    intro i
    by_contra hne
    have hu : cc (A - g * V) *ᵥ (fun n => U n i) = d i • fun n => U n i := by
      ext n
      have := congrFun (congrFun h n) i
      rw [mul_diagonal] at this
      rw [Pi.smul_apply, smul_eq_mul, mul_comm, ← this]
      rfl
    have h1 : (cc (A - g * V'))ᵀ *ᵥ (cc (V - V') *ᵥ fun n => U n i) = (-d i) • (cc (V - V') *ᵥ fun n => U n i) := by
      rw [mulVec_mulVec, ← cc_transpose, ← cc_mul, hD, cc_neg, cc_mul, neg_mulVec, ← mulVec_mulVec, hu, mulVec_smul, neg_smul]
    have := hurwitz_eigenvalue_transpose hst hne h1
    rw [Complex.neg_re] at this
    linarith [hd i]
  have h2 : cc (V - V') * U = 0 := by
    ext n i
    exact congrFun (hc i) n
  have h3 := congrArg (· * U⁻¹) h2
  simp only [Matrix.mul_assoc, mul_nonsing_inv _ hU, Matrix.mul_one, Matrix.zero_mul] at h3
  rw [← cc_zero] at h3
  exact (sub_eq_zero.1 (cc_injective h3)).symm

/-- the stabilising solution is positive semidefinite -/
theorem care_nonneg (hV : IsCare A B Q R V) (hQ : Q.PosSemidef) (hR : R.PosDef)
    (hdec : Filter.Tendsto (fun t : ℝ => NormedSpace.exp (t • (A - B * R⁻¹ * Bᵀ * V))) Filter.atTop (nhds 0)) : V.PosSemidef := by
  have hsym := hV.symm
  obtain ⟨g, hg⟩ : ∃ g, g = B * R⁻¹ * Bᵀ := ⟨_, rfl⟩
  have hgp : g.PosSemidef := hg ▸ ccG_psd hR
  have hgt : gᵀ = g := by simpa [conjTranspose_eq_transpose_of_trivial] using hgp.1.eq
  rw [← hg] at hdec
  obtain ⟨X, hX⟩ : ∃ X, X = A - g * V := ⟨_, rfl⟩
  rw [← hX] at hdec
  have hric : Xᵀ * V + V * X = -(Q + V * g * V) := by
    have h0 := hV.eq
    rw [care_reassoc, ← hg] at h0
    rw [hX, transpose_sub, transpose_mul, hsym, hgt, ← sub_eq_zero, ← h0]
    simp only [Matrix.mul_sub, Matrix.sub_mul, Matrix.mul_assoc]
    abel
  refine .of_dotProduct_mulVec_nonneg (by rw [IsHermitian, conjTranspose_eq_transpose_of_trivial, hsym]) fun x => ?_
  rw [star_trivial]
  let y : ℝ → Fin N → ℝ := fun t => NormedSpace.exp (t • X) *ᵥ x
  have hy : ∀ t, HasDerivAt y (X *ᵥ y t) t := fun t => hasDerivAt_exp_mulVec X x t
  have hf : ∀ t, HasDerivAt (fun t => y t ⬝ᵥ V *ᵥ y t) (-(y t ⬝ᵥ (Q + V * g * V) *ᵥ y t)) t := by
    intro t
    have h1 : HasDerivAt (fun t => y t ⬝ᵥ V *ᵥ y t) (X *ᵥ y t ⬝ᵥ V *ᵥ y t + y t ⬝ᵥ V *ᵥ (X *ᵥ y t)) t := by
      have h2 := hasDerivWithinAt_dot (s := univ) (hy t).hasDerivWithinAt (hasDerivWithinAt_mulVec V (hy t).hasDerivWithinAt)
      exact hasDerivWithinAt_univ.1 h2
    refine h1.congr_deriv ?_
    rw [← neg_neg (y t ⬝ᵥ (Q + V * g * V) *ᵥ y t), ← dotProduct_neg, ← neg_mulVec, ← hric, neg_neg, add_mulVec, dotProduct_add,
      ← mulVec_mulVec, ← mulVec_mulVec, dotProduct_mulVec _ Xᵀ, vecMul_transpose]
  have hanti : Antitone fun t => y t ⬝ᵥ V *ᵥ y t := by
    refine antitone_of_hasDerivAt_nonpos hf fun t => ?_
    have h1 := hQ.dotProduct_mulVec_nonneg (y t)
    have h2 := hgp.dotProduct_mulVec_nonneg (V *ᵥ y t)
    rw [star_trivial] at h1 h2
    have h3 : y t ⬝ᵥ (V * g * V) *ᵥ y t = V *ᵥ y t ⬝ᵥ g *ᵥ (V *ᵥ y t) := by
      rw [Matrix.mul_assoc, ← mulVec_mulVec, dotProduct_mulVec _ V, ← mulVec_transpose, hsym, ← mulVec_mulVec]
    rw [add_mulVec, dotProduct_add, h3]
    show -_ ≤ (0 : ℝ)
    linarith
  have hlim : Filter.Tendsto (fun t => y t ⬝ᵥ V *ᵥ y t) Filter.atTop (nhds 0) := by
    have hyl : ∀ n, Filter.Tendsto (fun t => y t n) Filter.atTop (nhds 0) := by
      intro n
      rw [show (0 : ℝ) = ∑ k, (0 : ℝ) * x k by simp]
      refine tendsto_finsetSum _ fun k _ => Filter.Tendsto.mul_const _ ?_
      exact tendsto_pi_nhds.1 (tendsto_pi_nhds.1 hdec n) k
    rw [show (0 : ℝ) = ∑ n, (0 : ℝ) * ∑ k, V n k * 0 by simp]
    exact tendsto_finsetSum _ fun n _ => (hyl n).mul (tendsto_finsetSum _ fun k _ => (hyl k).const_mul _)
  have h0 := hanti.le_of_tendsto hlim 0
  have hy0 : y 0 = x := by
    show NormedSpace.exp ((0 : ℝ) • X) *ᵥ x = x
    rw [exp_zero_smul, one_mulVec]
  rwa [hy0] at h0

/-- ... and definite if no eigenvector of `A` is mapped to zero by `Q` -/
theorem care_posDef (hV : IsCare A B Q R V) (hQ : Q.PosSemidef) (hP : V.PosSemidef) (oQ : Observable Q A) : V.PosDef := by
  have hsym := hV.symm
  have e := congrArg cc hV.eq
  rw [cc_zero] at e
  simp only [cc_add, cc_sub, cc_mul] at e
  have hVh : (cc V)ᴴ = cc V := by rw [cc_conjTranspose, ← cc_transpose, hsym]
  have hk : ∀ x, cc V *ᵥ x = 0 → cc Q *ᵥ x = 0 ∧ cc V *ᵥ (cc A *ᵥ x) = 0 := by
    intro x hx
    have h1 := congrArg (· *ᵥ x) e
    simp only [add_mulVec, sub_mulVec, ← mulVec_mulVec, hx, mulVec_zero, zero_mulVec, zero_add, sub_zero] at h1
    have h2 : star x ⬝ᵥ cc V *ᵥ (cc A *ᵥ x) = 0 := by
      rw [dotProduct_mulVec, ← hVh, ← star_mulVec, hx, star_zero, zero_dotProduct]
    have h3 := congrArg (star x ⬝ᵥ ·) h1
    simp only [dotProduct_add, h2, zero_add, dotProduct_zero] at h3
    have h4 := ((ccPSD hQ).dotProduct_mulVec_zero_iff x).1 h3
    refine ⟨h4, ?_⟩
    rwa [h4, add_zero] at h1
  have hker : ∀ x, cc V *ᵥ x = 0 → x = 0 := by
    intro x hx
    by_contra hx0
    let K : Submodule ℂ (Fin N → ℂ) := LinearMap.ker (mulVecLin (cc V))
    have hK : ∀ z ∈ K, mulVecLin (cc A) z ∈ K := fun z hz => (hk z hz).2
    have : Nontrivial K := ⟨⟨⟨x, hx⟩, 0, fun h => hx0 (congrArg Subtype.val h)⟩⟩
    obtain ⟨μ, hμ⟩ := Module.End.exists_eigenvalue ((mulVecLin (cc A)).restrict hK)
    obtain ⟨v, hv⟩ := hμ.exists_hasEigenvector
    refine oQ μ v.1 (fun h => hv.2 (Subtype.ext h)) ?_ (hk v.1 v.2).1
    exact congrArg Subtype.val hv.apply_eq_smul
  refine hP.posDef_iff_isUnit.2 ?_
  rw [isUnit_iff_isUnit_det]
  by_contra hn
  have h0 : V.det = 0 := by
    by_contra h
    exact hn (isUnit_iff_ne_zero.2 h)
  have h1 : (cc V).det = 0 := by
    have : (cc V).det = ((V.det : ℝ) : ℂ) := (RingHom.map_det Complex.ofRealHom V).symm
    rw [this, h0, Complex.ofReal_zero]
  obtain ⟨y, hy, hy0⟩ := exists_mulVec_eq_zero_iff.2 h1
  exact hy (hker y hy0)

end

end Cbadc.Filter
