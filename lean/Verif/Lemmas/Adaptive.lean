import Mathlib.Analysis.InnerProductSpace.Basic
import Mathlib.LinearAlgebra.Matrix.Hermitian
import Mathlib.LinearAlgebra.Matrix.NonsingularInverse
import Mathlib.Tactic.Linarith
import Mathlib.Tactic.LinearCombination
import Mathlib.Tactic.Module
import Verif.Model.Adaptive
import Verif.Spec.Adaptive

/-!
# Helper lemmas for the adaptive filters
-/

namespace Cbadc.Adaptive
open Finset Matrix

section Rls

variable {𝕜 : Type*} [RCLike 𝕜] {ι : Type*} [Fintype ι] [DecidableEq ι]

/-- Invariant of recursive least squares: `J` is a positive definite quadratic form around its minimiser `w`, and
`V` is the inverse of its matrix. -/
def RlsInv (R V : Matrix ι ι 𝕜) (w : ι → 𝕜) (J : (ι → 𝕜) → ℝ) : Prop :=
  R.IsHermitian ∧ V.IsHermitian ∧ V * R = 1 ∧
    (∀ d, d ≠ 0 → 0 < RCLike.re (star d ⬝ᵥ R *ᵥ d)) ∧
    ∀ u, J u = J w + RCLike.re (star (u - w) ⬝ᵥ R *ᵥ (u - w))

omit [DecidableEq ι] in
private theorem herm_swap {R : Matrix ι ι 𝕜} (hR : R.IsHermitian) (a b : ι → 𝕜) :
    star a ⬝ᵥ R *ᵥ b = star (star b ⬝ᵥ R *ᵥ a) := by
  rw [Matrix.star_dotProduct, Matrix.star_mulVec, hR.eq, ← Matrix.dotProduct_mulVec]

theorem RlsInv.step {R V : Matrix ι ι 𝕜} {w : ι → 𝕜} {J : (ι → 𝕜) → ℝ} (h : RlsInv R V w J) (lam : ℝ)
    (hl : 0 < lam) (x : ι → 𝕜) (y : 𝕜) (g : ι → 𝕜)
    (hg : g = ((lam : 𝕜) + star x ⬝ᵥ V *ᵥ x)⁻¹ • (V *ᵥ x)) :
    RlsInv ((lam : 𝕜) • R + vecMulVec x (star x)) ((lam : 𝕜)⁻¹ • (V - vecMulVec g (star (V *ᵥ x))))
      (w + star (y - star w ⬝ᵥ x) • g) (fun u => lam * J u + ‖y - star u ⬝ᵥ x‖ ^ 2) := by
  obtain ⟨hR, hV, hVR, hpos, hJ⟩ := h
  have hRV : R * V = 1 := mul_eq_one_comm.1 hVR
  set α := V *ᵥ x with hα
  have hxα : R *ᵥ α = x := by rw [hα, mulVec_mulVec, hRV, one_mulVec]
  set c := star x ⬝ᵥ α with hc
  have hcα : c = star α ⬝ᵥ R *ᵥ α := by
    have h1 := herm_swap hR α α
    have h2 : star x ⬝ᵥ α = star (star α ⬝ᵥ x) := by rw [Matrix.star_dotProduct]
    rw [hc, h2]
    rw [hxα] at h1 ⊢
    exact h1.symm
  have hc0 : 0 ≤ RCLike.re c := by
    rw [hcα]
    by_cases h0 : α = 0
    · simp [h0]
    · exact (hpos α h0).le
  have hden : (lam : 𝕜) + c ≠ 0 := by
    intro h0
    have h1 := congrArg RCLike.re h0
    simp only [map_add, RCLike.ofReal_re, map_zero] at h1
    linarith
  have hl0 : (lam : 𝕜) ≠ 0 := by exact_mod_cast hl.ne'
  have hαg : α = ((lam : 𝕜) + c) • g := by rw [hg, smul_smul, mul_inv_cancel₀ hden, one_smul]
  -- the new matrix
  set R' : Matrix ι ι 𝕜 := (lam : 𝕜) • R + vecMulVec x (star x) with hR'
  have hR'h : R'.IsHermitian := by
    unfold Matrix.IsHermitian
    rw [hR', conjTranspose_add, conjTranspose_smul, hR.eq, conjTranspose_vecMulVec, star_star]
    simp
  have hR'mul : ∀ d, R' *ᵥ d = (lam : 𝕜) • (R *ᵥ d) + (star x ⬝ᵥ d) • x := by
    intro d
    rw [hR', add_mulVec, smul_mulVec, vecMulVec_mulVec]
    simp
  have hg' : R' *ᵥ g = x := by
    have h1 : ((lam : 𝕜) + c) • (R' *ᵥ g) = ((lam : 𝕜) + c) • x := by
      rw [← mulVec_smul, ← hαg, hR'mul, hxα, ← hc, add_smul]
    exact smul_right_injective _ hden h1
  have hq : ∀ d, star d ⬝ᵥ R' *ᵥ d =
      (lam : 𝕜) * (star d ⬝ᵥ R *ᵥ d) + (star d ⬝ᵥ x) * star (star d ⬝ᵥ x) := by
    intro d
    rw [hR'mul, dotProduct_add, dotProduct_smul, dotProduct_smul, smul_eq_mul, smul_eq_mul,
      ← Matrix.star_dotProduct, mul_comm (star x ⬝ᵥ d)]
  have hqre : ∀ d, RCLike.re (star d ⬝ᵥ R' *ᵥ d) =
      lam * RCLike.re (star d ⬝ᵥ R *ᵥ d) + ‖star d ⬝ᵥ x‖ ^ 2 := by
    intro d
    rw [hq, map_add, RCLike.re_ofReal_mul]
    congr 1
    have := RCLike.mul_conj (star d ⬝ᵥ x)
    rw [starRingEnd_apply] at this
    rw [this]
    norm_cast
  have hpos' : ∀ d, d ≠ 0 → 0 < RCLike.re (star d ⬝ᵥ R' *ᵥ d) := by
    intro d hd
    rw [hqre]
    have := mul_pos hl (hpos d hd)
    positivity
  have hV'R' : ((lam : 𝕜)⁻¹ • (V - vecMulVec g (star α))) * R' = 1 := by
    have h1 : (V - vecMulVec g (star α)) * R' = (lam : 𝕜) • 1 := by
      have e1 : V * R' = (lam : 𝕜) • 1 + vecMulVec α (star x) := by
        rw [hR', mul_add, mul_smul_comm, hVR, mul_vecMulVec]
      have e2 : vecMulVec g (star α) * R' = vecMulVec g (((lam : 𝕜) + c) • star x) := by
        rw [vecMulVec_mul]
        congr 1
        have h2 : star α ᵥ* R' = star (R' *ᵥ α) := by
          rw [star_mulVec R' α, hR'h.eq]
        have h3 : star x ⬝ᵥ α = c := rfl
        have hcs : star c = c := by
          rw [hcα]; exact (herm_swap hR α α).symm
        rw [h2, hR'mul, hxα, h3, star_add, star_smul, star_smul, hcs, add_smul]
        simp
      rw [sub_mul, e1, e2, hαg]
      rw [vecMulVec_smul, smul_vecMulVec]
      abel
    rw [smul_mul_assoc, h1, smul_smul, inv_mul_cancel₀ hl0, one_smul]
  have hV'h : ((lam : 𝕜)⁻¹ • (V - vecMulVec g (star α))).IsHermitian := by
    have hR'V' := mul_eq_one_comm.1 hV'R'
    have h1 := congrArg conjTranspose hR'V'
    rw [conjTranspose_mul, hR'h.eq, conjTranspose_one] at h1
    exact left_inv_eq_right_inv h1 hR'V'
  refine ⟨hR'h, hV'h, hV'R', hpos', ?_⟩
  -- completing the square
  set e := y - star w ⬝ᵥ x with he
  set p := star e • g with hp
  have hR'p : R' *ᵥ p = star e • x := by rw [hp, mulVec_smul, hg']
  have key : ∀ d, lam * J (w + d) + ‖y - star (w + d) ⬝ᵥ x‖ ^ 2 =
      lam * J w + ‖e‖ ^ 2 + RCLike.re (star d ⬝ᵥ R' *ᵥ d) - 2 * RCLike.re (star d ⬝ᵥ R' *ᵥ p) := by
    intro d
    have h1 : y - star (w + d) ⬝ᵥ x = e - star d ⬝ᵥ x := by
      rw [star_add, add_dotProduct, he]; ring
    have h2 : ‖e - star d ⬝ᵥ x‖ ^ 2 = ‖e‖ ^ 2 - 2 * RCLike.re (star e * (star d ⬝ᵥ x)) + ‖star d ⬝ᵥ x‖ ^ 2 := by
      have := @norm_sub_sq 𝕜 𝕜 _ _ _ e (star d ⬝ᵥ x)
      rw [this]
      congr 3
      rw [RCLike.inner_apply, mul_comm]
      rfl
    rw [h1, h2, hJ (w + d), add_sub_cancel_left, hqre, hR'p, dotProduct_smul, smul_eq_mul]
    ring
  intro u
  have k1 := key (u - w)
  have k2 := key p
  rw [add_sub_cancel] at k1
  have k3 : RCLike.re (star (u - w - p) ⬝ᵥ R' *ᵥ (u - w - p)) =
      RCLike.re (star (u - w) ⬝ᵥ R' *ᵥ (u - w)) - 2 * RCLike.re (star (u - w) ⬝ᵥ R' *ᵥ p) +
        RCLike.re (star p ⬝ᵥ R' *ᵥ p) := by
    rw [mulVec_sub, star_sub, dotProduct_sub, sub_dotProduct, sub_dotProduct]
    have h4 : RCLike.re (star p ⬝ᵥ R' *ᵥ (u - w)) = RCLike.re (star (u - w) ⬝ᵥ R' *ᵥ p) := by
      rw [herm_swap hR'h p (u - w)]
      exact RCLike.conj_re _
    simp only [map_sub]
    rw [h4]
    ring
  have k4 : u - (w + p) = u - w - p := by abel
  show lam * J u + ‖y - star u ⬝ᵥ x‖ ^ 2 = _
  rw [k1, k4, k3]
  show _ = lam * J (w + p) + ‖y - star (w + p) ⬝ᵥ x‖ ^ 2 + _
  rw [k2]
  ring

end Rls

section Link

variable {𝕜 : Type*} [RCLike 𝕜]

/-- Coefficients and offset as one vector. -/
def wvec (M K : ℕ) (h : ℕ → ℕ → 𝕜) (o : 𝕜) : Fin (M * K + 1) → 𝕜 :=
  fun i => if (i : ℕ) < M * K then h (i / K) (i % K) else o

/-- The flattened sample as a vector. -/
def xvec (M K : ℕ) (x : ℕ → ℕ → 𝕜) : Fin (M * K + 1) → 𝕜 := fun i => flatten M K x i

/-- A two-dimensional array as a matrix. -/
def mat (n : ℕ) (V : ℕ → ℕ → 𝕜) : Matrix (Fin n) (Fin n) 𝕜 := Matrix.of fun i j => V i j

omit [RCLike 𝕜] in
theorem sum_flat [AddCommMonoid 𝕜] (M K : ℕ) (F : ℕ → ℕ → 𝕜) :
    ∑ i ∈ range (M * K), F (i / K) (i % K) = ∑ m ∈ range M, ∑ k ∈ range K, F m k := by
  induction M with
  | zero => simp
  | succ M ih =>
    rw [Nat.succ_mul, Finset.sum_range_add, ih, Finset.sum_range_succ]
    congr 1
    refine Finset.sum_congr rfl fun k hk => ?_
    have hk' := Finset.mem_range.1 hk
    have hK : 0 < K := by omega
    rw [Nat.mul_comm M K, Nat.mul_add_div hK, Nat.mul_add_mod, Nat.div_eq_of_lt hk', Nat.mod_eq_of_lt hk',
      Nat.add_zero]

theorem sum_vec (n : ℕ) (F : ℕ → 𝕜) : ∑ i : Fin (n + 1), F i = ∑ i ∈ range n, F i + F n := by
  rw [Fin.sum_univ_eq_sum_range (fun i => F i) (n + 1), Finset.sum_range_succ]

theorem output_eq (M K : ℕ) (h : ℕ → ℕ → 𝕜) (o : 𝕜) (x : ℕ → ℕ → 𝕜) :
    output M K h o x = star (wvec M K h o) ⬝ᵥ xvec M K x := by
  have h1 : star (wvec M K h o) ⬝ᵥ xvec M K x = ∑ i : Fin (M * K + 1),
      (fun i : ℕ => star (if i < M * K then h (i / K) (i % K) else o) * flatten M K x i) i := rfl
  rw [h1, sum_vec (M * K) fun i : ℕ => star (if i < M * K then h (i / K) (i % K) else o) * flatten M K x i]
  unfold output
  rw [← sum_flat M K fun m k => star (h m k) * x m k]
  congr 1
  · refine Finset.sum_congr rfl fun i hi => ?_
    have := Finset.mem_range.1 hi
    simp [flatten, this]
  · simp [flatten]

theorem norm_wvec (M K : ℕ) (h : ℕ → ℕ → 𝕜) (o : 𝕜) :
    RCLike.re (star (wvec M K h o) ⬝ᵥ wvec M K h o) =
      ∑ m ∈ range M, ∑ k ∈ range K, ‖h m k‖ ^ 2 + ‖o‖ ^ 2 := by
  have hsq : ∀ z : 𝕜, star z * z = ((‖z‖ ^ 2 : ℝ) : 𝕜) := by
    intro z
    have := RCLike.conj_mul z
    rw [starRingEnd_apply] at this
    rw [this]; norm_cast
  have h1 : star (wvec M K h o) ⬝ᵥ wvec M K h o = ∑ i : Fin (M * K + 1),
      (fun i : ℕ => star (if i < M * K then h (i / K) (i % K) else o) *
        (if i < M * K then h (i / K) (i % K) else o)) i := rfl
  rw [h1, sum_vec (M * K) fun i : ℕ => star (if i < M * K then h (i / K) (i % K) else o) *
    (if i < M * K then h (i / K) (i % K) else o), map_add, map_sum]
  congr 1
  · rw [← sum_flat M K fun m k => ‖h m k‖ ^ 2]
    refine Finset.sum_congr rfl fun i hi => ?_
    have := Finset.mem_range.1 hi
    simp only [this, if_true, hsq, RCLike.ofReal_re]
  · simp only [lt_irrefl, if_false, hsq, RCLike.ofReal_re]

/-- The cost of a vector of coefficients. -/
noncomputable def vcost (M K : ℕ) (delta : ℝ) (data : List (ℝ × (ℕ → ℕ → 𝕜) × 𝕜))
    (u : Fin (M * K + 1) → 𝕜) : ℝ :=
  data.foldl (fun c d => d.1 * c + ‖d.2.2 - star u ⬝ᵥ xvec M K d.2.1‖ ^ 2) (delta * RCLike.re (star u ⬝ᵥ u))

theorem cost_eq (M K : ℕ) (delta : ℝ) (data : List (ℝ × (ℕ → ℕ → 𝕜) × 𝕜)) (h : ℕ → ℕ → 𝕜) (o : 𝕜) :
    cost M K delta data h o = vcost M K delta data (wvec M K h o) := by
  unfold cost vcost
  rw [norm_wvec]
  simp only [output_eq]

/-- The matrix of the quadratic form. -/
noncomputable def vgram (M K : ℕ) (delta : ℝ) (data : List (ℝ × (ℕ → ℕ → 𝕜) × 𝕜)) :
    Matrix (Fin (M * K + 1)) (Fin (M * K + 1)) 𝕜 :=
  mat _ (gram M K delta data)

theorem vgram_nil (M K : ℕ) (delta : ℝ) :
    vgram M K delta ([] : List (ℝ × (ℕ → ℕ → 𝕜) × 𝕜)) = (delta : 𝕜) • 1 := by
  ext i j
  simp [vgram, mat, gram, Matrix.one_apply, Fin.ext_iff]

theorem entry_eq (M K : ℕ) (x : ℕ → ℕ → 𝕜) (i : ℕ) : entry M K x i = flatten M K x i := rfl

theorem vgram_snoc (M K : ℕ) (delta : ℝ) (data : List (ℝ × (ℕ → ℕ → 𝕜) × 𝕜)) (d : ℝ × (ℕ → ℕ → 𝕜) × 𝕜) :
    vgram M K delta (data ++ [d]) = (d.1 : 𝕜) • vgram M K delta data +
      vecMulVec (xvec M K d.2.1) (star (xvec M K d.2.1)) := by
  ext i j
  simp [vgram, mat, gram, List.foldl_append, vecMulVec_apply, xvec, entry_eq, RCLike.real_smul_eq_coe_mul]

theorem RlsInv.init (M K : ℕ) (delta : ℝ) (hd : 0 < delta) :
    RlsInv (vgram M K delta ([] : List (ℝ × (ℕ → ℕ → 𝕜) × 𝕜)))
      (mat _ fun i j => (if i = j then 1 else 0) / (delta : 𝕜)) (wvec M K (fun _ _ => 0) 0)
      (vcost M K delta []) := by
  have hd0 : (delta : 𝕜) ≠ 0 := by exact_mod_cast hd.ne'
  have hV : mat (M * K + 1) (fun i j => (if i = j then 1 else 0) / (delta : 𝕜)) = (delta : 𝕜)⁻¹ • 1 := by
    ext i j
    by_cases hij : i = j
    · simp [mat, hij]
    · have : (i : ℕ) ≠ j := fun h => hij (Fin.ext h)
      simp [mat, hij, this]
  have hw : wvec M K (fun _ _ => (0 : 𝕜)) 0 = 0 := by
    funext i; simp [wvec]
  have hre : ∀ d : Fin (M * K + 1) → 𝕜, RCLike.re (star d ⬝ᵥ ((delta : 𝕜) • (1 : Matrix _ _ 𝕜)) *ᵥ d) =
      delta * RCLike.re (star d ⬝ᵥ d) := by
    intro d
    rw [smul_mulVec, one_mulVec, dotProduct_smul, smul_eq_mul, RCLike.re_ofReal_mul]
  rw [vgram_nil, hV, hw]
  refine ⟨?_, ?_, ?_, fun d hd' => ?_, fun u => ?_⟩
  · simp [Matrix.IsHermitian, conjTranspose_smul]
  · simp [Matrix.IsHermitian, conjTranspose_smul]
  · rw [smul_mul_smul_comm, inv_mul_cancel₀ hd0, one_smul, one_mul]
  · rw [hre]
    refine mul_pos hd ?_
    have hsum : RCLike.re (star d ⬝ᵥ d) = ∑ i, ‖d i‖ ^ 2 := by
      simp only [dotProduct, Pi.star_apply, map_sum]
      refine Finset.sum_congr rfl fun i _ => ?_
      have := RCLike.conj_mul (d i)
      rw [starRingEnd_apply] at this
      rw [this]
      norm_cast
    rw [hsum]
    obtain ⟨i, hi⟩ := Function.ne_iff.1 hd'
    exact Finset.sum_pos' (fun _ _ => by positivity) ⟨i, Finset.mem_univ _, by
      have : 0 < ‖d i‖ := norm_pos_iff.2 hi
      positivity⟩
  · rw [sub_zero, hre]
    simp [vcost]

/-- A filter with one reference whose state is the exact solution for the data seen so far. -/
def Trained (M K : ℕ) (delta : ℝ) (data : List (ℝ × (ℕ → ℕ → 𝕜) × 𝕜)) (f : Filter 𝕜) : Prop :=
  f.M = M ∧ f.K = K ∧ f.L = 1 ∧ ∃ v V, f.off = .col v ∧ f.V = some V ∧
    RlsInv (vgram M K delta data) (mat (M * K + 1) V) (wvec M K (f.h 0) (v 0)) (vcost M K delta data)

theorem bdim_self (n : ℕ) : bdim n n = .ok n := by unfold bdim; rw [if_pos rfl]

theorem bdim_one (n : ℕ) : bdim n 1 = .ok n := by
  unfold bdim
  by_cases h : n = 1
  · rw [if_pos h]
  · rw [if_neg h, if_neg h, if_pos rfl]

theorem call_one (f : Filter 𝕜) (hL : f.L = 1) (v : ℕ → 𝕜) (hv : f.off = .col v) (x : A3 𝕜) (hm : x.m = f.M)
    (hk : x.k = f.K) : ∃ z, f.call x = .ok z ∧ z.r = 1 ∧ z.c = x.n ∧
      ∀ b < x.n, z.f 0 b = output f.M f.K (f.h 0) (v 0) (x.f b) := by
  unfold Filter.call
  rw [if_neg (by tauto)]
  unfold A2.bop Filter.offArr
  rw [hv]
  dsimp only
  rw [hL, bdim_one]
  dsimp only
  rw [bdim_self]
  dsimp only
  refine ⟨_, rfl, rfl, rfl, fun b hb => ?_⟩
  simp only [A2.T, if_true, output]
  by_cases h1 : x.n = 1
  · have : b = 0 := by omega
    simp [h1, this]
  · simp [h1]

theorem error_one (f : Filter 𝕜) (hL : f.L = 1) (v : ℕ → 𝕜) (hv : f.off = .col v) (x : A3 𝕜) (hm : x.m = f.M)
    (hk : x.k = f.K) (y : A2 𝕜) (hr : y.r = 1) (hc : y.c = x.n) :
    ∃ e, f.error x y = .ok e ∧ e.r = 1 ∧ e.c = x.n ∧
      ∀ b < x.n, e.f 0 b = star (y.f 0 b - output f.M f.K (f.h 0) (v 0) (x.f b)) := by
  obtain ⟨z, hz, zr, zc, zf⟩ := call_one f hL v hv x hm hk
  unfold Filter.error
  rw [hz]
  dsimp only
  unfold A2.bop
  rw [hr, zr, bdim_self, hc, zc, bdim_self]
  refine ⟨_, rfl, rfl, rfl, fun b hb => ?_⟩
  rw [← zf b hb]
  by_cases h1 : x.n = 1
  · have : b = 0 := by omega
    simp [h1, this]
  · simp [h1]

theorem Trained.step {M K : ℕ} {delta : ℝ} {data : List (ℝ × (ℕ → ℕ → 𝕜) × 𝕜)} {f : Filter 𝕜}
    (h : Trained M K delta data f) (d' lam : ℝ) (hl : 0 < lam) (x : ℕ → ℕ → 𝕜) (y : ℕ → 𝕜) :
    ∃ f', f.rlsStep lam (f.covariance d') x y = .ok f' ∧ Trained M K delta (data ++ [(lam, x, y 0)]) f' := by
  obtain ⟨rfl, rfl, hL, v, V, hv, hV, hinv⟩ := h
  obtain ⟨e, he, her, hec, hef⟩ := error_one f hL v hv ⟨1, f.M, f.K, fun _ => x⟩ rfl rfl
    ⟨f.L, 1, fun l _ => y l⟩ hL rfl
  replace hef := hef 0 one_pos
  have hcov : f.covariance d' = V := by unfold Filter.covariance; rw [hV]
  rw [hcov]
  unfold Filter.rlsStep
  rw [he]
  dsimp only
  rw [if_neg (by omega), hv]
  dsimp only
  rw [if_neg (not_not.2 hec)]
  refine ⟨_, rfl, rfl, rfl, hL, _, _, rfl, rfl, ?_⟩
  have hmv : ∀ i : Fin (f.M * f.K + 1), mv (f.M * f.K + 1) V (flatten f.M f.K x) i =
      (mat (f.M * f.K + 1) V *ᵥ xvec f.M f.K x) i := by
    intro i
    unfold mv
    rw [← Fin.sum_univ_eq_sum_range (fun j => V i j * flatten f.M f.K x j)]
    rfl
  have hg : (fun i : Fin (f.M * f.K + 1) => gain (f.M * f.K + 1) lam V (flatten f.M f.K x) i) =
      ((lam : 𝕜) + star (xvec f.M f.K x) ⬝ᵥ mat _ V *ᵥ xvec f.M f.K x)⁻¹ • (mat _ V *ᵥ xvec f.M f.K x) := by
    funext i
    unfold gain
    rw [hmv, Pi.smul_apply, smul_eq_mul, div_eq_inv_mul]
    congr 3
    rw [← Fin.sum_univ_eq_sum_range
      (fun j => star (flatten f.M f.K x j) * mv (f.M * f.K + 1) V (flatten f.M f.K x) j)]
    refine Finset.sum_congr rfl fun j _ => ?_
    rw [hmv]
    rfl
  have hs := hinv.step lam hl (xvec f.M f.K x) (y 0) _ hg
  rw [vgram_snoc]
  have hV' : mat (f.M * f.K + 1) (fun i j => (V i j - gain (f.M * f.K + 1) lam V (flatten f.M f.K x) i *
      star (mv (f.M * f.K + 1) V (flatten f.M f.K x) j)) / (lam : 𝕜)) =
      (lam : 𝕜)⁻¹ • (mat _ V - vecMulVec (fun i : Fin (f.M * f.K + 1) =>
        gain (f.M * f.K + 1) lam V (flatten f.M f.K x) i) (star (mat _ V *ᵥ xvec f.M f.K x))) := by
    ext i j
    simp only [mat, Matrix.of_apply, Matrix.smul_apply, Matrix.sub_apply, vecMulVec_apply, Pi.star_apply,
      smul_eq_mul]
    rw [div_eq_inv_mul, hmv]
    rfl
  have hw' : wvec f.M f.K (fun m k => f.h 0 m k +
        gain (f.M * f.K + 1) lam V (flatten f.M f.K x) (m * f.K + k) * e.f 0 0)
      (v 0 + gain (f.M * f.K + 1) lam V (flatten f.M f.K x) (f.M * f.K + 1 - 1) * e.f 0 0) =
      wvec f.M f.K (f.h 0) (v 0) + star (y 0 - star (wvec f.M f.K (f.h 0) (v 0)) ⬝ᵥ xvec f.M f.K x) •
        (fun i : Fin (f.M * f.K + 1) => gain (f.M * f.K + 1) lam V (flatten f.M f.K x) i) := by
    funext i
    rw [hef, output_eq]
    simp only [wvec, Pi.add_apply, Pi.smul_apply, smul_eq_mul]
    by_cases hi : (i : ℕ) < f.M * f.K
    · simp only [hi, if_true, Nat.div_add_mod']
      ring
    · have hi' : (i : ℕ) = f.M * f.K + 1 - 1 := by have := i.2; omega
      simp only [hi, if_false]
      rw [hi']
      ring
  have hJ : vcost f.M f.K delta (data ++ [(lam, x, y 0)]) = fun u => lam * vcost f.M f.K delta data u +
      ‖y 0 - star u ⬝ᵥ xvec f.M f.K x‖ ^ 2 := by
    funext u
    simp [vcost, List.foldl_append]
  rw [hJ, hV']
  rw [hw']
  exact hs

theorem Trained.loop {M K : ℕ} {delta : ℝ} (d' lam : ℝ) (hl : 0 < lam) (l : List ((ℕ → ℕ → 𝕜) × (ℕ → 𝕜))) :
    ∀ (data : List (ℝ × (ℕ → ℕ → 𝕜) × 𝕜)) (f : Filter 𝕜), Trained M K delta data f →
      ∃ f', Filter.rlsLoop lam d' l f = .ok f' ∧ Trained M K delta (data ++ weigh lam l) f' := by
  induction l with
  | nil => intro data f h; exact ⟨f, rfl, by simpa [weigh] using h⟩
  | cons d l ih =>
    intro data f h
    obtain ⟨f1, h1, t1⟩ := h.step d' lam hl d.1 d.2
    obtain ⟨f2, h2, t2⟩ := ih _ _ t1
    refine ⟨f2, ?_, by simpa [weigh] using t2⟩
    show (match f.rlsStep lam (f.covariance d') d.1 d.2 with
      | Except.error e => Except.error e
      | Except.ok f' => Filter.rlsLoop lam d' l f') = _
    rw [h1]
    exact h2

theorem Trained.epochs {M K : ℕ} {delta : ℝ} (d' lam : ℝ) (hl : 0 < lam)
    (order : ℕ → List ((ℕ → ℕ → 𝕜) × (ℕ → 𝕜)) → List ((ℕ → ℕ → 𝕜) × (ℕ → 𝕜))) (n : ℕ) :
    ∀ (e : ℕ) (l : List ((ℕ → ℕ → 𝕜) × (ℕ → 𝕜))) (data : List (ℝ × (ℕ → ℕ → 𝕜) × 𝕜)) (f : Filter 𝕜),
      Trained M K delta data f →
      ∃ f', Filter.rlsEpochs lam d' order n e l f = .ok f' ∧
        Trained M K delta (data ++ weigh lam (epochData order n e l)) f' := by
  induction n with
  | zero => intro e l data f h; exact ⟨f, rfl, by simpa [weigh, epochData] using h⟩
  | succ n ih =>
    intro e l data f h
    obtain ⟨f1, h1, t1⟩ := Trained.loop d' lam hl (order e l) data f h
    obtain ⟨f2, h2, t2⟩ := ih (e + 1) (order e l) _ f1 t1
    refine ⟨f2, ?_, by simpa [weigh, epochData] using t2⟩
    show (match Filter.rlsLoop lam d' (order e l) f with
      | Except.error e => Except.error e
      | Except.ok f' => Filter.rlsEpochs lam d' order n (e + 1) (order e l) f') = _
    rw [h1]
    exact h2

theorem Trained.optimal {M K : ℕ} {delta : ℝ} {data : List (ℝ × (ℕ → ℕ → 𝕜) × 𝕜)} {f : Filter 𝕜}
    (h : Trained M K delta data f) : ∃ v V, f.getOffset = .ok v ∧ f.V = some V ∧
      Optimal M K delta data (f.h 0) (v 0) ∧
      ∀ i ≤ M * K, ∀ j ≤ M * K, ∑ k ∈ range (M * K + 1), V i k * gram M K delta data k j = if i = j then 1 else 0 := by
  obtain ⟨rfl, rfl, hL, v, V, hv, hV, hR, hVh, hVR, hpos, hJ⟩ := h
  refine ⟨v, V, by unfold Filter.getOffset; rw [hv], hV, fun h' o' hne => ?_, fun i hi j hj => ?_⟩
  · rw [cost_eq, cost_eq, hJ (wvec _ _ h' o')]
    have : wvec f.M f.K h' o' - wvec f.M f.K (f.h 0) (v 0) ≠ 0 := by
      intro h0
      have h1 := sub_eq_zero.1 h0
      rcases hne with ⟨m, hm, k, hk, hmk⟩ | ho
      · have hlt : m * f.K + k < f.M * f.K := by
          calc m * f.K + k < m * f.K + f.K := by omega
            _ = (m + 1) * f.K := by ring
            _ ≤ f.M * f.K := Nat.mul_le_mul_right _ hm
        have h2 := congrFun h1 ⟨m * f.K + k, by omega⟩
        simp only [wvec, hlt, if_true] at h2
        rw [Nat.mul_comm m, Nat.mul_add_div (by omega), Nat.mul_add_mod, Nat.div_eq_of_lt hk,
          Nat.mod_eq_of_lt hk, Nat.add_zero] at h2
        exact hmk h2
      · have h2 := congrFun h1 ⟨f.M * f.K, by omega⟩
        simp only [wvec, lt_irrefl, if_false] at h2
        exact ho h2
    have := hpos _ this
    linarith
  · have h1 := congrFun (congrFun hVR ⟨i, by omega⟩) ⟨j, by omega⟩
    rw [Matrix.mul_apply, Matrix.one_apply] at h1
    rw [← Fin.sum_univ_eq_sum_range (fun k => V i k * gram f.M f.K delta data k j)]
    simpa [Fin.ext_iff, mat, vgram] using h1

end Link

end Cbadc.Adaptive
