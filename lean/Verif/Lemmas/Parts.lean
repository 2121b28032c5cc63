import Mathlib.Analysis.Normed.Algebra.MatrixExponential
import Verif.Lemmas.Stack
import Verif.Lemmas.Decay
import Verif.Lemmas.FilterSampling
import Verif.Lemmas.Flow
import Verif.Lemmas.Simulator
import Verif.Spec.Estimator
import Verif.Spec.FilterCoefficients
import Verif.Spec.Parts

/-! # Lemmas about parts of stacked converters -/

namespace Cbadc.Parts

open Matrix Finset Cbadc.Analog Cbadc.Analog.Spec Cbadc.Control Cbadc.Simulate Cbadc.Estimator Cbadc.Filter Cbadc.Filter.Spec

section pick
variable {K : Type*} [CommRing K] {n N p o : ℕ}

theorem pick_mul (h : o + n ≤ N) (X : Matrix (Fin N) (Fin p) K) (i : Fin n) (j : Fin p) :
    (pick n N o * X : Matrix (Fin n) (Fin p) K) i j = X ⟨o + i, by omega⟩ j := by
  show ∑ k : Fin N, (if (k : ℕ) = o + i then (1 : K) else 0) * X k j = _
  rw [sum_eq_single ⟨o + i, by omega⟩ (fun k _ hk => by rw [if_neg (fun e => hk (Fin.ext e)), zero_mul]) (fun h => absurd (mem_univ _) h),
    if_pos rfl, one_mul]

theorem pick_mulVec (h : o + n ≤ N) (x : Fin N → K) : pick n N o *ᵥ x = take h x := by
  funext i
  show ∑ k : Fin N, (if (k : ℕ) = o + i then (1 : K) else 0) * x k = _
  rw [sum_eq_single ⟨o + i, by omega⟩ (fun k _ hk => by rw [if_neg (fun e => hk (Fin.ext e)), zero_mul]) (fun h => absurd (mem_univ _) h),
    if_pos rfl, one_mul]
  rfl

theorem mul_pick (Y : Matrix (Fin p) (Fin n) K) (i : Fin p) (j : Fin N) :
    (Y * pick n N o : Matrix (Fin p) (Fin N) K) i j = if h : o ≤ j ∧ (j : ℕ) < o + n then Y i ⟨j - o, by omega⟩ else 0 := by
  show ∑ k : Fin n, Y i k * (if (j : ℕ) = o + k then (1 : K) else 0) = _
  by_cases h : o ≤ j ∧ (j : ℕ) < o + n
  · rw [dif_pos h, sum_eq_single ⟨j - o, by omega⟩ (fun k _ hk => by
      rw [if_neg (fun e => hk (Fin.ext (by show (k : ℕ) = j - o; omega))), mul_zero]) (fun h => absurd (mem_univ _) h),
      if_pos (by show (j : ℕ) = o + (j - o); omega), mul_one]
  · rw [dif_neg h]
    exact sum_eq_zero fun k _ => by rw [if_neg (by omega), mul_zero]

end pick

section stack
variable {K : Type*} [Field K]

omit [Field K] in
theorem stackBlocks_swap (R C : Sys K → ℕ) (F : Sys K → ℕ → ℕ → K) (l : List (Sys K)) (r0 c0 : ℕ) (X : ℕ → ℕ → K) (r c : ℕ) :
    stackBlocks R C F r0 c0 X l r c = stackBlocks C R (fun g i j => F g j i) c0 r0 (fun i j => X j i) l c r := by
  induction l generalizing r0 c0 X with
  | nil => rfl
  | cons g l ih =>
    rw [stackBlocks, stackBlocks, ih]
    congr 1
    funext i j
    unfold blockSet
    exact if_congr (by tauto) rfl rfl

theorem stackMat_swap (R C : Sys K → ℕ) (F : Sys K → ℕ → ℕ → K) (l : List (Sys K)) (r c : ℕ) :
    stackMat R C F l r c = stackMat C R (fun g i j => F g j i) l c r := stackBlocks_swap R C F l 0 0 _ r c

theorem stackMat_row (R C : Sys K → ℕ) (F : Sys K → ℕ → ℕ → K) (l1 : List (Sys K)) (g : Sys K) (l2 : List (Sys K)) (i : ℕ) (hi : i < R g) (c : ℕ) :
    stackMat R C F (l1 ++ g :: l2) (total R l1 + i) c = if total C l1 ≤ c ∧ c < total C l1 + C g then F g i (c - total C l1) else 0 := by
  have := stackBlocks_row R C F l1 g l2 0 0 (fun _ _ => 0) i c hi
  simpa [stackMat] using this

omit [Field K] in
theorem part_le (R : Sys K → ℕ) (l1 : List (Sys K)) (g : Sys K) (l2 : List (Sys K)) : total R l1 + R g ≤ total R (l1 ++ g :: l2) := by
  rw [total_append, total_cons]
  omega

/-- the rows of a part, for any number of columns -/
theorem row_eq (R C : Sys K → ℕ) (F : Sys K → ℕ → ℕ → K) (l1 : List (Sys K)) (g : Sys K) (l2 : List (Sys K)) (q : ℕ) :
    pick (R g) (total R (l1 ++ g :: l2)) (total R l1) * toM (total R (l1 ++ g :: l2)) q (stackMat R C F (l1 ++ g :: l2)) =
      toM (R g) (C g) (F g) * pick (C g) q (total C l1) := by
  ext i j
  rw [pick_mul (part_le R l1 g l2), mul_pick]
  show stackMat R C F (l1 ++ g :: l2) (total R l1 + i) j = _
  rw [stackMat_row _ _ _ _ _ _ _ i.2]
  by_cases h : total C l1 ≤ j ∧ (j : ℕ) < total C l1 + C g
  · rw [if_pos h, dif_pos h]
    rfl
  · rw [if_neg h, dif_neg h]

/-- the columns of a part -/
theorem col_eq (R C : Sys K → ℕ) (F : Sys K → ℕ → ℕ → K) (l1 : List (Sys K)) (g : Sys K) (l2 : List (Sys K)) :
    toM (total R (l1 ++ g :: l2)) (total C (l1 ++ g :: l2)) (stackMat R C F (l1 ++ g :: l2)) * (pick (C g) (total C (l1 ++ g :: l2)) (total C l1))ᵀ =
      (pick (R g) (total R (l1 ++ g :: l2)) (total R l1))ᵀ * toM (R g) (C g) (F g) := by
  have h := congrArg transpose (row_eq C R (fun g i j => F g j i) l1 g l2 (total R (l1 ++ g :: l2)))
  rw [transpose_mul, transpose_mul] at h
  refine Eq.trans ?_ h
  congr 1
  ext i j
  exact stackMat_swap R C F _ i j

end stack

/-- what the lemmas below need to know about a part `g` of `S` -/
structure Part (g S : Sys ℝ) (oN oL oNt : ℕ) : Prop where
  N : oN + g.N ≤ S.N
  L : oL + g.L ≤ S.L
  A : pick g.N S.N oN * toM S.N S.N S.A = toM g.N g.N g.A * pick g.N S.N oN
  A' : toM S.N S.N S.A * (pick g.N S.N oN)ᵀ = (pick g.N S.N oN)ᵀ * toM g.N g.N g.A
  B : pick g.N S.N oN * toM S.N S.L S.B = toM g.N g.L g.B * pick g.L S.L oL
  B' : toM S.N S.L S.B * (pick g.L S.L oL)ᵀ = (pick g.N S.N oN)ᵀ * toM g.N g.L g.B
  C : pick g.Nt S.Nt oNt * toM S.Nt S.N S.CT = toM g.Nt g.N g.CT * pick g.N S.N oN
  C' : toM S.Nt S.N S.CT * (pick g.N S.N oN)ᵀ = (pick g.Nt S.Nt oNt)ᵀ * toM g.Nt g.N g.CT

theorem part_of_stack {l1 : List (Sys ℝ)} {g : Sys ℝ} {l2 : List (Sys ℝ)} {S : Sys ℝ} (h : stack (l1 ++ g :: l2) = .ok S) :
    Part g S (total Sys.N l1) (total Sys.L l1) (total Sys.Nt l1) := by
  rw [stack_eq _ (by simp)] at h
  cases h
  exact ⟨part_le _ _ _ _, part_le _ _ _ _, row_eq _ _ _ _ _ _ _, col_eq _ _ _ _ _ _, row_eq _ _ _ _ _ _ _, col_eq _ _ _ _ _ _,
    row_eq _ _ _ _ _ _ _, col_eq _ _ _ _ _ _⟩

/-- rectangular intertwining matrices intertwine the exponentials -/
theorem exp_intertwine {n N : ℕ} {P : Matrix (Fin n) (Fin N) ℝ} {X : Matrix (Fin N) (Fin N) ℝ} {Y : Matrix (Fin n) (Fin n) ℝ} (h : P * X = Y * P) :
    P * NormedSpace.exp X = NormedSpace.exp Y * P := by
  have hp : ∀ k : ℕ, P * X ^ k = Y ^ k * P := by
    intro k
    induction k with
    | zero => simp
    | succ k ih => rw [pow_succ, ← Matrix.mul_assoc, ih, Matrix.mul_assoc, h, ← Matrix.mul_assoc, ← pow_succ]
  have hs : ∀ {q : ℕ} (Z : Matrix (Fin q) (Fin q) ℝ), HasSum (fun k : ℕ => ((k.factorial : ℝ)⁻¹) • Z ^ k) (NormedSpace.exp Z) := by
    intro q Z
    let _ : NormedRing (Matrix (Fin q) (Fin q) ℝ) := Matrix.linftyOpNormedRing
    let _ : NormedAlgebra ℝ (Matrix (Fin q) (Fin q) ℝ) := Matrix.linftyOpNormedAlgebra
    exact NormedSpace.exp_series_hasSum_exp' (𝕂 := ℝ) Z
  have h1 : HasSum (fun k : ℕ => P * (((k.factorial : ℝ)⁻¹) • X ^ k)) (P * NormedSpace.exp X) :=
    (hs X).map (AddMonoidHom.mk' (fun Z : Matrix (Fin N) (Fin N) ℝ => P * Z) fun a b => Matrix.mul_add P a b) (continuous_const.matrix_mul continuous_id)
  have h2 : HasSum (fun k : ℕ => (((k.factorial : ℝ)⁻¹) • Y ^ k) * P) (NormedSpace.exp Y * P) :=
    (hs Y).map (AddMonoidHom.mk' (fun Z : Matrix (Fin n) (Fin n) ℝ => Z * P) fun a b => Matrix.add_mul a b P) (continuous_id.matrix_mul continuous_const)
  have e : (fun k : ℕ => P * (((k.factorial : ℝ)⁻¹) • X ^ k)) = fun k : ℕ => (((k.factorial : ℝ)⁻¹) • Y ^ k) * P := by
    funext k
    rw [Matrix.mul_smul, Matrix.smul_mul, hp]
  rw [e] at h1
  exact h1.unique h2

theorem smul_intertwine {n N : ℕ} {P : Matrix (Fin n) (Fin N) ℝ} {X : Matrix (Fin N) (Fin N) ℝ} {Y : Matrix (Fin n) (Fin n) ℝ} (h : P * X = Y * P) (t : ℝ) :
    P * (t • X) = (t • Y) * P := by rw [Matrix.mul_smul, Matrix.smul_mul, h]

/-- a Sylvester equation between matrices of different sizes -/
theorem sylvester {n N : ℕ} {F : Matrix (Fin N) (Fin N) ℝ} {H : Matrix (Fin n) (Fin n) ℝ} (hF : Hurwitz F) (hH : Hurwitz H)
    {X : Matrix (Fin N) (Fin n) ℝ} (h : Fᵀ * X + X * H = 0) : X = 0 := by
  have hX : X * H = -Fᵀ * X := by
    rw [Matrix.neg_mul]
    exact eq_neg_of_add_eq_zero_right h
  have hc : ∀ t : ℝ, (NormedSpace.exp (t • F))ᵀ * X * NormedSpace.exp (t • H) = X := by
    intro t
    have e : (NormedSpace.exp (t • F))ᵀ * NormedSpace.exp (t • -Fᵀ) = 1 := by
      rw [← Matrix.exp_transpose, transpose_smul, smul_neg, ← Matrix.exp_add_of_commute _ _ (Commute.neg_right (Commute.refl (t • Fᵀ))), add_neg_cancel,
        NormedSpace.exp_zero]
    rw [Matrix.mul_assoc, exp_intertwine (smul_intertwine hX t), ← Matrix.mul_assoc, e, Matrix.one_mul]
  have h3 : Continuous fun p : Matrix (Fin N) (Fin N) ℝ × Matrix (Fin n) (Fin n) ℝ => p.1ᵀ * X * p.2 :=
    (continuous_fst.matrix_transpose.matrix_mul continuous_const).matrix_mul continuous_snd
  have hl : Filter.Tendsto (fun t : ℝ => (NormedSpace.exp (t • F))ᵀ * X * NormedSpace.exp (t • H)) Filter.atTop (nhds 0) := by
    have h4 := (hurwitz_decay hF).prodMk_nhds (hurwitz_decay hH)
    have h5 := (h3.tendsto (0, 0)).comp h4
    rw [Matrix.mul_zero] at h5
    exact h5
  have hl' : Filter.Tendsto (fun _ : ℝ => X) Filter.atTop (nhds 0) := hl.congr hc
  exact tendsto_nhds_unique tendsto_const_nhds hl'

/-- the stabilising solution of a Riccati equation and that of a part -/
theorem care_intertwine {n N p q : ℕ} {A Q V : Matrix (Fin N) (Fin N) ℝ} {B : Matrix (Fin N) (Fin p) ℝ} {R : Matrix (Fin p) (Fin p) ℝ}
    {a b v : Matrix (Fin n) (Fin n) ℝ} {B' : Matrix (Fin n) (Fin q) ℝ} {R' : Matrix (Fin q) (Fin q) ℝ} {P : Matrix (Fin n) (Fin N) ℝ}
    (hV : IsStabilising A B Q R V) (hv : IsStabilising a B' b R' v) (hA : P * Aᵀ = aᵀ * P) (hA' : P * A = a * P)
    (hQ : P * Q = b * P) (hG : P * (B * R⁻¹ * Bᵀ) = (B' * R'⁻¹ * B'ᵀ) * P) (sg : (B' * R'⁻¹ * B'ᵀ)ᵀ = B' * R'⁻¹ * B'ᵀ) : P * V = v * P := by
  have e1 := hV.care.eq
  have e2 := hv.care.eq
  have t1 := hV.stable
  have t2 := hv.stable
  have s1 := hV.care.symm
  have s2 := hv.care.symm
  have r1 : V * B * R⁻¹ * Bᵀ * V = V * (B * R⁻¹ * Bᵀ) * V := by simp only [Matrix.mul_assoc]
  have r2 : v * B' * R'⁻¹ * B'ᵀ * v = v * (B' * R'⁻¹ * B'ᵀ) * v := by simp only [Matrix.mul_assoc]
  rw [r1] at e1
  rw [r2] at e2
  generalize B * R⁻¹ * Bᵀ = G at *
  generalize B' * R'⁻¹ * B'ᵀ = g at *
  have hz : (P * V - v * P)ᵀ = 0 := by
    refine sylvester t1 t2 ?_
    have hh : (a - g * v)ᵀ * (P * V - v * P) + (P * V - v * P) * (A - G * V) = 0 := by
      have k : (a - g * v)ᵀ * (P * V - v * P) + (P * V - v * P) * (A - G * V) =
          P * (Aᵀ * V + V * A - V * G * V + Q) - (aᵀ * v + v * a - v * g * v + b) * P := by
        rw [transpose_sub, transpose_mul, s2, sg]
        simp only [Matrix.mul_sub, Matrix.sub_mul, Matrix.mul_add, Matrix.add_mul, ← Matrix.mul_assoc, hA, hQ]
        simp only [Matrix.mul_assoc]
        rw [← Matrix.mul_assoc P G V, hG, ← hA']
        simp only [Matrix.mul_assoc]
        abel
      rw [k, e1, e2, Matrix.mul_zero, Matrix.zero_mul, sub_zero]
    have := congrArg transpose hh
    rw [transpose_add, transpose_mul, transpose_mul, transpose_transpose, transpose_zero, add_comm] at this
    exact this
  have := congrArg transpose hz
  rw [transpose_transpose, transpose_zero] at this
  exact sub_eq_zero.1 this

section coefficients
variable {g S : Sys ℝ} {oN oL oNt : ℕ} (h : Part g S oN oL oNt)
include h

theorem Part.At : pick g.N S.N oN * (toM S.N S.N S.A)ᵀ = (toM g.N g.N g.A)ᵀ * pick g.N S.N oN := by
  have := congrArg transpose h.A'
  rwa [transpose_mul, transpose_mul, transpose_transpose] at this

theorem Part.Q : pick g.N S.N oN * careQ S = careQ g * pick g.N S.N oN := by
  have := congrArg transpose h.B'
  rw [transpose_mul, transpose_mul, transpose_transpose, transpose_transpose] at this
  unfold careQ
  rw [← Matrix.mul_assoc, h.B, Matrix.mul_assoc, this, Matrix.mul_assoc]

theorem Part.cct {eta2 : ℝ} (he : eta2 ≠ 0) : pick g.N S.N oN * Filter.cct S eta2 = Filter.cct g eta2 * pick g.N S.N oN := by
  have := congrArg transpose h.C'
  rw [transpose_mul, transpose_mul, transpose_transpose, transpose_transpose] at this
  unfold Filter.cct
  rw [careR_inv he, careR_inv he]
  simp only [Matrix.smul_mul, Matrix.one_mul, Matrix.mul_smul]
  rw [← Matrix.mul_assoc, this, Matrix.mul_assoc, h.C, Matrix.mul_assoc]

omit h in
theorem cct_eq (g : Sys ℝ) (eta2 : ℝ) : careB g * (careR g eta2)⁻¹ * (careB g)ᵀ = Filter.cct g eta2 := by
  unfold careB Filter.cct
  rw [transpose_transpose, Matrix.mul_assoc]

omit h in
theorem cct_symm (g : Sys ℝ) {eta2 : ℝ} (he : eta2 ≠ 0) : (Filter.cct g eta2)ᵀ = Filter.cct g eta2 := by
  unfold Filter.cct
  rw [careR_inv he]
  simp only [Matrix.smul_mul, Matrix.one_mul, Matrix.mul_smul, transpose_smul, transpose_mul, transpose_transpose]

theorem Part.Vf {eta2 : ℝ} (he : eta2 ≠ 0) {V : Matrix (Fin S.N) (Fin S.N) ℝ} {v : Matrix (Fin g.N) (Fin g.N) ℝ}
    (hV : IsStabilising (careA S) (careB S) (careQ S) (careR S eta2) V) (hv : IsStabilising (careA g) (careB g) (careQ g) (careR g eta2) v) :
    pick g.N S.N oN * V = v * pick g.N S.N oN :=
  care_intertwine hV hv (by unfold careA; rw [transpose_transpose, transpose_transpose]; exact h.A) h.At h.Q
    (by rw [cct_eq, cct_eq]; exact h.cct he) (by rw [cct_eq]; exact cct_symm g he)

theorem Part.Vb {eta2 : ℝ} (he : eta2 ≠ 0) {V : Matrix (Fin S.N) (Fin S.N) ℝ} {v : Matrix (Fin g.N) (Fin g.N) ℝ}
    (hV : IsStabilising (-careA S) (careB S) (careQ S) (careR S eta2) V) (hv : IsStabilising (-careA g) (careB g) (careQ g) (careR g eta2) v) :
    pick g.N S.N oN * V = v * pick g.N S.N oN :=
  care_intertwine hV hv (by unfold careA; rw [transpose_neg, transpose_neg, transpose_transpose, transpose_transpose, Matrix.mul_neg, Matrix.neg_mul, h.A])
    (by rw [Matrix.mul_neg, Matrix.neg_mul]; exact congrArg Neg.neg h.At) h.Q
    (by rw [cct_eq, cct_eq]; exact h.cct he) (by rw [cct_eq]; exact cct_symm g he)

end coefficients

section flows
variable {n N : ℕ} {P : Matrix (Fin n) (Fin N) ℝ} {X : Matrix (Fin N) (Fin N) ℝ} {Y : Matrix (Fin n) (Fin n) ℝ} {v : ℝ → Fin N → ℝ} {w : ℝ → Fin n → ℝ}
  {a b : ℝ} {x : ℝ → Fin N → ℝ}

theorem deriv_mulVec {f : ℝ → Fin N → ℝ} {f' : Fin N → ℝ} {s : Set ℝ} {t : ℝ} (P : Matrix (Fin n) (Fin N) ℝ) (h : HasDerivWithinAt f f' s t) :
    HasDerivWithinAt (fun t => P *ᵥ f t) (P *ᵥ f') s t := by
  rw [hasDerivWithinAt_pi] at h ⊢
  intro i
  exact HasDerivWithinAt.fun_sum (u := Finset.univ) fun j _ => (h j).const_mul (P i j)

theorem cont_mulVec (P : Matrix (Fin n) (Fin N) ℝ) {s : Set ℝ} (h : ContinuousOn x s) : ContinuousOn (fun t => P *ᵥ x t) s := by
  rw [continuousOn_pi] at h ⊢
  intro i
  show ContinuousOn (fun t => ∑ j, P i j * x t j) s
  exact continuousOn_finsetSum _ fun j _ => continuousOn_const.mul (h j)

theorem flow (h : P * X = Y * P) (hv : ∀ t, w t = P *ᵥ v t) (hf : Flow X v a b x) : Flow Y w a b fun t => P *ᵥ x t where
  cont := cont_mulVec P hf.cont
  ode t ht := by
    have := deriv_mulVec P (hf.ode t ht)
    rwa [mulVec_add, ← hv, mulVec_mulVec, h, ← mulVec_mulVec] at this

theorem flowLeft (h : P * X = Y * P) (hv : ∀ t, w t = P *ᵥ v t) (hf : FlowLeft X v a b x) : FlowLeft Y w a b fun t => P *ᵥ x t where
  cont := cont_mulVec P hf.cont
  ode t ht := by
    have := deriv_mulVec P (hf.ode t ht)
    rwa [mulVec_add, ← hv, mulVec_mulVec, h, ← mulVec_mulVec] at this

/-- flows to the left of the end are determined by their start as well -/
theorem flowLeft_unique {T : ℝ} (hT : 0 ≤ T) {y : ℝ → Fin N → ℝ} (hx : FlowLeft X v 0 T x) (hy : FlowLeft X v 0 T y) (h0 : x 0 = y 0) : x T = y T := by
  have hd : Flow (-X) (fun _ => 0) 0 T fun t => x (T - t) - y (T - t) := by
    refine ⟨?_, fun t ht => ?_⟩
    · exact (hx.reverse.cont.sub hy.reverse.cont)
    · refine ((hx.reverse.ode t ht).sub (hy.reverse.ode t ht)).congr_deriv ?_
      rw [mulVec_sub, add_zero]
      abel
  have h1 := flow_start hT hd flow_zero rfl
  simp only [sub_zero, sub_self, h0, mulVec_zero, zero_add] at h1
  exact sub_eq_zero.1 h1

end flows

section control
variable {m M o : ℕ} (h : o + m ≤ M) (d : DC ℝ M)

theorem pick_impulse (j : Fin M) (t : ℝ) : pick m M o *ᵥ impulseResponse d j t =
    if hj : o ≤ j ∧ (j : ℕ) < o + m then impulseResponse (control h d) ⟨j - o, by omega⟩ t else 0 := by
  rw [pick_mulVec h]
  funext i
  show (if (⟨o + i, _⟩ : Fin M) = j ∧ 0 ≤ t ∧ t ≤ d.T then (d.ir j).f t else 0) = _
  by_cases hj : o ≤ j ∧ (j : ℕ) < o + m
  · rw [dif_pos hj]
    show _ = if i = (⟨j - o, _⟩ : Fin m) ∧ 0 ≤ t ∧ t ≤ d.T then (d.ir ⟨o + (j - o), _⟩).f t else 0
    have e1 : (⟨o + (j - o), by omega⟩ : Fin M) = j := Fin.ext (by show o + (j - o) = (j : ℕ); omega)
    have e2 : ((⟨o + i, by omega⟩ : Fin M) = j) ↔ i = ⟨j - o, by omega⟩ := by
      rw [Fin.ext_iff, Fin.ext_iff]
      show o + (i : ℕ) = j ↔ (i : ℕ) = j - o
      omega
    rw [e1]
    exact if_congr (and_congr_left fun _ => e2) rfl rfl
  · rw [dif_neg hj, if_neg]
    · rfl
    rintro ⟨e, -⟩
    have := congrArg Fin.val e
    have h' : o + (i : ℕ) = j := this
    omega

end control

end Cbadc.Parts
