import Verif.Lemmas.LCModel
import Verif.Lemmas.GlobalControl
import Verif.Lemmas.Linear
import Mathlib.Analysis.Calculus.Deriv.MeanValue

/-! # The responses behind the control gains of the LC frontend -/

namespace Cbadc.Circuit

open Spec Analog Set

theorem exactSolver_exists : ∃ solve, ExactSolver solve := by
  classical
  refine ⟨fun N T f => if h : ∃ e, EndState N T f e then h.choose else fun _ => 0, ?_⟩
  intro N T f h
  dsimp only
  rw [dif_pos h]
  exact h.choose_spec

/-- Linear equations with a constant drive have a solution. -/
theorem endState_exists (N : ℕ) (A : ℕ → ℕ → ℝ) (b : ℕ → ℝ) (T : ℝ) (f : ℝ → (ℕ → ℝ) → ℕ → ℝ)
    (hf : ∀ t ∈ Ioo 0 T, ∀ x, ∀ n < N, f t x n = dot N A x n + b n) : ∃ e, EndState N T f e := by
  let A' : ℕ → ℕ → ℝ := fun r c => if r < N then (if c < N then A r c else b r) else 0
  let g : Sys ℝ := ⟨N + 1, 0, 0, 0, 0, A', fun _ _ => 0, fun _ _ => 0, none, none, fun _ _ => 0, fun _ _ => 0, fun _ _ => 0⟩
  let z : ℕ → ℝ := fun n => if n = N then 1 else 0
  let w : ℕ → ℝ → ℝ := fun n t => Simulate.matVec (Simulate.expAT g t) z n
  have hd : ∀ n < N + 1, ∀ t, HasDerivAt (w n) (dot (N + 1) A' (fun k => w k t) n) t :=
    fun n hn t => Simulate.exp_deriv g z t n hn
  have h0 : ∀ n < N + 1, w n 0 = z n := by
    intro n hn
    exact Simulate.exp_zero g z n hn
  have hN : ∀ t, w N t = 1 := by
    intro t
    have h : ∀ t, HasDerivAt (w N) 0 t := by
      intro t
      refine (hd N (by omega) t).congr_deriv ?_
      unfold dot
      apply Finset.sum_eq_zero
      intro c _
      simp [A']
    have := is_const_of_deriv_eq_zero (fun t => (h t).differentiableAt) (fun t => (h t).deriv) t 0
    rw [this, h0 N (by omega)]
    simp [z]
  refine ⟨fun n => w n T, w, ?_, fun _ _ => rfl⟩
  intro n hn
  refine ⟨fun t _ => (hd n (by omega) t).continuousAt.continuousWithinAt, ?_, ?_⟩
  · rw [h0 n (by omega)]
    simp [z, hn.ne]
  · intro t ht
    refine (hd n (by omega) t).congr_deriv ?_
    rw [hf t ht _ n hn]
    unfold dot
    rw [Finset.sum_range_succ]
    congr 1
    · apply Finset.sum_congr rfl
      intro c hc
      simp [A', hn, Finset.mem_range.mp hc]
    · simp [A', hn, hN]

/-- They have only one. -/
theorem endState_unique (N : ℕ) (A : ℕ → ℕ → ℝ) (b : ℕ → ℝ) (T : ℝ) (hT : 0 ≤ T) (f g : ℝ → (ℕ → ℝ) → ℕ → ℝ) (r : ℝ)
    (hf : ∀ t ∈ Ioo 0 T, ∀ x, ∀ n < N, f t x n = dot N A x n + r * b n)
    (hg : ∀ t ∈ Ioo 0 T, ∀ x, ∀ n < N, g t x n = dot N A x n + b n) {d e : ℕ → ℝ}
    (h1 : EndState N T f d) (h2 : EndState N T g e) : ∀ n < N, d n = r * e n := by
  obtain ⟨x, hx, hd⟩ := h1
  obtain ⟨y, hy, he⟩ := h2
  have s1 : Global.Spec.Solves (Matrix.of fun i j : Fin N => A i j) (fun _ i => r * b i) 0 T (fun t i => x i t) := by
    refine ⟨continuousOn_pi.mpr fun i => (hx i i.2).1, ∅, Set.countable_empty, fun t ht => ?_⟩
    rw [hasDerivAt_pi]
    intro i
    refine ((hx i i.2).2.2 t ht.1).congr_deriv ?_
    rw [hf t ht.1 _ i i.2]
    simp [dot, Matrix.mulVec, dotProduct, Finset.sum_range]
  have s2 : Global.Spec.Solves (Matrix.of fun i j : Fin N => A i j) (fun _ i => r * b i) 0 T (fun t i => r * y i t) := by
    refine ⟨continuousOn_pi.mpr fun i => continuousOn_const.mul (hy i i.2).1, ∅, Set.countable_empty, fun t ht => ?_⟩
    rw [hasDerivAt_pi]
    intro i
    refine (((hy i i.2).2.2 t ht.1).const_mul r).congr_deriv ?_
    rw [hg t ht.1 _ i i.2]
    simp only [dot, Matrix.mulVec, dotProduct, Finset.sum_range, Pi.add_apply, Matrix.of_apply]
    rw [mul_add, Finset.mul_sum]
    congr 1
    exact Finset.sum_congr rfl fun c _ => by ring
  have := Global.solves_unique s1 s2 (by
    funext i
    simp [(hx i i.2).2.1, (hy i i.2).2.1]) T ⟨hT, le_refl _⟩
  intro n hn
  rw [hd n hn, he n hn]
  exact congrFun this ⟨n, hn⟩

/-- The energy flow of the ladder. -/
theorem ladder_power (P : ℕ) (L C Rin : ℝ) (hL : L ≠ 0) (hC : C ≠ 0) (y z : ℕ → ℝ) :
    ∑ j ∈ Finset.range (P + 1), C * (2 * y j * ((if j = 0 then -1 / (Rin * C) * y 0 else z (j - 1) / C)
        - (if j + 1 < P + 1 then z j / C else 0)))
      + ∑ k ∈ Finset.range P, 2 * L * (2 * z k * ((y k - y (k + 1)) / (2 * L))) = -(2 / Rin * y 0 ^ 2) := by
  have e1 : ∀ j ∈ Finset.range (P + 1), C * (2 * y j * ((if j = 0 then -1 / (Rin * C) * y 0 else z (j - 1) / C)
        - (if j + 1 < P + 1 then z j / C else 0))) =
      (if j = 0 then -(2 / Rin * y 0 ^ 2) else 2 * (y j * z (j - 1))) - (if j + 1 < P + 1 then 2 * (y j * z j) else 0) := by
    intro j _
    by_cases h0 : j = 0
    · subst h0
      simp only [if_true]
      split_ifs <;> field_simp
      ring
    · simp only [h0, if_false]
      split_ifs <;> field_simp
      ring
  rw [Finset.sum_congr rfl e1, Finset.sum_sub_distrib, Finset.sum_range_succ', Finset.sum_range_succ]
  have e2 : ∑ j ∈ Finset.range P, (if j + 1 < P + 1 then 2 * (y j * z j) else 0) = ∑ j ∈ Finset.range P, 2 * (y j * z j) := by
    apply Finset.sum_congr rfl
    intro j hj
    rw [Finset.mem_range] at hj
    rw [if_pos (by omega)]
  have e3 : ∑ j ∈ Finset.range P, (if j + 1 = 0 then -(2 / Rin * y 0 ^ 2) else 2 * (y (j + 1) * z (j + 1 - 1))) =
      ∑ j ∈ Finset.range P, 2 * (y (j + 1) * z j) := by
    apply Finset.sum_congr rfl
    intro j _
    rw [if_neg (by omega), Nat.add_sub_cancel]
  have e4 : ∑ k ∈ Finset.range P, 2 * L * (2 * z k * ((y k - y (k + 1)) / (2 * L))) =
      ∑ k ∈ Finset.range P, 2 * (y k * z k) - ∑ k ∈ Finset.range P, 2 * (y (k + 1) * z k) := by
    rw [← Finset.sum_sub_distrib]
    apply Finset.sum_congr rfl
    intro k _
    field_simp
  rw [e2, e3, e4]
  simp

/-- Driving one of the capacitors of the ladder does not leave the state at zero. -/
theorem lc_response_ne (M : ℕ) (L C Rin T : ℝ) (hL : 0 < L) (hC : 0 < C) (hR : 0 < Rin) (hT : 0 < T) (m : ℕ) (hm : m < M)
    (f : ℝ → (ℕ → ℝ) → ℕ → ℝ)
    (hf : ∀ t x n, f t x n = dot (2 * M - 1) (lcA M L C Rin) x n + if n = m then 1 else 0)
    {e : ℕ → ℝ} (h : EndState (2 * M - 1) T f e) : ∃ n < 2 * M - 1, e n ≠ 0 := by
  by_contra hcon
  push Not at hcon
  obtain ⟨x, hx, he⟩ := h
  -- the stationary state
  let w : ℕ → ℝ := fun n => if n < M then Rin * C else if n - M < m then -C else 0
  have hRC : Rin * C ≠ 0 := (mul_pos hR hC).ne'
  have w1 : ∀ j < M, w j = Rin * C := fun j hj => if_pos hj
  have w2 : ∀ k, w (M + k) = if k < m then -C else 0 := by
    intro k
    change (if M + k < M then Rin * C else if M + k - M < m then -C else 0) = _
    rw [if_neg (by omega), Nat.add_sub_cancel_left]
  have hw : ∀ n < 2 * M - 1, dot (2 * M - 1) (lcA M L C Rin) w n = -(if n = m then 1 else 0) := by
    intro n hn
    unfold dot
    by_cases h : n < M
    · rw [lcA_cap M L C Rin w n h, w1 0 (by omega), w2, w2]
      have hC' := hC.ne'
      by_cases h0 : n = 0
      · subst h0
        rw [if_pos rfl, div_mul_cancel₀ _ hRC]
        by_cases hm0 : 0 = m
        · subst hm0
          simp
        · rw [if_pos (by omega), if_pos (by omega), if_neg hm0, neg_div, div_self hC']
          ring
      · rw [if_neg h0]
        by_cases h1 : n < m
        · rw [if_pos (by omega), if_pos (by omega), if_pos h1, if_neg (by omega)]
          ring
        · rw [if_neg h1, zero_div, ite_self]
          by_cases h2 : n = m
          · rw [if_pos (by omega), if_pos h2, neg_div, div_self hC']
            ring
          · rw [if_neg (by omega), if_neg h2]
            ring
    · obtain ⟨k, rfl⟩ := Nat.exists_eq_add_of_le (not_lt.mp h)
      rw [lcA_ind M L C Rin w k (by omega), w1 k (by omega), w1 (k + 1) (by omega), if_neg (by omega)]
      ring
  have hA : ∀ t n, n < 2 * M - 1 → f t (fun k => x k t) n =
      ∑ j ∈ Finset.range (2 * M - 1), lcA M L C Rin n j * (x j t - w j) := by
    intro t n hn
    have := hw n hn
    unfold dot at this
    rw [hf]
    unfold dot
    simp only [mul_sub]
    rw [Finset.sum_sub_distrib, this]
    ring
  obtain ⟨P, rfl⟩ : ∃ P, M = P + 1 := ⟨M - 1, by omega⟩
  -- the energy
  let V : ℝ → ℝ := fun t => ∑ j ∈ Finset.range (P + 1), C * (x j t - w j) ^ 2
    + ∑ k ∈ Finset.range P, 2 * L * (x (P + 1 + k) t - w (P + 1 + k)) ^ 2
  have hVd : ∀ t ∈ Ioo 0 T, HasDerivAt V (-(2 / Rin * (x 0 t - w 0) ^ 2)) t := by
    intro t ht
    rw [← ladder_power P L C Rin hL.ne' hC.ne' (fun j => x j t - w j) (fun k => x (P + 1 + k) t - w (P + 1 + k))]
    refine HasDerivAt.add (HasDerivAt.fun_sum fun j hj => ?_) (HasDerivAt.fun_sum fun k hk => ?_)
    · rw [Finset.mem_range] at hj
      have h1 := (hx j (by omega)).2.2 t ht
      rw [hA t j (by omega), lcA_cap (P + 1) L C Rin (fun j => x j t - w j) j hj] at h1
      refine (((h1.sub_const (w j)).pow 2).const_mul C).congr_deriv ?_
      simp
    · rw [Finset.mem_range] at hk
      have h1 := (hx (P + 1 + k) (by omega)).2.2 t ht
      rw [hA t _ (by omega), lcA_ind (P + 1) L C Rin (fun j => x j t - w j) k (by omega)] at h1
      refine (((h1.sub_const (w (P + 1 + k))).pow 2).const_mul (2 * L)).congr_deriv ?_
      simp
  have hVc : ContinuousOn V (Icc 0 T) := by
    refine ContinuousOn.add (continuousOn_finsetSum _ fun j hj => ?_) (continuousOn_finsetSum _ fun k hk => ?_)
    · rw [Finset.mem_range] at hj
      exact continuousOn_const.mul (((hx j (by omega)).1.sub continuousOn_const).pow 2)
    · rw [Finset.mem_range] at hk
      exact continuousOn_const.mul (((hx _ (by omega)).1.sub continuousOn_const).pow 2)
  have hanti : AntitoneOn V (Icc 0 T) := by
    refine antitoneOn_of_deriv_nonpos (convex_Icc _ _) hVc ?_ ?_
    · rw [interior_Icc]
      exact fun t ht => (hVd t ht).differentiableAt.differentiableWithinAt
    · rw [interior_Icc]
      intro t ht
      rw [(hVd t ht).deriv]
      have : 0 ≤ 2 / Rin * (x 0 t - w 0) ^ 2 := by positivity
      linarith
  have hends : V 0 = V T := by
    have hz : ∀ n < 2 * (P + 1) - 1, x n 0 = x n T := fun n hn => by
      rw [(hx n hn).2.1, ← he n hn, hcon n hn]
    change _ + _ = _ + _
    congr 1
    · exact Finset.sum_congr rfl fun j hj => by rw [Finset.mem_range] at hj; rw [hz j (by omega)]
    · exact Finset.sum_congr rfl fun j hj => by rw [Finset.mem_range] at hj; rw [hz _ (by omega)]
  have hconst : ∀ t ∈ Icc 0 T, V t = V 0 := fun t ht => le_antisymm
    (hanti (left_mem_Icc.mpr hT.le) ht ht.1) (by rw [hends]; exact hanti ht (right_mem_Icc.mpr hT.le) ht.2)
  have hx0 : ∀ t ∈ Ioo 0 T, x 0 t = Rin * C := by
    intro t ht
    have h1 : HasDerivAt V 0 t := by
      refine (hasDerivAt_const t (V 0)).congr_of_eventuallyEq ?_
      filter_upwards [Ioo_mem_nhds ht.1 ht.2] with z hz
      exact hconst z ⟨hz.1.le, hz.2.le⟩
    have h2 := (hVd t ht).unique h1
    have h3 : (x 0 t - w 0) ^ 2 = 0 := by
      have : 2 / Rin ≠ 0 := by positivity
      rcases mul_eq_zero.mp (neg_eq_zero.mp h2) with h | h
      · exact absurd h this
      · exact h
    have h4 := sub_eq_zero.mp (pow_eq_zero_iff two_ne_zero |>.mp h3)
    rw [h4, w1 0 (by omega)]
  have t1 : Filter.Tendsto (x 0) (nhdsWithin 0 (Ioo 0 T)) (nhds (x 0 0)) :=
    ((hx 0 (by omega)).1 0 (left_mem_Icc.mpr hT.le)).mono_left (nhdsWithin_mono _ Ioo_subset_Icc_self)
  have t2 : Filter.Tendsto (x 0) (nhdsWithin 0 (Ioo 0 T)) (nhds (Rin * C)) :=
    tendsto_const_nhds.congr' (eventually_nhdsWithin_of_forall fun t ht => (hx0 t ht).symm)
  have : (nhdsWithin (0 : ℝ) (Ioo 0 T)).NeBot := left_nhdsWithin_Ioo_neBot hT
  have := tendsto_nhds_unique t1 t2
  rw [(hx 0 (by omega)).2.1] at this
  exact hRC this.symm

end Cbadc.Circuit
