import Verif.Lemmas.NuvRounds

/-! Helper lemmas for the NUV estimator: the rounds descend. -/

namespace Cbadc.Nuv

open Matrix Set Cbadc.Filter Cbadc.Filter.Spec Cbadc.Nuv.Spec

variable {N P L : ℕ}

section
variable {γ ε : ℝ}

theorem penalty_le (hε : 0 < ε) {σ : ℝ} (hσ : ε ≤ σ) (r : ℝ) : penalty γ ε r ≤ r ^ 2 / σ + γ ^ 2 * σ := by
  have h0 : 0 < σ := hε.trans_le hσ
  unfold penalty
  split
  · have : 2 * γ * |r| = r ^ 2 / σ + γ ^ 2 * σ - (|r| - γ * σ) ^ 2 / σ := by
      have := sq_abs r
      field_simp
      rw [sub_sq, this]
      ring
    have h2 : 0 ≤ (|r| - γ * σ) ^ 2 / σ := by positivity
    linarith
  · rename_i h
    have h1 : r ^ 2 ≤ γ ^ 2 * ε ^ 2 := by
      rw [← sq_abs, ← mul_pow]
      exact pow_le_pow_left₀ (abs_nonneg r) (not_le.1 h).le 2
    have : r ^ 2 / σ + γ ^ 2 * σ - (r ^ 2 / ε + γ ^ 2 * ε) = (σ - ε) * (γ ^ 2 * ε * σ - r ^ 2) / (ε * σ) := by
      field_simp
      ring
    have h2 : 0 ≤ γ ^ 2 * ε * σ - r ^ 2 := by
      have : γ ^ 2 * ε ^ 2 ≤ γ ^ 2 * ε * σ := by
        rw [pow_two ε, ← mul_assoc]
        exact mul_le_mul_of_nonneg_left hσ (by positivity)
      linarith
    have h3 : 0 ≤ (σ - ε) * (γ ^ 2 * ε * σ - r ^ 2) / (ε * σ) :=
      div_nonneg (mul_nonneg (sub_nonneg.2 hσ) h2) (by positivity)
    linarith

theorem variance_cases (hγ : 0 < γ) (r : ℝ) :
    (γ * ε ≤ |r| ∧ max (|r| / γ) ε = |r| / γ) ∨ (¬ γ * ε ≤ |r| ∧ max (|r| / γ) ε = ε) := by
  by_cases h : γ * ε ≤ |r|
  · exact Or.inl ⟨h, max_eq_left (by rw [le_div_iff₀ hγ]; linarith)⟩
  · exact Or.inr ⟨h, max_eq_right (by rw [div_le_iff₀ hγ]; linarith)⟩

theorem penalty_eq (hγ : 0 < γ) (hε : 0 < ε) (r : ℝ) :
    penalty γ ε r = r ^ 2 / max (|r| / γ) ε + γ ^ 2 * max (|r| / γ) ε := by
  unfold penalty
  rcases variance_cases (ε := ε) hγ r with ⟨h, e⟩ | ⟨h, e⟩
  · rw [if_pos h, e]
    have h0 : 0 < |r| := lt_of_lt_of_le (mul_pos hγ hε) h
    have := sq_abs r
    field_simp
    rw [this]
    ring
  · rw [if_neg h, e]

/-- The penalty is convex. -/
theorem penalty_convex (hγ : 0 < γ) (hε : 0 < ε) (r y : ℝ) :
    penalty γ ε r + (y ^ 2 / max (|r| / γ) ε - r ^ 2 / max (|r| / γ) ε) - (y - r) ^ 2 / max (|r| / γ) ε ≤ penalty γ ε y := by
  have hlin : 2 * γ * |y| ≤ penalty γ ε y := by
    unfold penalty
    split
    · exact le_rfl
    · have : y ^ 2 / ε + γ ^ 2 * ε - 2 * γ * |y| = (|y| - γ * ε) ^ 2 / ε := by
        have := sq_abs y
        field_simp
        rw [sub_sq, this]
        ring
      have h2 : 0 ≤ (|y| - γ * ε) ^ 2 / ε := by positivity
      linarith
  rcases variance_cases (ε := ε) hγ r with ⟨h, e⟩ | ⟨h, e⟩
  · rw [e]
    have h0 : 0 < |r| := lt_of_lt_of_le (mul_pos hγ hε) h
    refine le_trans ?_ hlin
    have e1 : penalty γ ε r = 2 * γ * |r| := by unfold penalty; rw [if_pos h]
    rw [e1]
    have e2 : 2 * γ * |r| + (y ^ 2 / (|r| / γ) - r ^ 2 / (|r| / γ)) - (y - r) ^ 2 / (|r| / γ) = 2 * γ * (r * y) / |r| := by
      have := sq_abs r
      field_simp
      rw [this]
      ring
    rw [e2, div_le_iff₀ h0]
    have : r * y ≤ |r| * |y| := by rw [← abs_mul]; exact le_abs_self _
    nlinarith
  · rw [e]
    have e1 : penalty γ ε r = r ^ 2 / ε + γ ^ 2 * ε := by unfold penalty; rw [if_neg h]
    rw [e1]
    have e2 : r ^ 2 / ε + γ ^ 2 * ε + (y ^ 2 / ε - r ^ 2 / ε) - (y - r) ^ 2 / ε =
        γ ^ 2 * ε + (2 * (r * y) - r ^ 2) / ε := by
      field_simp
      ring
    rw [e2]
    unfold penalty
    split
    · rename_i hy
      have hr := (not_le.1 h).le
      have h1 : r * y ≤ |r| * |y| := by rw [← abs_mul]; exact le_abs_self _
      have h2 : 0 ≤ (γ * ε - |r|) * (2 * |y| - γ * ε - |r|) :=
        mul_nonneg (by linarith) (by linarith)
      have h3 := sq_abs r
      have : (2 * (r * y) - r ^ 2) / ε ≤ 2 * γ * |y| - γ ^ 2 * ε := by
        rw [div_le_iff₀ hε]
        nlinarith
      linarith
    · have : y ^ 2 / ε + γ ^ 2 * ε - (γ ^ 2 * ε + (2 * (r * y) - r ^ 2) / ε) = (y - r) ^ 2 / ε := by
        field_simp
        ring
      have h2 : 0 ≤ (y - r) ^ 2 / ε := by positivity
      linarith

end

section
variable {p : Window N P L} {γ ε : ℝ} {n : ℕ} {s1 s2 : ℕ → ℕ → Fin P → ℝ} {u : ℕ → ℕ → ℝ → Fin L → ℝ}
  {x : ℕ → ℕ → ℝ → Fin N → ℝ} {J : ℕ → ℕ → ℝ → ℝ}

/-- The sum of the variances. -/
noncomputable def weights (p : Window N P L) (γ : ℝ) (s1 s2 : ℕ → Fin P → ℝ) : ℝ :=
  ∑ k ∈ Finset.range p.K, ∑ l, (γ ^ 2 * s1 k l + γ ^ 2 * s2 k l)

theorem spread_ge (hε : 0 < ε) {s1 s2 : ℕ → Fin P → ℝ} (h1 : ∀ k < p.K, ∀ l, ε ≤ s1 k l) (h2 : ∀ k < p.K, ∀ l, ε ≤ s2 k l)
    (x : ℕ → ℝ → Fin N → ℝ) : p.penalties γ ε x ≤ p.spread s1 s2 x + weights p γ s1 s2 := by
  rw [Window.spread, weights, ← Finset.sum_add_distrib, Window.penalties]
  refine Finset.sum_le_sum fun k hk => ?_
  rw [← Finset.sum_add_distrib]
  refine Finset.sum_le_sum fun l _ => ?_
  have e1 := penalty_le (γ := γ) hε (h1 k (Finset.mem_range.1 hk) l) (p.y x k l - p.b)
  have e2 := penalty_le (γ := γ) hε (h2 k (Finset.mem_range.1 hk) l) (p.y x k l + p.b)
  linarith

theorem spread_eq (hγ : 0 < γ) (hε : 0 < ε) {s1 s2 : ℕ → Fin P → ℝ} {x : ℕ → ℝ → Fin N → ℝ}
    (h : ∀ k < p.K, ∀ l, s1 k l = max (|p.y x k l - p.b| / γ) ε ∧ s2 k l = max (|p.y x k l + p.b| / γ) ε) :
    p.penalties γ ε x = p.spread s1 s2 x + weights p γ s1 s2 := by
  rw [Window.spread, weights, ← Finset.sum_add_distrib, Window.penalties]
  refine Finset.sum_congr rfl fun k hk => ?_
  rw [← Finset.sum_add_distrib]
  refine Finset.sum_congr rfl fun l _ => ?_
  rw [penalty_eq hγ hε, penalty_eq hγ hε, ← (h k (Finset.mem_range.1 hk) l).1, ← (h k (Finset.mem_range.1 hk) l).2]
  ring

theorem Spec.Window.Rounds.descent (h : p.Rounds γ ε n s1 s2 u x J) (hγ : 0 < γ) (hε : 0 < ε) {i : ℕ} (hi : i < n) :
    p.cost γ ε (x (i + 1)) (J (i + 1)) ≤ p.quad (x (i + 1)) (J (i + 1)) + p.spread (s1 (i + 1)) (s2 (i + 1)) (x (i + 1)) +
        weights p γ (s1 (i + 1)) (s2 (i + 1)) ∧
      p.cost γ ε (x i) (J i) = p.quad (x i) (J i) + p.spread (s1 (i + 1)) (s2 (i + 1)) (x i) +
        weights p γ (s1 (i + 1)) (s2 (i + 1)) := by
  have hu := h.update i hi
  refine ⟨?_, ?_⟩
  · have := spread_ge (p := p) (γ := γ) hε (s1 := s1 (i + 1)) (s2 := s2 (i + 1)) (fun k hk l => by rw [(hu k hk l).1]; exact le_max_right _ _)
      (fun k hk l => by rw [(hu k hk l).2]; exact le_max_right _ _) (x (i + 1))
    unfold Window.cost
    linarith
  · have := spread_eq hγ hε hu
    unfold Window.cost
    linarith

/-- Explanations with the same input and first state have the same outputs. -/
theorem same_output (hT : 0 ≤ p.T) {u u' : ℕ → ℝ → Fin L → ℝ} {x x' : ℕ → ℝ → Fin N → ℝ} {J J' : ℕ → ℝ → ℝ}
    (h : p.Explained u x J) (h' : p.Explained u' x' J') (hu : ∀ k < p.K - 1, ∀ t ∈ Ico 0 p.T, u' k t = u k t)
    (hx : x' 0 0 = x 0 0) : ∀ k < p.K, x' k 0 = x k 0 := by
  intro k
  induction k with
  | zero => intro _; exact hx
  | succ k ih =>
    intro hk
    have e := ih (by omega)
    have hk' : k < p.K - 1 := by omega
    rw [← h.explains.join k hk', ← h'.explains.join k hk']
    refine flow_unique (h'.explains.flow k hk') ((h.explains.flow k hk').congr fun t ht => ?_) e p.T ⟨hT, le_rfl⟩
    rw [hu k hk' t ht]

/-- Either a round improves the explanation, or it cannot be improved. -/
theorem Spec.Window.Rounds.improves (h : p.Rounds γ ε n s1 s2 u x J) (hγ : 0 < γ) (hε : 0 < ε) (hT : 0 ≤ p.T)
    (hst : ∀ i ≤ n, ∀ u' x' J', p.Explained u' x' J' → p.quad (x i) (J i) + p.spread (s1 i) (s2 i) (x i) +
        ∑ k ∈ Finset.range p.K, ∑ l, ((p.y x' k l - p.y (x i) k l) ^ 2 / s1 i k l +
          (p.y x' k l - p.y (x i) k l) ^ 2 / s2 i k l) ≤ p.quad x' J' + p.spread (s1 i) (s2 i) x') {i : ℕ} (hi : i < n) :
    p.cost γ ε (x (i + 1)) (J (i + 1)) < p.cost γ ε (x i) (J i) ∨
      ∀ u' x' J', p.Explained u' x' J' → p.cost γ ε (x i) (J i) ≤ p.cost γ ε x' J' := by
  obtain ⟨d1, d2⟩ := h.descent hγ hε hi
  have hS := h.smoothed (i + 1) (by omega)
  have hS0 := h.smoothed i (by omega)
  have hle := hS.least _ _ _ hS0.explained
  rcases lt_or_eq_of_le (show p.cost γ ε (x (i + 1)) (J (i + 1)) ≤ p.cost γ ε (x i) (J i) by linarith) with hlt | heq
  · exact Or.inl hlt
  · refine Or.inr fun u' x' J' h' => ?_
    obtain ⟨eu, ex⟩ := hS.unique _ _ _ hS0.explained (by linarith)
    have hy := same_output hT hS.explained hS0.explained eu ex
    have hu : ∀ k < p.K, ∀ l, s1 (i + 1) k l = max (|p.y (x (i + 1)) k l - p.b| / γ) ε ∧
        s2 (i + 1) k l = max (|p.y (x (i + 1)) k l + p.b| / γ) ε := by
      intro k hk l
      have e : p.y (x (i + 1)) k l = p.y (x i) k l := by rw [Window.y, Window.y, hy k hk]
      rw [e]
      exact h.update i hi k hk l
    have hs := hst (i + 1) (by omega) u' x' J' h'
    rw [← heq]
    unfold Window.cost
    have hc : p.penalties γ ε (x (i + 1)) + (p.spread (s1 (i + 1)) (s2 (i + 1)) x' -
        p.spread (s1 (i + 1)) (s2 (i + 1)) (x (i + 1))) -
        ∑ k ∈ Finset.range p.K, ∑ l, ((p.y x' k l - p.y (x (i + 1)) k l) ^ 2 / s1 (i + 1) k l +
          (p.y x' k l - p.y (x (i + 1)) k l) ^ 2 / s2 (i + 1) k l) ≤ p.penalties γ ε x' := by
      rw [Window.penalties, Window.penalties, Window.spread, Window.spread, ← Finset.sum_sub_distrib, ← Finset.sum_add_distrib,
        ← Finset.sum_sub_distrib]
      refine Finset.sum_le_sum fun k hk => ?_
      rw [← Finset.sum_sub_distrib, ← Finset.sum_add_distrib, ← Finset.sum_sub_distrib]
      refine Finset.sum_le_sum fun l _ => ?_
      obtain ⟨e1, e2⟩ := hu k (Finset.mem_range.1 hk) l
      have c1 := penalty_convex hγ hε (p.y (x (i + 1)) k l - p.b) (p.y x' k l - p.b)
      have c2 := penalty_convex hγ hε (p.y (x (i + 1)) k l + p.b) (p.y x' k l + p.b)
      rw [← e1, sub_sub_sub_cancel_right] at c1
      rw [← e2, add_sub_add_right_eq_sub] at c2
      linarith
    linarith

end

end Cbadc.Nuv
