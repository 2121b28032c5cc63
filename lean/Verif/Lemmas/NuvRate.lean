import Verif.Lemmas.NuvDescent

/-! Helper lemmas for the NUV estimator: how fast the rounds descend. -/

namespace Cbadc.Nuv

open Matrix Set Cbadc.Filter Cbadc.Filter.Spec Cbadc.Nuv.Spec

variable {N P L : ℕ}

section
variable {γ ε : ℝ}

theorem penalty_between (hγ : 0 < γ) (hε : 0 < ε) {α : ℝ} (h0 : 0 ≤ α) (h1 : α ≤ 1) (r y : ℝ) :
    penalty γ ε ((1 - α) * r + α * y) ≤ (1 - α) * penalty γ ε r + α * penalty γ ε y := by
  obtain ⟨z, hz⟩ : ∃ z, z = (1 - α) * r + α * y := ⟨_, rfl⟩
  rw [← hz]
  have e : ∀ v : ℝ, v ^ 2 / max (|z| / γ) ε - z ^ 2 / max (|z| / γ) ε - (v - z) ^ 2 / max (|z| / γ) ε =
      2 * z / max (|z| / γ) ε * (v - z) := by
    intro v
    ring
  have c1 := penalty_convex hγ hε z r
  have c2 := penalty_convex hγ hε z y
  have e1 := e r
  have e2 := e y
  have k1 : penalty γ ε z + 2 * z / max (|z| / γ) ε * (r - z) ≤ penalty γ ε r := by linarith
  have k2 : penalty γ ε z + 2 * z / max (|z| / γ) ε * (y - z) ≤ penalty γ ε y := by linarith
  have m1 := mul_le_mul_of_nonneg_left k1 (sub_nonneg.2 h1)
  have m2 := mul_le_mul_of_nonneg_left k2 h0
  have : (1 - α) * (penalty γ ε z + 2 * z / max (|z| / γ) ε * (r - z)) +
      α * (penalty γ ε z + 2 * z / max (|z| / γ) ε * (y - z)) = penalty γ ε z := by
    have : (1 - α) * (r - z) + α * (y - z) = 0 := by rw [hz]; ring
    linear_combination (2 * z / max (|z| / γ) ε) * this
  linarith

theorem penalty_linear (hε : 0 < ε) (y : ℝ) : 2 * γ * |y| ≤ penalty γ ε y := by
  unfold penalty
  split
  · exact le_rfl
  · have : y ^ 2 / ε + γ ^ 2 * ε - 2 * γ * |y| = (|y| - γ * ε) ^ 2 / ε := by
      have := sq_abs y
      field_simp
      rw [sub_sq, this]
      ring
    have h2 : 0 ≤ (|y| - γ * ε) ^ 2 / ε := by positivity
    linarith

/-- How far the surrogate with the variances of `r` is above the penalty. -/
theorem surrogate_gap (hγ : 0 < γ) (hε : 0 < ε) (r y : ℝ) :
    y ^ 2 / max (|r| / γ) ε + γ ^ 2 * max (|r| / γ) ε ≤ penalty γ ε y + (y - r) ^ 2 / ε := by
  have h := penalty_convex hγ hε r y
  have e := penalty_eq hγ hε r
  have : (y - r) ^ 2 / max (|r| / γ) ε ≤ (y - r) ^ 2 / ε :=
    div_le_div_of_nonneg_left (sq_nonneg _) hε (le_max_right _ _)
  linarith

/-- The recursion of conditional-gradient methods. -/
theorem rate_of_step {D : ℝ} (hD : 0 ≤ D) {d : ℕ → ℝ} {n : ℕ}
    (h : ∀ i < n, ∀ α, 0 ≤ α → α ≤ 1 → d (i + 1) ≤ (1 - α) * d i + α ^ 2 * D) : ∀ i, 0 < i → i ≤ n → d i ≤ 4 * D / (i + 2) := by
  intro i
  induction i with
  | zero => intro h0; exact absurd h0 (lt_irrefl 0)
  | succ i ih =>
    intro _ hi
    have hi2 : (0 : ℝ) < (i : ℝ) + 2 := by positivity
    have hi3 : (0 : ℝ) < (i : ℝ) + 3 := by positivity
    rcases Nat.eq_zero_or_pos i with rfl | h0
    · have := h 0 (by omega) 1 zero_le_one le_rfl
      simp only [sub_self, zero_mul, one_pow, one_mul, zero_add] at this
      refine this.trans ?_
      norm_num
      linarith
    · have hd := ih h0 (by omega)
      have := h i (by omega) (2 / ((i : ℝ) + 2)) (by positivity) (by
        rw [div_le_one hi2]
        have : (0 : ℝ) ≤ i := Nat.cast_nonneg i
        linarith)
      refine this.trans ?_
      have hc : 0 ≤ 1 - 2 / ((i : ℝ) + 2) := by
        rw [sub_nonneg, div_le_one hi2]
        have : (0 : ℝ) ≤ i := Nat.cast_nonneg i
        linarith
      have h2 := mul_le_mul_of_nonneg_left hd hc
      have e : (1 - 2 / ((i : ℝ) + 2)) * (4 * D / (i + 2)) + (2 / ((i : ℝ) + 2)) ^ 2 * D =
          4 * D * (i + 1) / ((i + 2) ^ 2) := by
        field_simp
        ring
      have e2 : 4 * D * (i + 1) / (((i : ℝ) + 2) ^ 2) ≤ 4 * D / ((i : ℝ) + 3) := by
        rw [div_le_div_iff₀ (by positivity) hi3]
        have : ((i : ℝ) + 1) * (i + 3) ≤ (i + 2) ^ 2 := by nlinarith
        have := mul_le_mul_of_nonneg_left this (by positivity : (0 : ℝ) ≤ 4 * D)
        linarith
      have e3 : (((i + 1 : ℕ) : ℝ) + 2) = (i : ℝ) + 3 := by push_cast; ring
      rw [e3]
      linarith

end

section
variable {p : Window N P L}

/-- An explanation on the line between two others. -/
theorem explained_between {u u' : ℕ → ℝ → Fin L → ℝ} {x x' : ℕ → ℝ → Fin N → ℝ} {J J' E : ℕ → ℝ → ℝ}
    (h : p.Explained u x J) (h' : p.Explained u' x' J')
    (hE : Integrates p.T (p.K - 1) (fun k t => (u' k t - u k t) ⬝ᵥ (u' k t - u k t)) E) (α : ℝ) :
    p.Explained (fun k t => (1 - α) • u k t + α • u' k t) (fun k t => (1 - α) • x k t + α • x' k t)
      (fun k t => (1 - α) * J k t + α * J' k t - α * (1 - α) * E k t) := by
  refine ⟨⟨fun k hk => ⟨?_, ?_⟩, fun k hk => ?_⟩, ⟨fun k hk => ?_, fun k hk => ?_, fun k hk t ht => ?_⟩⟩
  · exact ((h.explains.flow k hk).cont.const_smul (1 - α)).add ((h'.explains.flow k hk).cont.const_smul α)
  · intro t ht
    have d := (((h.explains.flow k hk).ode t ht).const_smul (1 - α)).add (((h'.explains.flow k hk).ode t ht).const_smul α)
    refine d.congr_deriv ?_
    simp only [mulVec_add, mulVec_smul, smul_add]
    module
  · simp only [h.explains.join k hk, h'.explains.join k hk]
  · simp only [h.energy.start k hk, h'.energy.start k hk, hE.start k hk]
    ring
  · exact ((continuousOn_const.mul (h.energy.cont k hk)).add (continuousOn_const.mul (h'.energy.cont k hk))).sub
      (continuousOn_const.mul (hE.cont k hk))
  · have d := (((h.energy.deriv k hk t ht).const_mul (1 - α)).add ((h'.energy.deriv k hk t ht).const_mul α)).sub
      ((hE.deriv k hk t ht).const_mul (α * (1 - α)))
    refine d.congr_deriv ?_
    simp only [add_dotProduct, dotProduct_add, sub_dotProduct, dotProduct_sub, smul_dotProduct, dotProduct_smul, smul_eq_mul,
      dotProduct_comm (u' k t) (u k t)]
    ring

/-- The quadratic part of the cost is convex. -/
theorem quad_between (hw : 0 < p.w) (hT : 0 ≤ p.T) (hV : p.V0.PosDef) {u u' : ℕ → ℝ → Fin L → ℝ} {x x' : ℕ → ℝ → Fin N → ℝ}
    {J J' E : ℕ → ℝ → ℝ} (hE : Integrates p.T (p.K - 1) (fun k t => (u' k t - u k t) ⬝ᵥ (u' k t - u k t)) E) {α : ℝ}
    (h0 : 0 ≤ α) (h1 : α ≤ 1) :
    p.quad (fun k t => (1 - α) • x k t + α • x' k t) (fun k t => (1 - α) * J k t + α * J' k t - α * (1 - α) * E k t) ≤
      (1 - α) * p.quad x J + α * p.quad x' J' := by
  have hn : 0 ≤ (∑ k ∈ Finset.range (p.K - 1), E k p.T) / p.w :=
    div_nonneg (Finset.sum_nonneg fun k hk => integrates_nonneg hT hE (fun k _ t _ =>
        Finset.sum_nonneg fun i _ => mul_self_nonneg _) (Finset.mem_range.1 hk)) hw.le
  have hq := quad_nonneg hV (x' 0 0 - x 0 0)
  have hs : p.V0⁻¹ᵀ = p.V0⁻¹ := by
    have := hV.inv.isHermitian
    rwa [IsHermitian, conjTranspose_eq_transpose_of_trivial] at this
  obtain ⟨a, ha⟩ : ∃ a, a = x 0 0 - p.m0 := ⟨_, rfl⟩
  obtain ⟨b, hb⟩ : ∃ b, b = x' 0 0 - p.m0 := ⟨_, rfl⟩
  have e1 : (1 - α) • x 0 0 + α • x' 0 0 - p.m0 = (1 - α) • a + α • b := by rw [ha, hb]; module
  have e2 : x' 0 0 - x 0 0 = b - a := by rw [ha, hb]; abel
  have hc : b ⬝ᵥ p.V0⁻¹ *ᵥ a = a ⬝ᵥ p.V0⁻¹ *ᵥ b := by
    rw [dotProduct_mulVec, ← mulVec_transpose, hs, dotProduct_comm]
  unfold Window.quad
  rw [e1, ← ha, ← hb]
  rw [e2] at hq
  have e3 : ((1 - α) • a + α • b) ⬝ᵥ p.V0⁻¹ *ᵥ ((1 - α) • a + α • b) = (1 - α) * (a ⬝ᵥ p.V0⁻¹ *ᵥ a) + α * (b ⬝ᵥ p.V0⁻¹ *ᵥ b) -
      α * (1 - α) * ((b - a) ⬝ᵥ p.V0⁻¹ *ᵥ (b - a)) := by
    simp only [add_dotProduct, dotProduct_add, sub_dotProduct, dotProduct_sub, smul_dotProduct, dotProduct_smul, smul_eq_mul,
      mulVec_add, mulVec_sub, mulVec_smul, hc]
    ring
  have e4 : ∑ k ∈ Finset.range (p.K - 1), ((1 - α) * J k p.T + α * J' k p.T - α * (1 - α) * E k p.T) =
      (1 - α) * ∑ k ∈ Finset.range (p.K - 1), J k p.T + α * ∑ k ∈ Finset.range (p.K - 1), J' k p.T -
        α * (1 - α) * ∑ k ∈ Finset.range (p.K - 1), E k p.T := by
    rw [Finset.mul_sum, Finset.mul_sum, Finset.mul_sum, ← Finset.sum_add_distrib, ← Finset.sum_sub_distrib]
  rw [e3, e4]
  have hα : 0 ≤ α * (1 - α) := mul_nonneg h0 (sub_nonneg.2 h1)
  have m1 := mul_nonneg hα hn
  have m2 := mul_nonneg hα hq
  have e5 : ((1 - α) * ∑ k ∈ Finset.range (p.K - 1), J k p.T + α * ∑ k ∈ Finset.range (p.K - 1), J' k p.T -
        α * (1 - α) * ∑ k ∈ Finset.range (p.K - 1), E k p.T) / p.w =
      (1 - α) * ((∑ k ∈ Finset.range (p.K - 1), J k p.T) / p.w) + α * ((∑ k ∈ Finset.range (p.K - 1), J' k p.T) / p.w) -
        α * (1 - α) * ((∑ k ∈ Finset.range (p.K - 1), E k p.T) / p.w) := by ring
  rw [e5]
  linarith

theorem quad_nonneg' (hw : 0 < p.w) (hT : 0 ≤ p.T) (hV : p.V0.PosDef) {u : ℕ → ℝ → Fin L → ℝ} {x : ℕ → ℝ → Fin N → ℝ}
    {J : ℕ → ℝ → ℝ} (h : p.Explained u x J) : 0 ≤ p.quad x J :=
  add_nonneg (div_nonneg (Finset.sum_nonneg fun _ hk => integrates_nonneg hT h.energy (fun _ _ _ _ =>
        Finset.sum_nonneg fun _ _ => mul_self_nonneg _) (Finset.mem_range.1 hk)) hw.le) (quad_nonneg hV _)

theorem y_between (x x' : ℕ → ℝ → Fin N → ℝ) (α : ℝ) (k : ℕ) (l : Fin P) :
    p.y (fun k t => (1 - α) • x k t + α • x' k t) k l = (1 - α) * p.y x k l + α * p.y x' k l := by
  simp [Window.y, mulVec_add, mulVec_smul]

variable {γ ε : ℝ}

theorem penalties_between (hγ : 0 < γ) (hε : 0 < ε) (x x' : ℕ → ℝ → Fin N → ℝ) {α : ℝ} (h0 : 0 ≤ α) (h1 : α ≤ 1) :
    p.penalties γ ε (fun k t => (1 - α) • x k t + α • x' k t) ≤ (1 - α) * p.penalties γ ε x + α * p.penalties γ ε x' := by
  simp only [Window.penalties, Finset.mul_sum, ← Finset.sum_add_distrib]
  refine Finset.sum_le_sum fun k _ => Finset.sum_le_sum fun l _ => ?_
  rw [y_between]
  have c1 := penalty_between hγ hε h0 h1 (p.y x k l - p.b) (p.y x' k l - p.b)
  have c2 := penalty_between hγ hε h0 h1 (p.y x k l + p.b) (p.y x' k l + p.b)
  have e1 : (1 - α) * (p.y x k l - p.b) + α * (p.y x' k l - p.b) = (1 - α) * p.y x k l + α * p.y x' k l - p.b := by ring
  have e2 : (1 - α) * (p.y x k l + p.b) + α * (p.y x' k l + p.b) = (1 - α) * p.y x k l + α * p.y x' k l + p.b := by ring
  rw [e1] at c1
  rw [e2] at c2
  linarith

/-- The outputs are bounded by the penalties. -/
theorem outputs_le (hγ : 0 < γ) (hε : 0 < ε) (x : ℕ → ℝ → Fin N → ℝ) :
    ∑ k ∈ Finset.range p.K, ∑ l, |p.y x k l| ≤ p.penalties γ ε x / (4 * γ) := by
  rw [le_div_iff₀ (by positivity), Window.penalties, Finset.sum_mul]
  refine Finset.sum_le_sum fun k _ => ?_
  rw [Finset.sum_mul]
  refine Finset.sum_le_sum fun l _ => ?_
  have c1 := penalty_linear (γ := γ) hε (p.y x k l - p.b)
  have c2 := penalty_linear (γ := γ) hε (p.y x k l + p.b)
  have h := abs_add_le (p.y x k l - p.b) (p.y x k l + p.b)
  have e : |p.y x k l - p.b + (p.y x k l + p.b)| = 2 * |p.y x k l| := by
    rw [show p.y x k l - p.b + (p.y x k l + p.b) = 2 * p.y x k l by ring, abs_mul, abs_two]
  rw [e] at h
  nlinarith

theorem sum_sq_le {ι κ : Type*} (s : Finset ι) (t : Finset κ) (a : ι → κ → ℝ) :
    ∑ k ∈ s, ∑ l ∈ t, a k l ^ 2 ≤ (∑ k ∈ s, ∑ l ∈ t, |a k l|) ^ 2 := by
  have := Finset.sum_sq_le_sq_sum_of_nonneg (s := s ×ˢ t) (f := fun q => |a q.1 q.2|) (fun _ _ => abs_nonneg _)
  simpa only [Finset.sum_product, sq_abs] using this

variable {n : ℕ} {s1 s2 : ℕ → ℕ → Fin P → ℝ} {u : ℕ → ℕ → ℝ → Fin L → ℝ} {x : ℕ → ℕ → ℝ → Fin N → ℝ} {J : ℕ → ℕ → ℝ → ℝ}

theorem Spec.Window.Rounds.mono (h : p.Rounds γ ε n s1 s2 u x J) (hγ : 0 < γ) (hε : 0 < ε) : ∀ {i j : ℕ}, i ≤ j → j ≤ n →
    p.cost γ ε (x j) (J j) ≤ p.cost γ ε (x i) (J i) := by
  intro i j hij
  induction j, hij using Nat.le_induction with
  | base => intro _; exact le_rfl
  | succ j _ ih =>
    intro hj
    obtain ⟨d1, d2⟩ := h.descent hγ hε (i := j) (by omega)
    have hle := (h.smoothed (j + 1) hj).least _ _ _ (h.smoothed j (by omega)).explained
    exact le_trans (by linarith) (ih (by omega))

/-- One round compared with the explanations on the line to another one. -/
theorem Spec.Window.Rounds.step (h : p.Rounds γ ε n s1 s2 u x J) (hγ : 0 < γ) (hε : 0 < ε) (hw : 0 < p.w) (hT : 0 ≤ p.T)
    (hV : p.V0.PosDef) {u' : ℕ → ℝ → Fin L → ℝ} {x' : ℕ → ℝ → Fin N → ℝ} {J' E : ℕ → ℝ → ℝ} (h' : p.Explained u' x' J')
    {i : ℕ} (hi : i < n) (hE : Integrates p.T (p.K - 1) (fun k t => (u' k t - u i k t) ⬝ᵥ (u' k t - u i k t)) E) {α : ℝ}
    (h0 : 0 ≤ α) (h1 : α ≤ 1) :
    p.cost γ ε (x (i + 1)) (J (i + 1)) ≤ (1 - α) * p.cost γ ε (x i) (J i) + α * p.cost γ ε x' J' +
      α ^ 2 * (2 / ε * ∑ k ∈ Finset.range p.K, ∑ l, (p.y x' k l - p.y (x i) k l) ^ 2) := by
  have hx := (h.smoothed i hi.le).explained
  have hz := explained_between hx h' hE α
  have hl := (h.smoothed (i + 1) hi).least _ _ _ hz
  have d1 := (h.descent hγ hε hi).1
  have hq := quad_between (x := x i) (x' := x') (J := J i) (J' := J') hw hT hV hE h0 h1
  have hp := penalties_between (p := p) hγ hε (x i) x' h0 h1
  have hg : p.spread (s1 (i + 1)) (s2 (i + 1)) (fun k t => (1 - α) • x i k t + α • x' k t) + weights p γ (s1 (i + 1)) (s2 (i + 1)) ≤
      p.penalties γ ε (fun k t => (1 - α) • x i k t + α • x' k t) +
        α ^ 2 * (2 / ε * ∑ k ∈ Finset.range p.K, ∑ l, (p.y x' k l - p.y (x i) k l) ^ 2) := by
    rw [Window.spread, weights, Window.penalties, Finset.mul_sum, Finset.mul_sum, ← Finset.sum_add_distrib,
      ← Finset.sum_add_distrib]
    refine Finset.sum_le_sum fun k hk => ?_
    rw [Finset.mul_sum, Finset.mul_sum, ← Finset.sum_add_distrib, ← Finset.sum_add_distrib]
    refine Finset.sum_le_sum fun l _ => ?_
    obtain ⟨e1, e2⟩ := h.update i hi k (Finset.mem_range.1 hk) l
    rw [e1, e2, y_between]
    have c1 := surrogate_gap hγ hε (p.y (x i) k l - p.b) ((1 - α) * p.y (x i) k l + α * p.y x' k l - p.b)
    have c2 := surrogate_gap hγ hε (p.y (x i) k l + p.b) ((1 - α) * p.y (x i) k l + α * p.y x' k l + p.b)
    have e3 : ((1 - α) * p.y (x i) k l + α * p.y x' k l - p.b - (p.y (x i) k l - p.b)) ^ 2 / ε +
        ((1 - α) * p.y (x i) k l + α * p.y x' k l + p.b - (p.y (x i) k l + p.b)) ^ 2 / ε =
        α ^ 2 * (2 / ε * (p.y x' k l - p.y (x i) k l) ^ 2) := by ring
    linarith
  unfold Window.cost at *
  linarith

/-- The cost of round `i` exceeds the cost of any explanation by at most a multiple of `1 / (i + 2)`. -/
theorem Spec.Window.Rounds.rate (h : p.Rounds γ ε n s1 s2 u x J) (hγ : 0 < γ) (hε : 0 < ε) (hw : 0 < p.w) (hT : 0 ≤ p.T)
    (hV : p.V0.PosDef) (hE : ∀ i ≤ n, ∀ u' x' J', p.Explained u' x' J' → ∃ E,
      Integrates p.T (p.K - 1) (fun k t => (u' k t - u i k t) ⬝ᵥ (u' k t - u i k t)) E)
    {u' : ℕ → ℝ → Fin L → ℝ} {x' : ℕ → ℝ → Fin N → ℝ} {J' : ℕ → ℝ → ℝ} (h' : p.Explained u' x' J') {i : ℕ} (hi : 0 < i)
    (hin : i ≤ n) : p.cost γ ε (x i) (J i) ≤ p.cost γ ε x' J' + 2 * p.cost γ ε (x 0) (J 0) ^ 2 / (γ ^ 2 * ε * (i + 2)) := by
  rcases le_or_gt (p.cost γ ε (x i) (J i)) (p.cost γ ε x' J') with hc | hc
  · have : 0 ≤ 2 * p.cost γ ε (x 0) (J 0) ^ 2 / (γ ^ 2 * ε * (i + 2)) := by positivity
    linarith
  · obtain ⟨D, hD⟩ : ∃ D, D = p.cost γ ε (x 0) (J 0) ^ 2 / (2 * ε * γ ^ 2) := ⟨_, rfl⟩
    have hD0 : 0 ≤ D := by rw [hD]; positivity
    have key := rate_of_step (d := fun j => p.cost γ ε (x j) (J j) - p.cost γ ε x' J') (n := i) hD0 (fun j hj α h0 h1 => by
      obtain ⟨E, hEj⟩ := hE j (by omega) _ _ _ h'
      have hs := h.step hγ hε hw hT hV h' (by omega) hEj h0 h1
      have m1 := h.mono hγ hε (Nat.zero_le j) (by omega)
      have m2 := h.mono hγ hε (i := j) (j := i) (by omega) hin
      have o1 := outputs_le (p := p) hγ hε (x j)
      have o2 := outputs_le (p := p) hγ hε x'
      have q1 := quad_nonneg' hw hT hV (h.smoothed j (by omega)).explained
      have q2 := quad_nonneg' hw hT hV h'
      have p1 : p.penalties γ ε (x j) ≤ p.cost γ ε (x 0) (J 0) := by unfold Window.cost at *; linarith
      have p2 : p.penalties γ ε x' ≤ p.cost γ ε (x 0) (J 0) := by unfold Window.cost at *; linarith
      have hsum : ∑ k ∈ Finset.range p.K, ∑ l, |p.y x' k l - p.y (x j) k l| ≤ p.cost γ ε (x 0) (J 0) / (2 * γ) := by
        calc ∑ k ∈ Finset.range p.K, ∑ l, |p.y x' k l - p.y (x j) k l|
            ≤ ∑ k ∈ Finset.range p.K, ∑ l, |p.y x' k l| + ∑ k ∈ Finset.range p.K, ∑ l, |p.y (x j) k l| := by
              rw [← Finset.sum_add_distrib]
              refine Finset.sum_le_sum fun k _ => ?_
              rw [← Finset.sum_add_distrib]
              exact Finset.sum_le_sum fun l _ => abs_sub _ _
          _ ≤ p.cost γ ε (x 0) (J 0) / (4 * γ) + p.cost γ ε (x 0) (J 0) / (4 * γ) :=
              add_le_add (o2.trans (div_le_div_of_nonneg_right p2 (by positivity)))
                (o1.trans (div_le_div_of_nonneg_right p1 (by positivity)))
          _ = p.cost γ ε (x 0) (J 0) / (2 * γ) := by field_simp; ring
      have hsq : ∑ k ∈ Finset.range p.K, ∑ l, (p.y x' k l - p.y (x j) k l) ^ 2 ≤ (p.cost γ ε (x 0) (J 0) / (2 * γ)) ^ 2 :=
        (sum_sq_le _ _ _).trans (pow_le_pow_left₀ (Finset.sum_nonneg fun _ _ => Finset.sum_nonneg fun _ _ => abs_nonneg _) hsum 2)
      have hb : 2 / ε * ∑ k ∈ Finset.range p.K, ∑ l, (p.y x' k l - p.y (x j) k l) ^ 2 ≤ D := by
        calc 2 / ε * ∑ k ∈ Finset.range p.K, ∑ l, (p.y x' k l - p.y (x j) k l) ^ 2
            ≤ 2 / ε * (p.cost γ ε (x 0) (J 0) / (2 * γ)) ^ 2 := mul_le_mul_of_nonneg_left hsq (by positivity)
          _ = D := by rw [hD]; field_simp
      have := mul_le_mul_of_nonneg_left hb (sq_nonneg α)
      linarith) i hi le_rfl
    have e : 4 * D / ((i : ℝ) + 2) = 2 * p.cost γ ε (x 0) (J 0) ^ 2 / (γ ^ 2 * ε * (i + 2)) := by
      rw [hD]
      field_simp
      ring
    rw [e] at key
    linarith

/-- The smoothed explanations for the same variances have the same cost. -/
theorem smoothed_cost (hT : 0 ≤ p.T) {s1 s2 t1 t2 : ℕ → Fin P → ℝ} (hs : ∀ k < p.K, ∀ l, s1 k l = t1 k l ∧ s2 k l = t2 k l)
    {u u' : ℕ → ℝ → Fin L → ℝ} {x x' : ℕ → ℝ → Fin N → ℝ} {J J' : ℕ → ℝ → ℝ} (h : p.Smoothed s1 s2 u x J)
    (h' : p.Smoothed t1 t2 u' x' J') : p.cost γ ε x J = p.cost γ ε x' J' := by
  have hsp : ∀ z : ℕ → ℝ → Fin N → ℝ, p.spread s1 s2 z = p.spread t1 t2 z := by
    intro z
    unfold Window.spread
    refine Finset.sum_congr rfl fun k hk => Finset.sum_congr rfl fun l _ => ?_
    rw [(hs k (Finset.mem_range.1 hk) l).1, (hs k (Finset.mem_range.1 hk) l).2]
  have l1 := h.least _ _ _ h'.explained
  have l2 := h'.least _ _ _ h.explained
  rw [← hsp, ← hsp] at l2
  obtain ⟨eu, ex⟩ := h.unique _ _ _ h'.explained l2
  have hy := same_output hT h.explained h'.explained eu ex
  have ey : ∀ k < p.K, ∀ l, p.y x' k l = p.y x k l := fun k hk l => by rw [Window.y, Window.y, hy k hk]
  have e1 : p.spread s1 s2 x' = p.spread s1 s2 x := by
    unfold Window.spread
    refine Finset.sum_congr rfl fun k hk => Finset.sum_congr rfl fun l _ => ?_
    rw [ey k (Finset.mem_range.1 hk) l]
  have e2 : p.penalties γ ε x' = p.penalties γ ε x := by
    unfold Window.penalties
    refine Finset.sum_congr rfl fun k hk => Finset.sum_congr rfl fun l _ => ?_
    rw [ey k (Finset.mem_range.1 hk) l]
  unfold Window.cost
  linarith

end

end Cbadc.Nuv
