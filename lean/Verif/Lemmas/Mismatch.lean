import Verif.Lemmas.ClosedLoop
import Verif.Spec.Mismatch

/-! # A switched circuit and the simulation of another system -/

namespace Cbadc.ClosedLoop
open Set Finset Cbadc.Analog Cbadc.Control Cbadc.Simulate Cbadc.Circuit.Spec

/-- As `window`, with a further constant at all times. -/
theorem window_mismatch {N : ℕ} {f f' : ℝ → Fin N → ℝ} {T δ r d a ε η : ℝ} (ha : 0 ≤ a) (hε : 0 ≤ ε) (hη : 0 ≤ η)
    (hδ : 0 ≤ δ) (hr : 0 ≤ r) (hT : δ + r < T)
    (hc : ContinuousOn f (Icc 0 T)) (hd : ∀ x ∈ Ico 0 T, HasDerivWithinAt f (f' x) (Ici x) x)
    (h0 : ‖f 0‖ ≤ d) (hb : ∀ x ∈ Ico 0 T, ‖f' x‖ ≤ a * ‖f x‖ + (ε + η))
    (hb' : ∀ x ∈ Ico 0 T, x < δ ∨ δ + r < x → ‖f' x‖ ≤ a * ‖f x‖ + η) :
    ∀ x ∈ Icc 0 T, ‖f x‖ ≤ (d + ε * r + η * x) * Real.exp (a * x) := by
  have key : ∀ ρ, 0 < ρ → δ + (r + ρ) ≤ T →
      ∀ x ∈ Icc 0 T, ‖f x‖ ≤ (d + ε * (r + ρ) + η * x) * Real.exp (a * x) := by
    intro ρ hρ hρT
    have s1 := stretch (p := 0) (q := δ) ha hη (hc.mono (Icc_subset_Icc le_rfl (by linarith)))
      (fun x hx => hd x ⟨hx.1, by linarith [hx.2]⟩) h0
      (fun x hx => hb' x ⟨hx.1, by linarith [hx.2]⟩ (Or.inl hx.2))
    have s2 := stretch (p := δ) (q := δ + (r + ρ)) ha (add_nonneg hε hη) (hc.mono (Icc_subset_Icc hδ hρT))
      (fun x hx => hd x ⟨by linarith [hx.1], by linarith [hx.2]⟩)
      (s1 δ ⟨hδ, le_rfl⟩)
      (fun x hx => hb x ⟨by linarith [hx.1], by linarith [hx.2]⟩)
    have s3 := stretch (p := δ + (r + ρ)) (q := T) ha hη
      (hc.mono (Icc_subset_Icc (by linarith) le_rfl))
      (fun x hx => hd x ⟨by linarith [hx.1], hx.2⟩)
      (s2 _ ⟨by linarith, le_rfl⟩)
      (fun x hx => hb' x ⟨by linarith [hx.1], hx.2⟩ (Or.inr (by linarith [hx.1])))
    have grow : ∀ y z, 0 ≤ y → 0 ≤ z → y ≤ y * Real.exp (a * z) := fun y z hy hz => by
      have e0 : (1 : ℝ) ≤ Real.exp (a * z) := Real.one_le_exp (by positivity)
      nlinarith
    intro x hx
    rcases le_total x δ with h1 | h1
    · refine (s1 x ⟨hx.1, h1⟩).trans ?_
      rw [sub_zero]
      exact mul_le_mul_of_nonneg_right (by nlinarith) (Real.exp_pos _).le
    · rcases le_total x (δ + (r + ρ)) with h2 | h2
      · refine (s2 x ⟨h1, h2⟩).trans ?_
        rw [sub_zero, show a * x = a * δ + a * (x - δ) by ring, Real.exp_add, ← mul_assoc]
        refine mul_le_mul_of_nonneg_right ?_ (Real.exp_pos _).le
        have h3 : ε * (x - δ) ≤ ε * (r + ρ) := mul_le_mul_of_nonneg_left (by linarith) hε
        have h4 := grow (ε * (r + ρ)) δ (by positivity) hδ
        have h5 := grow (η * (x - δ)) δ (mul_nonneg hη (by linarith)) hδ
        linarith
      · refine (s3 x ⟨h2, hx.2⟩).trans ?_
        rw [sub_zero,
          show a * x = a * δ + a * (r + ρ) + a * (x - (δ + (r + ρ))) by ring, Real.exp_add, Real.exp_add, ← mul_assoc]
        refine mul_le_mul_of_nonneg_right ?_ (Real.exp_pos _).le
        rw [show δ + (r + ρ) - δ = r + ρ by ring, ← mul_assoc]
        have h4 := grow (ε * (r + ρ)) δ (by positivity) hδ
        have h5 := grow (η * (r + ρ)) δ (by positivity) hδ
        have h6 := grow (η * (x - (δ + (r + ρ)))) δ (mul_nonneg hη (by linarith)) hδ
        have h7 := grow (η * (x - (δ + (r + ρ))) * Real.exp (a * δ)) (r + ρ)
          (mul_nonneg (mul_nonneg hη (by linarith)) (Real.exp_pos _).le) (by linarith)
        have h8 : ((d + η * δ) * Real.exp (a * δ) + (ε + η) * (r + ρ)) * Real.exp (a * (r + ρ)) ≤
            ((d + η * δ) * Real.exp (a * δ) + (ε * (r + ρ) + η * (r + ρ)) * Real.exp (a * δ)) * Real.exp (a * (r + ρ)) :=
          mul_le_mul_of_nonneg_right (by linarith) (Real.exp_pos _).le
        linarith
  intro x hx
  have hlim : Filter.Tendsto (fun ρ => (d + ε * (r + ρ) + η * x) * Real.exp (a * x)) (nhdsWithin 0 (Ioi 0))
      (nhds ((d + ε * r + η * x) * Real.exp (a * x))) := by
    have : Continuous fun ρ => (d + ε * (r + ρ) + η * x) * Real.exp (a * x) := by fun_prop
    have := this.tendsto 0
    rw [add_zero] at this
    exact this.mono_left nhdsWithin_le_nhds
  refine ge_of_tendsto hlim ?_
  filter_upwards [Ioc_mem_nhdsGT (show (0 : ℝ) < T - (δ + r) by linarith)] with ρ hρ
  exact key ρ hρ.1 (by linarith [hρ.2]) x hx

/-- As `drift`, for two systems with different matrices and inputs: along the second trajectory the right-hand
sides differ by at most `η`. -/
theorem drift_mismatch (N M : ℕ) (A A' G G' : ℕ → ℕ → ℝ) (T δ r d a g η : ℝ) (v v' φ ψ s w : ℝ → ℕ → ℝ)
    (ha : 0 ≤ a) (hA : ∀ n < N, ∑ j ∈ range N, |A' n j| ≤ a)
    (hg : 0 ≤ g) (hG : ∀ n < N, ∑ m ∈ range M, |G' n m| ≤ g)
    (hδ : 0 ≤ δ) (hr : 0 ≤ r) (hT : δ + r < T) (hd0 : 0 ≤ d) (hη : 0 ≤ η)
    (h0 : ∀ n < N, |φ 0 n - ψ 0 n| ≤ d)
    (c1 : ∀ n < N, ContinuousOn (fun τ => φ τ n) (Icc 0 T))
    (c2 : ∀ n < N, ContinuousOn (fun τ => ψ τ n) (Icc 0 T))
    (d1 : ∀ τ ∈ Ico 0 T, ∀ n < N, HasDerivWithinAt (fun τ => φ τ n)
      (∑ j ∈ range N, A' n j * φ τ j + v' τ n + ∑ m ∈ range M, G' n m * s τ m) (Ici τ) τ)
    (d2 : ∀ τ ∈ Ico 0 T, ∀ n < N, HasDerivWithinAt (fun τ => ψ τ n)
      (∑ j ∈ range N, A n j * ψ τ j + v τ n + ∑ m ∈ range M, G n m * w τ m) (Ici τ) τ)
    (he : ∀ τ ∈ Ico 0 T, ∀ n < N, |∑ j ∈ range N, (A' n j - A n j) * ψ τ j + (v' τ n - v τ n)
      + ∑ m ∈ range M, (G' n m - G n m) * w τ m| ≤ η)
    (hs : ∀ τ ∈ Ico 0 T, ∀ m < M, |s τ m - w τ m| ≤ 2)
    (hs' : ∀ τ ∈ Ico 0 T, τ < δ ∨ δ + r < τ → ∀ m < M, s τ m = w τ m) :
    ∀ τ ∈ Icc 0 T, ∀ n < N, |φ τ n - ψ τ n| ≤ (d + 2 * g * r + η * τ) * Real.exp (a * τ) := by
  let f : ℝ → Fin N → ℝ := fun τ i => φ τ i - ψ τ i
  let e : ℝ → ℕ → ℝ := fun τ n => ∑ j ∈ range N, (A' n j - A n j) * ψ τ j + (v' τ n - v τ n)
    + ∑ m ∈ range M, (G' n m - G n m) * w τ m
  let f' : ℝ → Fin N → ℝ := fun τ i =>
    ∑ j ∈ range N, A' i j * (φ τ j - ψ τ j) + ∑ m ∈ range M, G' i m * (s τ m - w τ m) + e τ i
  have hd : ∀ τ ∈ Ico 0 T, HasDerivWithinAt f (f' τ) (Ici τ) τ := by
    intro τ hτ
    rw [hasDerivWithinAt_pi]
    intro i
    refine ((d1 τ hτ i i.2).sub (d2 τ hτ i i.2)).congr_deriv ?_
    show _ = ∑ j ∈ range N, A' i j * (φ τ j - ψ τ j) + ∑ m ∈ range M, G' i m * (s τ m - w τ m)
      + (∑ j ∈ range N, (A' i j - A i j) * ψ τ j + (v' τ i - v τ i) + ∑ m ∈ range M, (G' i m - G i m) * w τ m)
    simp only [mul_sub, sub_mul, Finset.sum_sub_distrib]
    ring
  have first : ∀ τ (i : Fin N), |∑ j ∈ range N, A' i j * (φ τ j - ψ τ j)| ≤ a * ‖f τ‖ := by
    intro τ i
    refine (Finset.abs_sum_le_sum_abs _ _).trans ?_
    refine le_trans ?_ (mul_le_mul_of_nonneg_right (hA i i.2) (norm_nonneg _))
    rw [Finset.sum_mul]
    refine Finset.sum_le_sum fun j hj => ?_
    rw [abs_mul]
    refine mul_le_mul_of_nonneg_left ?_ (abs_nonneg _)
    exact norm_le_pi_norm (f τ) ⟨j, Finset.mem_range.mp hj⟩
  have hb : ∀ τ ∈ Ico 0 T, ‖f' τ‖ ≤ a * ‖f τ‖ + (2 * g + η) := by
    intro τ hτ
    rw [pi_norm_le_iff_of_nonneg (by positivity), ← add_assoc]
    intro i
    refine (abs_add_le _ _).trans (add_le_add ?_ (he τ hτ i i.2))
    refine (abs_add_le _ _).trans (add_le_add (first τ i) ?_)
    refine (Finset.abs_sum_le_sum_abs _ _).trans ?_
    refine le_trans ?_ (show (∑ m ∈ range M, |G' i m|) * 2 ≤ 2 * g by linarith [hG i i.2])
    rw [Finset.sum_mul]
    refine Finset.sum_le_sum fun m hm => ?_
    rw [abs_mul]
    exact mul_le_mul_of_nonneg_left (hs τ hτ m (Finset.mem_range.mp hm)) (abs_nonneg _)
  have hb' : ∀ τ ∈ Ico 0 T, τ < δ ∨ δ + r < τ → ‖f' τ‖ ≤ a * ‖f τ‖ + η := by
    intro τ hτ hw
    rw [pi_norm_le_iff_of_nonneg (by positivity)]
    intro i
    have : f' τ i = ∑ j ∈ range N, A' i j * (φ τ j - ψ τ j) + e τ i := by
      show _ + ∑ m ∈ range M, G' i m * (s τ m - w τ m) + _ = _
      have e : ∑ m ∈ range M, G' i m * (s τ m - w τ m) = 0 := Finset.sum_eq_zero fun m hm => by
        rw [hs' τ hτ hw m (Finset.mem_range.mp hm), sub_self, mul_zero]
      rw [e, add_zero]
    rw [this]
    exact (abs_add_le _ _).trans (add_le_add (first τ i) (he τ hτ i i.2))
  have hc : ContinuousOn f (Icc 0 T) := by
    rw [continuousOn_pi]
    exact fun i => (c1 i i.2).sub (c2 i i.2)
  have := window_mismatch ha (by positivity : (0 : ℝ) ≤ 2 * g) hη hδ hr hT hc hd
    ((pi_norm_le_iff_of_nonneg hd0).mpr fun i => h0 i i.2) hb hb'
  intro τ hτ n hn
  exact (norm_le_pi_norm (f τ) ⟨n, hn⟩).trans (this τ hτ)

theorem sum_bound (N : ℕ) (c y : ℕ → ℝ) (b : ℝ) (h : ∀ n < N, |y n| ≤ b) :
    |∑ n ∈ range N, c n * y n| ≤ (∑ n ∈ range N, |c n|) * b := by
  refine (Finset.abs_sum_le_sum_abs _ _).trans ?_
  rw [Finset.sum_mul]
  refine Finset.sum_le_sum fun n hn => ?_
  rw [abs_mul]
  exact mul_le_mul_of_nonneg_left (h n (Finset.mem_range.mp hn)) (abs_nonneg _)

theorem mismatched_nonneg {a T g r η E : ℝ} (hg : 0 ≤ g) (hr : 0 ≤ r) (hη : 0 ≤ η) (hT : 0 ≤ T) (hE : 0 ≤ E) (k : ℕ) :
    0 ≤ mismatched a T g r η E k := by
  induction k with
  | zero => exact hE
  | succ k ih =>
    unfold mismatched
    have := Real.exp_pos (a * T)
    positivity

section

variable {M : ℕ} (cfg : Cfg M) (G GT A' B' G' GT' Bt' : ℕ → ℕ → ℝ) (st : ℕ → St M) (φ : ℕ → ℝ → ℕ → ℝ)
  (x u s : ℕ → ℝ → ℝ) (V r lo hi a g h E η θ : ℝ)

/-- As `follow`, for a circuit with other matrices than the simulated system, which makes a limited difference
along the simulated trajectory. -/
theorem follow_mismatch (hG : cfg.sys.Gamma = some G) (hGT : cfg.sys.GammaT = some GT) (hM : cfg.sys.M = M)
    (hMt : cfg.sys.Mt = M) (hin : cfg.hasInput = true)
    (hAt : ∀ i < cfg.sys.Mt, ∀ m < cfg.sys.M, cfg.sys.At i m = 0)
    (hir : ∀ m, cfg.dc.ir m = stepResponse 0) (hoff : ∀ m, cfg.dc.offsets m = 0) (htt : 0 ≤ cfg.dc.tt2)
    (hδ : 0 ≤ cfg.dc.tDelay) (hr0 : 0 ≤ r) (hT : cfg.dc.tDelay + r < cfg.dc.T) (hV : 0 < V)
    (hr : Run cfg st φ)
    (hx : StateEquation cfg.sys.N cfg.sys.L cfg.sys.M A' B' G' x u s)
    (hu : ∀ k t, (st 0).t ≤ t → ∀ l < cfg.sys.L, V * cfg.input k t l = u l t)
    (huc : ∀ l < cfg.sys.L, ∀ k, ContinuousAt (u l) (st k).t)
    (hdec : ∀ k, ∀ i < M, ∀ t, (st k).t + cfg.dc.tDelay + r < t → t ≤ (st (k + 1)).t + cfg.dc.tDelay →
      (Around (st k).t (fun τ => hi < ∑ n ∈ range cfg.sys.N, GT' i n * x n τ
        + ∑ l ∈ range cfg.sys.L, Bt' i l * u l τ) → s i t = V) ∧
      (Around (st k).t (fun τ => ∑ n ∈ range cfg.sys.N, GT' i n * x n τ
        + ∑ l ∈ range cfg.sys.L, Bt' i l * u l τ < lo) → s i t = - V))
    (hb : ∀ m < M, ∀ t, (st 0).t ≤ t → |s m t| ≤ V)
    (hcur : ∀ m, |(st 0).c.cur m| ≤ 1)
    (hs0 : (∀ m : Fin M, ∀ t, (st 0).t ≤ t → t ≤ (st 0).t + cfg.dc.tDelay → s m t = V * (st 0).c.cur m) ∨
      2 * g * cfg.dc.tDelay ≤ E ∧
        ∀ n < cfg.sys.N, |x n (st 0).t - V * (st 0).x n| ≤ V * (E - 2 * g * cfg.dc.tDelay))
    (ha : 0 ≤ a) (hA : ∀ n < cfg.sys.N, ∑ j ∈ range cfg.sys.N, |A' n j| ≤ a)
    (hg : 0 ≤ g) (hGg : ∀ n < cfg.sys.N, ∑ m ∈ range cfg.sys.M, |G' n m| ≤ g)
    (hGTh : ∀ m < M, ∑ n ∈ range cfg.sys.N, |GT' m n| ≤ h)
    (hE : 0 ≤ E) (hη : 0 ≤ η)
    (hx0 : ∀ n < cfg.sys.N, |x n (st 0).t - V * (st 0).x n| ≤ V * E) (K : ℕ)
    (hrow : ∀ k < K, ∀ τ, 0 ≤ τ → τ < cfg.dc.T → ∀ w : ℕ → ℝ, (∀ m < M, |w m| ≤ 1) → ∀ n < cfg.sys.N,
      |∑ j ∈ range cfg.sys.N, (A' n j - cfg.sys.A n j) * φ k τ j
        + ∑ l ∈ range cfg.sys.L, (B' n l - cfg.sys.B n l) * cfg.input ((st k).ticks + 1) (τ + (st k).t) l
        + ∑ m ∈ range M, (G' n m - G n m) * w m| ≤ η)
    (hobs' : ∀ k < K, ∀ m < M, |∑ n ∈ range cfg.sys.N, (GT' m n - GT m n) * (st k).x n
        + ∑ l ∈ range cfg.sys.L, (Bt' m l - cfg.sys.Bt m l) * cfg.input (st k).ticks (st k).t l| ≤ θ)
    (hmar : ∀ k < K, ∀ y, cfg.sys.controlObservation ⟨cfg.sys.N, (st k).x⟩ (some (cfg.u0 (st k)))
        (some (asVec (contribution cfg.dc (st k).c 0))) = .ok y → ∀ m < M,
        max |lo| |hi| < V * (|y.v m| - (h * mismatched a cfg.dc.T g r η E k + θ))) :
    (∀ k ≤ K, ∀ n < cfg.sys.N, |x n (st k).t - V * (st k).x n| ≤ V * mismatched a cfg.dc.T g r η E k) ∧
    (∀ k < K, ∀ τ, 0 ≤ τ → τ ≤ cfg.dc.T → ∀ n < cfg.sys.N,
      |x n ((st k).t + τ) - V * φ k τ n| ≤ V * mismatched a cfg.dc.T g r η E (k + 1)) ∧
    ∀ k < K, ∀ m : Fin M, ∀ t, (st k).t + cfg.dc.tDelay + r < t → t ≤ (st (k + 1)).t + cfg.dc.tDelay →
      s m t = V * (2 * signal (st (k + 1)).c m - 1) := by
  have htime : ∀ k, (st (k + 1)).t = (st k).t + cfg.dc.T := fun k => (hr k).time
  have hstart : ∀ k, (st 0).t ≤ (st k).t := by
    intro k
    induction k with
    | zero => exact le_rfl
    | succ k ih =>
      rw [htime]
      linarith
  -- the decision of one period
  have decide : ∀ k < K, (∀ n < cfg.sys.N, |x n (st k).t - V * (st k).x n| ≤ V * mismatched a cfg.dc.T g r η E k) →
      ∀ m : Fin M, (∀ t, (st k).t + cfg.dc.tDelay + r < t → t ≤ (st (k + 1)).t + cfg.dc.tDelay →
        s m t = V * (st (k + 1)).c.cur m) ∧
        (st (k + 1)).c.cur m = 2 * signal (st (k + 1)).c m - 1 ∧ (st (k + 1)).c.old m = (st k).c.cur m ∧
        |(st (k + 1)).c.cur m| ≤ 1 := by
    intro k hk hdev m
    obtain ⟨y, hy, hyv, hc⟩ := sim_observation cfg GT st φ hGT hM hMt hin hAt hr k
    have hm := hmar k hk y hy m m.2
    have hup := update_plain cfg.dc hir hoff htt (st k).c (fun m => y.v m) m
    rw [← hc] at hup
    obtain ⟨h1, h2, h3⟩ := hup
    have hcont : ContinuousAt (fun τ => ∑ n ∈ range cfg.sys.N, GT' m n * x n τ
        + ∑ l ∈ range cfg.sys.L, Bt' m l * u l τ) (st k).t := by
      refine ContinuousAt.add ?_ ?_
      · refine tendsto_finsetSum _ fun n hn => ?_
        exact ((hx n (Finset.mem_range.mp hn) _).continuousAt).const_mul _
      · refine tendsto_finsetSum _ fun l hl => ?_
        exact (huc l (Finset.mem_range.mp hl) k).const_mul _
    -- the two observations
    have hobs : |(∑ n ∈ range cfg.sys.N, GT' m n * x n (st k).t
        + ∑ l ∈ range cfg.sys.L, Bt' m l * u l (st k).t) - V * y.v m| ≤
        V * (h * mismatched a cfg.dc.T g r η E k + θ) := by
      have e : (∑ n ∈ range cfg.sys.N, GT' m n * x n (st k).t
          + ∑ l ∈ range cfg.sys.L, Bt' m l * u l (st k).t) - V * y.v m
          = ∑ n ∈ range cfg.sys.N, GT' m n * (x n (st k).t - V * (st k).x n)
            + V * (∑ n ∈ range cfg.sys.N, (GT' m n - GT m n) * (st k).x n
              + ∑ l ∈ range cfg.sys.L, (Bt' m l - cfg.sys.Bt m l) * cfg.input (st k).ticks (st k).t l) := by
        rw [hyv m m.2]
        have e1 : ∑ l ∈ range cfg.sys.L, Bt' m l * u l (st k).t =
            V * ∑ l ∈ range cfg.sys.L, Bt' m l * cfg.input (st k).ticks (st k).t l := by
          rw [Finset.mul_sum]
          refine Finset.sum_congr rfl fun l hl => ?_
          rw [← hu (st k).ticks (st k).t (hstart k) l (Finset.mem_range.mp hl)]
          ring
        rw [e1]
        simp only [mul_sub, sub_mul, Finset.sum_sub_distrib]
        have e2 : ∑ n ∈ range cfg.sys.N, GT' m n * (V * (st k).x n) = V * ∑ n ∈ range cfg.sys.N, GT' m n * (st k).x n := by
          rw [Finset.mul_sum]
          exact Finset.sum_congr rfl fun n _ => by ring
        rw [e2]
        ring
      have e1 : |∑ n ∈ range cfg.sys.N, GT' m n * (x n (st k).t - V * (st k).x n)| ≤
          V * (h * mismatched a cfg.dc.T g r η E k) := by
        refine (sum_bound _ _ _ _ fun n hn => hdev n hn).trans ?_
        calc (∑ n ∈ range cfg.sys.N, |GT' m n|) * (V * mismatched a cfg.dc.T g r η E k)
            ≤ h * (V * mismatched a cfg.dc.T g r η E k) :=
              mul_le_mul_of_nonneg_right (hGTh m m.2)
                (mul_nonneg hV.le (mismatched_nonneg hg hr0 hη (by linarith) hE k))
          _ = V * (h * mismatched a cfg.dc.T g r η E k) := by ring
      have e2 := hobs' k hk m m.2
      rw [e, mul_add V (h * _)]
      refine (abs_add_le _ _).trans (add_le_add e1 ?_)
      rw [abs_mul, abs_of_pos hV]
      exact mul_le_mul_of_nonneg_left e2 hV.le
    rw [abs_le] at hobs
    have hlo : -|lo| ≤ lo := neg_abs_le lo
    have hhi : hi ≤ |hi| := le_abs_self hi
    have m1 : |lo| ≤ max |lo| |hi| := le_max_left _ _
    have m2 : |hi| ≤ max |lo| |hi| := le_max_right _ _
    refine ⟨?_, ?_, h2, ?_⟩
    · intro t ht1 ht2
      obtain ⟨d1, d2⟩ := hdec k m m.2 t ht1 ht2
      rw [h3]
      rcases le_or_gt 0 (y.v m) with hy0 | hy0
      · rw [abs_of_nonneg hy0] at hm
        rw [d1 (around_gt hcont (by nlinarith)), if_pos hy0]
        ring
      · rw [abs_of_neg hy0] at hm
        rw [d2 (around_lt hcont (by nlinarith)), if_neg (not_le.mpr hy0)]
        ring
    · rw [h3]
      show _ = 2 * (st (k + 1)).c.s m - 1
      rw [h1]
    · rw [h3]
      split_ifs <;> norm_num
  -- one period
  have period : ∀ k < K, (∀ n < cfg.sys.N, |x n (st k).t - V * (st k).x n| ≤ V * mismatched a cfg.dc.T g r η E k) →
      (∀ m, |(st k).c.cur m| ≤ 1) → ∀ δ ρ d, 0 ≤ δ → δ ≤ cfg.dc.tDelay → 0 ≤ ρ → δ + ρ = cfg.dc.tDelay + r → 0 ≤ d →
      d + 2 * g * ρ = mismatched a cfg.dc.T g r η E k + 2 * g * r →
      (∀ n < cfg.sys.N, |x n (st k).t - V * (st k).x n| ≤ V * d) →
      (∀ m : Fin M, ∀ t, (st k).t ≤ t → t < (st k).t + δ → s m t = V * (st k).c.cur m) →
      ∀ τ ∈ Icc 0 cfg.dc.T, ∀ n < cfg.sys.N, |x n ((st k).t + τ) - V * φ k τ n| ≤
        V * ((mismatched a cfg.dc.T g r η E k + 2 * g * r + η * τ) * Real.exp (a * τ)) := by
    intro k hk hdev hcur δ ρ d h0 hδ' hρ hsum hd0 hde hdev' hs0
    have hd := decide k hk hdev
    have hsol := (hr k).sol hin G hG
    have hc1 : ∀ τ, 0 ≤ τ → ∀ m < M, |(asVec (contribution cfg.dc (st (k + 1)).c τ)).v m| ≤ 1 := by
      intro τ hτ m hm
      simp only [asVec]
      rw [dif_pos hm, contribution_plain cfg.dc hir _ _ hτ]
      split_ifs
      · rw [(hd ⟨m, hm⟩).2.2.1]; exact hcur _
      · exact (hd ⟨m, hm⟩).2.2.2
    have key := drift_mismatch cfg.sys.N M cfg.sys.A A' G G' cfg.dc.T δ ρ d a g η
      (fun τ n => ∑ l ∈ range cfg.sys.L, cfg.sys.B n l * cfg.input ((st k).ticks + 1) (τ + (st k).t) l)
      (fun τ n => ∑ l ∈ range cfg.sys.L, B' n l * cfg.input ((st k).ticks + 1) (τ + (st k).t) l)
      (fun τ n => x n ((st k).t + τ) / V) (φ k) (fun τ m => s m ((st k).t + τ) / V)
      (fun τ => (asVec (contribution cfg.dc (st (k + 1)).c τ)).v) ha hA hg (fun n hn => hM ▸ hGg n hn) h0 hρ (by linarith)
      hd0 hη
      (fun n hn => by
        have e := hdev' n hn
        rw [(hr k).start n hn, add_zero, show x n (st k).t / V - (st k).x n = (x n (st k).t - V * (st k).x n) / V by
          field_simp, abs_div, abs_of_pos hV, div_le_iff₀ hV]
        linarith)
      (fun n hn => by
        intro τ _
        have := ((hx n hn ((st k).t + τ)).continuousAt.comp (f := fun τ => (st k).t + τ)
          (continuousAt_const.add continuousAt_id)).div_const V
        exact this.continuousWithinAt)
      (fun n hn => (hr k).cont n hn)
      (fun τ hτ n hn => by
        have h1 := hx n hn ((st k).t + τ)
        have h2 := (h1.comp_const_add (st k).t τ).div_const V
        refine h2.hasDerivWithinAt.congr_deriv ?_
        simp only [Finset.sum_div, add_div, hM]
        congr 1
        · congr 1
          · exact Finset.sum_congr rfl fun j _ => by ring
          · refine Finset.sum_congr rfl fun l hl => ?_
            rw [← hu ((st k).ticks + 1) ((st k).t + τ) (by linarith [hstart k, hτ.1]) l
              (Finset.mem_range.mp hl), add_comm τ]
            field_simp
        · exact Finset.sum_congr rfl fun j _ => by ring)
      (fun τ hτ n hn => by
        refine (hsol.ode τ hτ n hn).congr_deriv ?_
        unfold dot
        rw [hM]
        ring)
      (fun τ hτ n hn => by
        have e1 : ∑ l ∈ range cfg.sys.L, B' n l * cfg.input ((st k).ticks + 1) (τ + (st k).t) l
            - ∑ l ∈ range cfg.sys.L, cfg.sys.B n l * cfg.input ((st k).ticks + 1) (τ + (st k).t) l
            = ∑ l ∈ range cfg.sys.L, (B' n l - cfg.sys.B n l) * cfg.input ((st k).ticks + 1) (τ + (st k).t) l := by
          rw [← Finset.sum_sub_distrib]
          exact Finset.sum_congr rfl fun l _ => by ring
        rw [e1]
        exact hrow k hk τ hτ.1 hτ.2 _ (fun m hm => hc1 τ hτ.1 m hm) n hn)
      (fun τ hτ m hm => by
        have e1 : |s m ((st k).t + τ) / V| ≤ 1 := by
          rw [abs_div, abs_of_pos hV, div_le_one hV]
          exact hb m hm _ (by linarith [hstart k, hτ.1])
        have e2 := hc1 τ hτ.1 m hm
        exact (abs_sub _ _).trans (by linarith))
      (fun τ hτ hw m hm => by
        simp only [asVec]
        rw [dif_pos hm, contribution_plain cfg.dc hir _ _ hτ.1]
        rcases hw with hw | hw
        · rw [if_pos (by linarith), (hd ⟨m, hm⟩).2.2.1, hs0 ⟨m, hm⟩ _ (by linarith [hτ.1]) (by linarith)]
          field_simp
        · rw [if_neg (by linarith), (hd ⟨m, hm⟩).1 _ (by linarith) (by rw [htime]; linarith [hτ.2])]
          field_simp)
    intro τ hτ n hn
    have := key τ hτ n hn
    rw [hde] at this
    have e : x n ((st k).t + τ) - V * φ k τ n = V * (x n ((st k).t + τ) / V - φ k τ n) := by field_simp
    rw [e, abs_mul, abs_of_pos hV]
    exact mul_le_mul_of_nonneg_left this hV.le
  -- all periods
  have all : ∀ k ≤ K, (∀ n < cfg.sys.N, |x n (st k).t - V * (st k).x n| ≤ V * mismatched a cfg.dc.T g r η E k) ∧
      (∀ m, |(st k).c.cur m| ≤ 1) ∧ ∃ δ ρ d, 0 ≤ δ ∧ δ ≤ cfg.dc.tDelay ∧ 0 ≤ ρ ∧ δ + ρ = cfg.dc.tDelay + r ∧ 0 ≤ d ∧
      d + 2 * g * ρ = mismatched a cfg.dc.T g r η E k + 2 * g * r ∧
      (∀ n < cfg.sys.N, |x n (st k).t - V * (st k).x n| ≤ V * d) ∧
      ∀ m : Fin M, ∀ t, (st k).t ≤ t → t < (st k).t + δ → s m t = V * (st k).c.cur m := by
    intro k
    induction k with
    | zero =>
      intro _
      refine ⟨hx0, hcur, ?_⟩
      rcases hs0 with hs0 | ⟨hEd, hx0'⟩
      · exact ⟨cfg.dc.tDelay, r, E, hδ, le_rfl, hr0, rfl, hE, rfl, hx0, fun m t h1 h2 => hs0 m t h1 h2.le⟩
      · refine ⟨0, cfg.dc.tDelay + r, E - 2 * g * cfg.dc.tDelay, le_rfl, hδ, by linarith, by ring, by linarith, ?_, hx0',
          fun m t h1 h2 => absurd h2 (by linarith)⟩
        rw [mismatched]
        ring
    | succ k ih =>
      intro hk
      obtain ⟨i1, i2, δ, ρ, d, i3, i4, i5, i6, i7, i8, i9, i10⟩ := ih (by omega)
      have hd := decide k (by omega) i1
      have hnext : ∀ n < cfg.sys.N, |x n (st (k + 1)).t - V * (st (k + 1)).x n| ≤
          V * mismatched a cfg.dc.T g r η E (k + 1) := by
        intro n hn
        have := period k (by omega) i1 i2 δ ρ d i3 i4 i5 i6 i7 i8 i9 i10 cfg.dc.T ⟨by linarith, le_rfl⟩ n hn
        rw [(hr k).stop n hn, htime]
        exact this
      refine ⟨hnext, fun m => (hd m).2.2.2, cfg.dc.tDelay, r, _, hδ, le_rfl, hr0, rfl, mismatched_nonneg hg hr0 hη (by linarith) hE (k + 1),
        rfl, hnext, fun m t ht1 ht2 => (hd m).1 t ?_ ht2.le⟩
      rw [htime] at ht1
      linarith
  refine ⟨fun k hk => (all k hk).1, ?_, ?_⟩
  · intro k hk τ h1 h2 n hn
    obtain ⟨i1, i2, δ, ρ, d, i3, i4, i5, i6, i7, i8, i9, i10⟩ := all k hk.le
    refine (period k hk i1 i2 δ ρ d i3 i4 i5 i6 i7 i8 i9 i10 τ ⟨h1, h2⟩ n hn).trans ?_
    refine mul_le_mul_of_nonneg_left ?_ hV.le
    have h0 := mismatched_nonneg (a := a) (T := cfg.dc.T) hg hr0 hη (by linarith) hE k
    have h3 : mismatched a cfg.dc.T g r η E k + 2 * g * r + η * τ ≤
        mismatched a cfg.dc.T g r η E k + 2 * g * r + η * cfg.dc.T := by
      linarith [mul_le_mul_of_nonneg_left h2 hη]
    refine mul_le_mul h3 (Real.exp_le_exp.mpr (mul_le_mul_of_nonneg_left h2 ha)) (Real.exp_pos _).le ?_
    have : 0 ≤ cfg.dc.T := by linarith
    positivity
  · intro k hk m t h1 h2
    have hd := decide k hk (all k hk.le).1 m
    rw [hd.1 t h1 h2, hd.2.1]

end

end Cbadc.ClosedLoop
