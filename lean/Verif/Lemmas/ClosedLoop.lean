import Verif.Lemmas.Drift
import Verif.Spec.ClosedLoop
import Verif.Props.Simulator

/-! # A switched circuit and the simulator -/

namespace Cbadc.ClosedLoop
open Set Finset Cbadc.Analog Cbadc.Control Cbadc.Simulate Cbadc.Circuit.Spec

theorem deviation_nonneg {a T g r E : ℝ} (hg : 0 ≤ g) (hr : 0 ≤ r) (hE : 0 ≤ E) (k : ℕ) :
    0 ≤ deviation a T g r E k := by
  induction k with
  | zero => exact hE
  | succ k ih =>
    unfold deviation
    have := Real.exp_pos (a * T)
    positivity

/-- A continuous function that is above a bound is so around. -/
theorem around_gt {f : ℝ → ℝ} {e b : ℝ} (hf : ContinuousAt f e) (h : b < f e) : Around e fun s => b < f s := by
  obtain ⟨ε, hε, H⟩ := Metric.eventually_nhds_iff.mp (hf.eventually (lt_mem_nhds h))
  refine ⟨ε, hε, fun s h1 h2 => H ?_⟩
  rw [Real.dist_eq, abs_lt]
  constructor <;> linarith

theorem around_lt {f : ℝ → ℝ} {e b : ℝ} (hf : ContinuousAt f e) (h : f e < b) : Around e fun s => f s < b := by
  obtain ⟨ε, hε, H⟩ := Metric.eventually_nhds_iff.mp (hf.eventually (gt_mem_nhds h))
  refine ⟨ε, hε, fun s h1 h2 => H ?_⟩
  rw [Real.dist_eq, abs_lt]
  constructor <;> linarith

/-- The control contribution of a control without phases. -/
theorem contribution_plain {M : ℕ} (dc : DC ℝ M) (h0 : ∀ m, dc.ir m = stepResponse 0) (c : State ℝ M) (τ : ℝ)
    (hτ : 0 ≤ τ) (m : Fin M) : contribution dc c τ m = if τ < dc.tDelay then c.old m else c.cur m := by
  unfold contribution
  rw [h0, if_neg (show ¬ τ < (stepResponse (0 : ℝ)).t0 from not_lt.mpr hτ)]
  show (if 0 ≤ τ then (1 : ℝ) else 0) * _ = _
  rw [if_pos hτ, one_mul]

theorem update_plain {M : ℕ} (dc : DC ℝ M) (h0 : ∀ m, dc.ir m = stepResponse 0) (ho : ∀ m, dc.offsets m = 0)
    (htt : 0 ≤ dc.tt2) (c : State ℝ M) (y : Fin M → ℝ) (m : Fin M) :
    (update dc c 0 y).s m = (if 0 ≤ y m then 1 else 0) ∧ (update dc c 0 y).old m = c.cur m ∧
      (update dc c 0 y).cur m = 2 * (if 0 ≤ y m then 1 else 0) - 1 := by
  have h : allclose (0 : ℝ) (dc.ir m).t0 dc.tt2 := by
    rw [h0]
    simp only [stepResponse, allclose]
    simpa using htt
  simp only [update]
  rw [if_pos h, if_pos h, if_pos h, ho]
  exact ⟨rfl, rfl, rfl⟩

section

variable {M : ℕ} (cfg : Cfg M) (G GT : ℕ → ℕ → ℝ) (st : ℕ → St M) (φ : ℕ → ℝ → ℕ → ℝ) (x u s : ℕ → ℝ → ℝ)
  (V r lo hi a g h E : ℝ)

/-- The observation of the simulator. -/
theorem sim_observation (hGT : cfg.sys.GammaT = some GT) (hM : cfg.sys.M = M) (hMt : cfg.sys.Mt = M)
    (hin : cfg.hasInput = true) (hAt : ∀ i < cfg.sys.Mt, ∀ m < cfg.sys.M, cfg.sys.At i m = 0)
    (hr : Run cfg st φ) (k : ℕ) :
    ∃ y : Vec ℝ, cfg.sys.controlObservation ⟨cfg.sys.N, (st k).x⟩ (some (cfg.u0 (st k)))
        (some (asVec (contribution cfg.dc (st k).c 0))) = .ok y ∧
      (∀ m < M, y.v m = ∑ n ∈ range cfg.sys.N, GT m n * (st k).x n
        + ∑ l ∈ range cfg.sys.L, cfg.sys.Bt m l * cfg.input (st k).ticks (st k).t l) ∧
      (st (k + 1)).c = update cfg.dc (st k).c 0 fun m => y.v m := by
  obtain ⟨y, h1, -, h3⟩ := (decide_ok cfg (st k) _).mp (hr k).dec
  refine ⟨y, h1, ?_, h3⟩
  intro m hm
  obtain ⟨y', h1', -, h3'⟩ := (C27_observation_partial cfg.sys GT hGT ⟨cfg.sys.N, (st k).x⟩ (cfg.u0 (st k))
    (asVec (contribution cfg.dc (st k).c 0)) rfl rfl hM.symm).1
  rw [h1] at h1'
  cases h1'
  rw [h3']
  have e : ∑ c ∈ range cfg.sys.M, cfg.sys.At m c * (asVec (contribution cfg.dc (st k).c 0)).v c = 0 :=
    Finset.sum_eq_zero fun c hc => by rw [hAt m (by omega) c (Finset.mem_range.mp hc), zero_mul]
  rw [e, add_zero]
  unfold Cfg.u0
  simp only [hin, if_true, zero_add]

/-- The decisions in a circuit and in the simulator. -/
theorem follow (hG : cfg.sys.Gamma = some G) (hGT : cfg.sys.GammaT = some GT) (hM : cfg.sys.M = M)
    (hMt : cfg.sys.Mt = M) (hin : cfg.hasInput = true)
    (hAt : ∀ i < cfg.sys.Mt, ∀ m < cfg.sys.M, cfg.sys.At i m = 0)
    (hir : ∀ m, cfg.dc.ir m = stepResponse 0) (hoff : ∀ m, cfg.dc.offsets m = 0) (htt : 0 ≤ cfg.dc.tt2)
    (hδ : 0 ≤ cfg.dc.tDelay) (hr0 : 0 ≤ r) (hT : cfg.dc.tDelay + r < cfg.dc.T) (hV : 0 < V)
    (hr : Run cfg st φ)
    (hx : StateEquation cfg.sys.N cfg.sys.L cfg.sys.M cfg.sys.A cfg.sys.B G x u s)
    (hu : ∀ k t, (st 0).t ≤ t → ∀ l < cfg.sys.L, V * cfg.input k t l = u l t)
    (huc : ∀ l < cfg.sys.L, ∀ k, ContinuousAt (u l) (st k).t)
    (hdec : ∀ k, ∀ i < M, ∀ t, (st k).t + cfg.dc.tDelay + r < t → t ≤ (st (k + 1)).t + cfg.dc.tDelay →
      (Around (st k).t (fun τ => hi < ∑ n ∈ range cfg.sys.N, GT i n * x n τ
        + ∑ l ∈ range cfg.sys.L, cfg.sys.Bt i l * u l τ) → s i t = V) ∧
      (Around (st k).t (fun τ => ∑ n ∈ range cfg.sys.N, GT i n * x n τ
        + ∑ l ∈ range cfg.sys.L, cfg.sys.Bt i l * u l τ < lo) → s i t = - V))
    (hb : ∀ m < M, ∀ t, (st 0).t ≤ t → |s m t| ≤ V)
    (hcur : ∀ m, |(st 0).c.cur m| ≤ 1)
    (hs0 : (∀ m : Fin M, ∀ t, (st 0).t ≤ t → t ≤ (st 0).t + cfg.dc.tDelay → s m t = V * (st 0).c.cur m) ∨
      2 * g * cfg.dc.tDelay ≤ E ∧
        ∀ n < cfg.sys.N, |x n (st 0).t - V * (st 0).x n| ≤ V * (E - 2 * g * cfg.dc.tDelay))
    (ha : 0 ≤ a) (hA : ∀ n < cfg.sys.N, ∑ j ∈ range cfg.sys.N, |cfg.sys.A n j| ≤ a)
    (hg : 0 ≤ g) (hGg : ∀ n < cfg.sys.N, ∑ m ∈ range cfg.sys.M, |G n m| ≤ g)
    (hGTh : ∀ m < M, ∑ n ∈ range cfg.sys.N, |GT m n| ≤ h)
    (hE : 0 ≤ E) (hx0 : ∀ n < cfg.sys.N, |x n (st 0).t - V * (st 0).x n| ≤ V * E) (K : ℕ)
    (hmar : ∀ k < K, ∀ y, cfg.sys.controlObservation ⟨cfg.sys.N, (st k).x⟩ (some (cfg.u0 (st k)))
        (some (asVec (contribution cfg.dc (st k).c 0))) = .ok y → ∀ m < M,
        max |lo| |hi| < V * (|y.v m| - h * deviation a cfg.dc.T g r E k)) :
    (∀ k ≤ K, ∀ n < cfg.sys.N, |x n (st k).t - V * (st k).x n| ≤ V * deviation a cfg.dc.T g r E k) ∧
    (∀ k < K, ∀ τ, 0 ≤ τ → τ ≤ cfg.dc.T → ∀ n < cfg.sys.N,
      |x n ((st k).t + τ) - V * φ k τ n| ≤ V * deviation a cfg.dc.T g r E (k + 1)) ∧
    ∀ k < K, ∀ m : Fin M, ∀ t, (st k).t + cfg.dc.tDelay + r < t → t ≤ (st (k + 1)).t + cfg.dc.tDelay →
      s m t = V * (2 * signal (st (k + 1)).c m - 1) := by
  have htime : ∀ k, (st (k + 1)).t = (st k).t + cfg.dc.T := fun k => (hr k).time
  have hstart : ∀ k, (st 0).t ≤ (st k).t := by
    intro k
    induction k with
    | zero => exact le_rfl
    | succ k ih =>
      rw [htime]
      linarith
  -- the decision of one period
  have decide : ∀ k < K, (∀ n < cfg.sys.N, |x n (st k).t - V * (st k).x n| ≤ V * deviation a cfg.dc.T g r E k) →
      ∀ m : Fin M, (∀ t, (st k).t + cfg.dc.tDelay + r < t → t ≤ (st (k + 1)).t + cfg.dc.tDelay →
        s m t = V * (st (k + 1)).c.cur m) ∧
        (st (k + 1)).c.cur m = 2 * signal (st (k + 1)).c m - 1 ∧ (st (k + 1)).c.old m = (st k).c.cur m ∧
        |(st (k + 1)).c.cur m| ≤ 1 := by
    intro k hk hdev m
    obtain ⟨y, hy, hyv, hc⟩ := sim_observation cfg GT st φ hGT hM hMt hin hAt hr k
    have hm := hmar k hk y hy m m.2
    have hup := update_plain cfg.dc hir hoff htt (st k).c (fun m => y.v m) m
    rw [← hc] at hup
    obtain ⟨h1, h2, h3⟩ := hup
    have hcont : ContinuousAt (fun τ => ∑ n ∈ range cfg.sys.N, GT m n * x n τ
        + ∑ l ∈ range cfg.sys.L, cfg.sys.Bt m l * u l τ) (st k).t := by
      refine ContinuousAt.add ?_ ?_
      · refine tendsto_finsetSum _ fun n hn => ?_
        exact ((hx n (Finset.mem_range.mp hn) _).continuousAt).const_mul _
      · refine tendsto_finsetSum _ fun l hl => ?_
        exact (huc l (Finset.mem_range.mp hl) k).const_mul _
    -- the two observations
    have hobs : |(∑ n ∈ range cfg.sys.N, GT m n * x n (st k).t
        + ∑ l ∈ range cfg.sys.L, cfg.sys.Bt m l * u l (st k).t) - V * y.v m| ≤
        V * (h * deviation a cfg.dc.T g r E k) := by
      have e : (∑ n ∈ range cfg.sys.N, GT m n * x n (st k).t
          + ∑ l ∈ range cfg.sys.L, cfg.sys.Bt m l * u l (st k).t) - V * y.v m
          = ∑ n ∈ range cfg.sys.N, GT m n * (x n (st k).t - V * (st k).x n) := by
        rw [hyv m m.2]
        have e1 : ∑ l ∈ range cfg.sys.L, cfg.sys.Bt m l * u l (st k).t =
            V * ∑ l ∈ range cfg.sys.L, cfg.sys.Bt m l * cfg.input (st k).ticks (st k).t l := by
          rw [Finset.mul_sum]
          refine Finset.sum_congr rfl fun l hl => ?_
          rw [← hu (st k).ticks (st k).t (hstart k) l (Finset.mem_range.mp hl)]
          ring
        rw [e1]
        simp only [mul_sub, Finset.sum_sub_distrib]
        have e2 : ∑ n ∈ range cfg.sys.N, GT m n * (V * (st k).x n) = V * ∑ n ∈ range cfg.sys.N, GT m n * (st k).x n := by
          rw [Finset.mul_sum]
          exact Finset.sum_congr rfl fun n _ => by ring
        rw [e2]
        ring
      rw [e]
      refine (Finset.abs_sum_le_sum_abs _ _).trans ?_
      calc ∑ n ∈ range cfg.sys.N, |GT m n * (x n (st k).t - V * (st k).x n)|
          ≤ ∑ n ∈ range cfg.sys.N, |GT m n| * (V * deviation a cfg.dc.T g r E k) := by
            refine Finset.sum_le_sum fun n hn => ?_
            rw [abs_mul]
            exact mul_le_mul_of_nonneg_left (hdev n (Finset.mem_range.mp hn)) (abs_nonneg _)
        _ = (∑ n ∈ range cfg.sys.N, |GT m n|) * (V * deviation a cfg.dc.T g r E k) := by rw [Finset.sum_mul]
        _ ≤ h * (V * deviation a cfg.dc.T g r E k) :=
            mul_le_mul_of_nonneg_right (hGTh m m.2) (mul_nonneg hV.le (deviation_nonneg hg hr0 hE k))
        _ = V * (h * deviation a cfg.dc.T g r E k) := by ring
    rw [abs_le] at hobs
    have hlo : -|lo| ≤ lo := neg_abs_le lo
    have hhi : hi ≤ |hi| := le_abs_self hi
    have m1 : |lo| ≤ max |lo| |hi| := le_max_left _ _
    have m2 : |hi| ≤ max |lo| |hi| := le_max_right _ _
    refine ⟨?_, ?_, h2, ?_⟩
    · intro t ht1 ht2
      obtain ⟨d1, d2⟩ := hdec k m m.2 t ht1 ht2
      rw [h3]
      rcases le_or_gt 0 (y.v m) with hy0 | hy0
      · rw [abs_of_nonneg hy0] at hm
        rw [d1 (around_gt hcont (by nlinarith)), if_pos hy0]
        ring
      · rw [abs_of_neg hy0] at hm
        rw [d2 (around_lt hcont (by nlinarith)), if_neg (not_le.mpr hy0)]
        ring
    · rw [h3]
      show _ = 2 * (st (k + 1)).c.s m - 1
      rw [h1]
    · rw [h3]
      split_ifs <;> norm_num
  -- one period
  have period : ∀ k < K, (∀ n < cfg.sys.N, |x n (st k).t - V * (st k).x n| ≤ V * deviation a cfg.dc.T g r E k) →
      (∀ m, |(st k).c.cur m| ≤ 1) → ∀ δ ρ d, 0 ≤ δ → δ ≤ cfg.dc.tDelay → 0 ≤ ρ → δ + ρ = cfg.dc.tDelay + r → 0 ≤ d →
      d + 2 * g * ρ = deviation a cfg.dc.T g r E k + 2 * g * r →
      (∀ n < cfg.sys.N, |x n (st k).t - V * (st k).x n| ≤ V * d) →
      (∀ m : Fin M, ∀ t, (st k).t ≤ t → t < (st k).t + δ → s m t = V * (st k).c.cur m) →
      ∀ τ ∈ Icc 0 cfg.dc.T, ∀ n < cfg.sys.N, |x n ((st k).t + τ) - V * φ k τ n| ≤
        V * ((deviation a cfg.dc.T g r E k + 2 * g * r) * Real.exp (a * τ)) := by
    intro k hk hdev hcur δ ρ d h0 hδ' hρ hsum hd0 hde hdev' hs0
    have hd := decide k hk hdev
    have hsol := (hr k).sol hin G hG
    have key := drift cfg.sys.N M cfg.sys.A G cfg.dc.T δ ρ d a g
      (fun τ n => ∑ l ∈ range cfg.sys.L, cfg.sys.B n l * cfg.input ((st k).ticks + 1) (τ + (st k).t) l)
      (fun τ n => x n ((st k).t + τ) / V) (φ k) (fun τ m => s m ((st k).t + τ) / V)
      (fun τ => (asVec (contribution cfg.dc (st (k + 1)).c τ)).v) ha hA hg (fun n hn => hM ▸ hGg n hn) h0 hρ (by linarith)
      hd0
      (fun n hn => by
        have e := hdev' n hn
        rw [(hr k).start n hn, add_zero, show x n (st k).t / V - (st k).x n = (x n (st k).t - V * (st k).x n) / V by
          field_simp, abs_div, abs_of_pos hV, div_le_iff₀ hV]
        linarith)
      (fun n hn => by
        intro τ _
        have := ((hx n hn ((st k).t + τ)).continuousAt.comp (f := fun τ => (st k).t + τ)
          (continuousAt_const.add continuousAt_id)).div_const V
        exact this.continuousWithinAt)
      (fun n hn => (hr k).cont n hn)
      (fun τ hτ n hn => by
        have h1 := hx n hn ((st k).t + τ)
        have h2 := (h1.comp_const_add (st k).t τ).div_const V
        refine h2.hasDerivWithinAt.congr_deriv ?_
        simp only [Finset.sum_div, add_div, hM]
        congr 1
        · congr 1
          · exact Finset.sum_congr rfl fun j _ => by ring
          · refine Finset.sum_congr rfl fun l hl => ?_
            rw [← hu ((st k).ticks + 1) ((st k).t + τ) (by linarith [hstart k, hτ.1]) l
              (Finset.mem_range.mp hl), add_comm τ]
            field_simp
        · exact Finset.sum_congr rfl fun j _ => by ring)
      (fun τ hτ n hn => by
        refine (hsol.ode τ hτ n hn).congr_deriv ?_
        unfold dot
        rw [hM]
        ring)
      (fun τ hτ m hm => by
        have e1 : |s m ((st k).t + τ) / V| ≤ 1 := by
          rw [abs_div, abs_of_pos hV, div_le_one hV]
          exact hb m hm _ (by linarith [hstart k, hτ.1])
        have e2 : |(asVec (contribution cfg.dc (st (k + 1)).c τ)).v m| ≤ 1 := by
          simp only [asVec]
          rw [dif_pos hm, contribution_plain cfg.dc hir _ _ hτ.1]
          split_ifs
          · rw [(hd ⟨m, hm⟩).2.2.1]; exact hcur _
          · exact (hd ⟨m, hm⟩).2.2.2
        exact (abs_sub _ _).trans (by linarith))
      (fun τ hτ hw m hm => by
        simp only [asVec]
        rw [dif_pos hm, contribution_plain cfg.dc hir _ _ hτ.1]
        rcases hw with hw | hw
        · rw [if_pos (by linarith), (hd ⟨m, hm⟩).2.2.1, hs0 ⟨m, hm⟩ _ (by linarith [hτ.1]) (by linarith)]
          field_simp
        · rw [if_neg (by linarith), (hd ⟨m, hm⟩).1 _ (by linarith) (by rw [htime]; linarith [hτ.2])]
          field_simp)
    intro τ hτ n hn
    have := key τ hτ n hn
    rw [hde] at this
    have e : x n ((st k).t + τ) - V * φ k τ n = V * (x n ((st k).t + τ) / V - φ k τ n) := by field_simp
    rw [e, abs_mul, abs_of_pos hV]
    exact mul_le_mul_of_nonneg_left this hV.le
  -- all periods
  have all : ∀ k ≤ K, (∀ n < cfg.sys.N, |x n (st k).t - V * (st k).x n| ≤ V * deviation a cfg.dc.T g r E k) ∧
      (∀ m, |(st k).c.cur m| ≤ 1) ∧ ∃ δ ρ d, 0 ≤ δ ∧ δ ≤ cfg.dc.tDelay ∧ 0 ≤ ρ ∧ δ + ρ = cfg.dc.tDelay + r ∧ 0 ≤ d ∧
      d + 2 * g * ρ = deviation a cfg.dc.T g r E k + 2 * g * r ∧
      (∀ n < cfg.sys.N, |x n (st k).t - V * (st k).x n| ≤ V * d) ∧
      ∀ m : Fin M, ∀ t, (st k).t ≤ t → t < (st k).t + δ → s m t = V * (st k).c.cur m := by
    intro k
    induction k with
    | zero =>
      intro _
      refine ⟨hx0, hcur, ?_⟩
      rcases hs0 with hs0 | ⟨hEd, hx0'⟩
      · exact ⟨cfg.dc.tDelay, r, E, hδ, le_rfl, hr0, rfl, hE, rfl, hx0, fun m t h1 h2 => hs0 m t h1 h2.le⟩
      · refine ⟨0, cfg.dc.tDelay + r, E - 2 * g * cfg.dc.tDelay, le_rfl, hδ, by linarith, by ring, by linarith, ?_, hx0',
          fun m t h1 h2 => absurd h2 (by linarith)⟩
        rw [deviation]
        ring
    | succ k ih =>
      intro hk
      obtain ⟨i1, i2, δ, ρ, d, i3, i4, i5, i6, i7, i8, i9, i10⟩ := ih (by omega)
      have hd := decide k (by omega) i1
      have hnext : ∀ n < cfg.sys.N, |x n (st (k + 1)).t - V * (st (k + 1)).x n| ≤
          V * deviation a cfg.dc.T g r E (k + 1) := by
        intro n hn
        have := period k (by omega) i1 i2 δ ρ d i3 i4 i5 i6 i7 i8 i9 i10 cfg.dc.T ⟨by linarith, le_rfl⟩ n hn
        rw [(hr k).stop n hn, htime]
        exact this
      refine ⟨hnext, fun m => (hd m).2.2.2, cfg.dc.tDelay, r, _, hδ, le_rfl, hr0, rfl, deviation_nonneg hg hr0 hE (k + 1),
        rfl, hnext, fun m t ht1 ht2 => (hd m).1 t ?_ ht2.le⟩
      rw [htime] at ht1
      linarith
  refine ⟨fun k hk => (all k hk).1, ?_, ?_⟩
  · intro k hk τ h1 h2 n hn
    obtain ⟨i1, i2, δ, ρ, d, i3, i4, i5, i6, i7, i8, i9, i10⟩ := all k hk.le
    refine (period k hk i1 i2 δ ρ d i3 i4 i5 i6 i7 i8 i9 i10 τ ⟨h1, h2⟩ n hn).trans ?_
    refine mul_le_mul_of_nonneg_left ?_ hV.le
    have := deviation_nonneg (a := a) (T := cfg.dc.T) hg hr0 hE k
    exact mul_le_mul_of_nonneg_left (Real.exp_le_exp.mpr (mul_le_mul_of_nonneg_left h2 ha)) (by positivity)
  · intro k hk m t h1 h2
    have hd := decide k hk (all k hk.le).1 m
    rw [hd.1 t h1 h2, hd.2.1]

end

end Cbadc.ClosedLoop
