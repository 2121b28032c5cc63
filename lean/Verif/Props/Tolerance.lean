import Verif.Lemmas.Mismatch
import Verif.Props.ClosedLoop
import Verif.Props.RunExists
import Verif.Props.Estimator

/-!
# C174: the simulation of a system with slightly different coefficients
-/

namespace Cbadc.ClosedLoop
open Set Finset Cbadc.Analog Cbadc.Control Cbadc.Simulate Cbadc.Circuit.Spec Cbadc.Streams Cbadc.Estimator

section
variable {M : ℕ}

/-- Two set-ups of a simulation with the same dimensions, digital control and input signals, and systems with possibly
different coefficients. -/
structure Variant (cfg cfg' : Cfg M) (G G' GT GT' : ℕ → ℕ → ℝ) : Prop where
  states : cfg'.sys.N = cfg.sys.N
  inputs : cfg'.sys.L = cfg.sys.L
  controls : cfg.sys.M = M ∧ cfg'.sys.M = M
  gamma : cfg.sys.Gamma = some G ∧ cfg'.sys.Gamma = some G'
  gammaT : cfg.sys.GammaT = some GT ∧ cfg'.sys.GammaT = some GT'
  control : cfg'.dc = cfg.dc
  signals : cfg'.input = cfg.input
  driven : cfg.hasInput = true ∧ cfg'.hasInput = true

/-- The two simulations start at the same time with the same controls and with states that are at most `E` apart. -/
def SameStart (cfg : Cfg M) (s s' : St M) (E : ℝ) : Prop :=
  s'.c = s.c ∧ s'.t = s.t ∧ s'.ticks = s.ticks ∧ ∀ n < cfg.sys.N, |s'.x n - s.x n| ≤ E

/-- States, inputs and contributions of the controls are bounded during the first `K` periods. -/
structure Limited (cfg : Cfg M) (st : ℕ → St M) (φ : ℕ → ℝ → ℕ → ℝ) (X U W : ℝ) (K : ℕ) : Prop where
  states : ∀ k < K, ∀ τ ∈ Icc 0 cfg.dc.T, ∀ n < cfg.sys.N, |φ k τ n| ≤ X
  inputs : ∀ j t, ∀ l < cfg.sys.L, |cfg.input j t l| ≤ U
  controls : ∀ k < K, ∀ τ ∈ Ico 0 cfg.dc.T, ∀ m, |contribution cfg.dc (st k).c τ m| ≤ W ∧
    |contribution cfg.dc (st (k + 1)).c τ m| ≤ W

/-- The observations of the simulation in the first `K` periods are further from the thresholds of the control than
the given numbers. -/
def Decided (cfg : Cfg M) (st : ℕ → St M) (margin : ℕ → ℝ) (K : ℕ) : Prop :=
  ∀ k < K, ∀ y, cfg.sys.controlObservation ⟨cfg.sys.N, (st k).x⟩ (some (cfg.u0 (st k)))
    (some (asVec (contribution cfg.dc (st k).c 0))) = .ok y → ∀ m : Fin M, margin k < |y.v m - cfg.dc.offsets m|

/-- The second simulation takes the decisions of the first one for `K` periods, and its states are within the given
distances. -/
def SameDecisions (cfg : Cfg M) (st st' : ℕ → St M) (φ φ' : ℕ → ℝ → ℕ → ℝ) (dist : ℕ → ℝ) (K : ℕ) : Prop :=
  (∀ k ≤ K, SameStart cfg (st k) (st' k) (dist k)) ∧
  ∀ k < K, ∀ τ ∈ Icc 0 cfg.dc.T, ∀ n < cfg.sys.N, |φ' k τ n - φ k τ n| ≤ dist (k + 1)

/-- The observation at the beginning of a period. -/
theorem run_observation (cfg : Cfg M) (GT : ℕ → ℕ → ℝ) (st : ℕ → St M) (φ : ℕ → ℝ → ℕ → ℝ)
    (hGT : cfg.sys.GammaT = some GT) (hM : cfg.sys.M = M) (hin : cfg.hasInput = true) (hr : Run cfg st φ) (k : ℕ) :
    ∃ y : Vec ℝ, cfg.sys.controlObservation ⟨cfg.sys.N, (st k).x⟩ (some (cfg.u0 (st k)))
        (some (asVec (contribution cfg.dc (st k).c 0))) = .ok y ∧
      (∀ m : ℕ, y.v m = ∑ n ∈ range cfg.sys.N, GT m n * (st k).x n
        + ∑ l ∈ range cfg.sys.L, cfg.sys.Bt m l * cfg.input (st k).ticks (st k).t l
        + ∑ c ∈ range M, cfg.sys.At m c * (asVec (contribution cfg.dc (st k).c 0)).v c) ∧
      (st (k + 1)).c = update cfg.dc (st k).c 0 fun m => y.v m := by
  obtain ⟨y, h1, -, h3⟩ := (decide_ok cfg (st k) _).mp (hr k).dec
  refine ⟨y, h1, fun m => ?_, h3⟩
  obtain ⟨y', h1', -, h3'⟩ := (C27_observation_partial cfg.sys GT hGT ⟨cfg.sys.N, (st k).x⟩ (cfg.u0 (st k))
    (asVec (contribution cfg.dc (st k).c 0)) rfl rfl hM.symm).1
  rw [h1] at h1'
  cases h1'
  rw [h3', hM]
  unfold Cfg.u0
  simp only [hin, if_true, zero_add]

theorem update_same (dc : DC ℝ M) (c : State ℝ M) (t : ℝ) (y y' : Fin M → ℝ)
    (h : ∀ m, dc.offsets m ≤ y m ↔ dc.offsets m ≤ y' m) : update dc c t y' = update dc c t y := by
  unfold update
  simp only [h]

theorem asVec_bound (v : Fin M → ℝ) (b : ℝ) (h : ∀ m, |v m| ≤ b) : ∀ m < M, |(asVec v).v m| ≤ b := by
  intro m hm
  simp only [asVec]
  rw [dif_pos hm]
  exact h _

/-- **C174.**  Two simulations with the same control and inputs of systems whose coefficients differ take the same
decisions for `K` periods, and their states stay within a distance that grows by what the difference of the
coefficients can make in a period, as long as no observation is too close to its threshold. -/
theorem C174_tolerance_partial (cfg cfg' : Cfg M) (G G' GT GT' : ℕ → ℕ → ℝ) (hvar : Variant cfg cfg' G G' GT GT')
    (hT : 0 < cfg.dc.T) (st st' : ℕ → St M) (φ φ' : ℕ → ℝ → ℕ → ℝ) (hr : Run cfg st φ) (hr' : Run cfg' st' φ')
    (a h E η θ X U W : ℝ) (K : ℕ) (hE : 0 ≤ E) (h0 : SameStart cfg (st 0) (st' 0) E) (hlim : Limited cfg st φ X U W K)
    (ha : 0 ≤ a) (hA : ∀ n < cfg.sys.N, ∑ j ∈ range cfg.sys.N, |cfg'.sys.A n j| ≤ a)
    (hh : ∀ m < M, ∑ n ∈ range cfg.sys.N, |GT' m n| ≤ h) (hη : 0 ≤ η)
    (hrow : ∀ n < cfg.sys.N, rowChange cfg.sys.N cfg.sys.A cfg'.sys.A X n
      + rowChange cfg.sys.L cfg.sys.B cfg'.sys.B U n + rowChange M G G' W n ≤ η)
    (hobs : ∀ m < M, rowChange cfg.sys.N GT GT' X m
      + rowChange cfg.sys.L cfg.sys.Bt cfg'.sys.Bt U m + rowChange M cfg.sys.At cfg'.sys.At W m ≤ θ)
    (hdec : Decided cfg st (fun k => h * mismatched a cfg.dc.T 0 0 η E k + θ) K) :
    SameDecisions cfg st st' φ φ' (mismatched a cfg.dc.T 0 0 η E) K := by
  have hpos := fun k => mismatched_nonneg (a := a) (g := 0) (r := 0) le_rfl le_rfl hη hT.le hE k
  have ticks : ∀ k, (st (k + 1)).ticks = (st k).ticks + 1 ∧ (st' (k + 1)).ticks = (st' k).ticks + 1 := by
    intro k
    have h1 := (hr k).ticks
    have h2 := (hr' k).ticks
    rw [hvar.driven.1] at h1
    rw [hvar.driven.2] at h2
    exact ⟨h1, h2⟩
  -- the decision of a period
  have decide : ∀ k < K, SameStart cfg (st k) (st' k) (mismatched a cfg.dc.T 0 0 η E k) →
      (st' (k + 1)).c = (st (k + 1)).c := by
    intro k hk ⟨hc, ht, hti, hx⟩
    obtain ⟨y, h1, h2, h3⟩ := run_observation cfg GT st φ hvar.gammaT.1 hvar.controls.1 hvar.driven.1 hr k
    obtain ⟨y', h1', h2', h3'⟩ := run_observation cfg' GT' st' φ' hvar.gammaT.2 hvar.controls.2 hvar.driven.2 hr' k
    rw [h3, h3', hvar.control, hc]
    have hxk : ∀ n < cfg.sys.N, |(st k).x n| ≤ X := by
      intro n hn
      rw [← (hr k).start n hn]
      exact hlim.states k hk 0 ⟨le_rfl, hT.le⟩ n hn
    refine update_same _ _ _ _ _ fun m => ?_
    have hm := hdec k hk y h1 m
    have hd : |y'.v m - y.v m| ≤ h * mismatched a cfg.dc.T 0 0 η E k + θ := by
      have e : y'.v m - y.v m = ∑ n ∈ range cfg.sys.N, GT' m n * ((st' k).x n - (st k).x n)
          + (∑ n ∈ range cfg.sys.N, (GT' m n - GT m n) * (st k).x n
          + ∑ l ∈ range cfg.sys.L, (cfg'.sys.Bt m l - cfg.sys.Bt m l) * cfg.input (st k).ticks (st k).t l
          + ∑ c ∈ range M, (cfg'.sys.At m c - cfg.sys.At m c) * (asVec (contribution cfg.dc (st k).c 0)).v c) := by
        rw [h2, h2', hvar.states, hvar.inputs, hvar.signals, hvar.control, hc, ht, hti]
        simp only [mul_sub, sub_mul, Finset.sum_sub_distrib]
        ring
      rw [e]
      refine (abs_add_le _ _).trans (add_le_add ?_ (le_trans ?_ (hobs m m.2)))
      · exact (sum_bound _ _ _ _ fun n hn => hx n hn).trans (mul_le_mul_of_nonneg_right (hh m m.2) (hpos k))
      · refine (abs_add_le _ _).trans (add_le_add ((abs_add_le _ _).trans (add_le_add ?_ ?_)) ?_)
        · exact sum_bound _ _ _ _ hxk
        · exact sum_bound _ _ _ _ fun l hl => hlim.inputs _ _ l hl
        · exact sum_bound _ _ _ _ (asVec_bound _ _ fun m => (hlim.controls k hk 0 ⟨le_rfl, hT⟩ m).1)
    rw [abs_le] at hd
    constructor
    · intro hy
      rw [abs_of_nonneg (by linarith)] at hm
      linarith
    · intro hy
      by_contra hlt
      rw [abs_of_neg (by linarith)] at hm
      linarith
  -- one period
  have period : ∀ k < K, SameStart cfg (st k) (st' k) (mismatched a cfg.dc.T 0 0 η E k) →
      ∀ τ ∈ Icc 0 cfg.dc.T, ∀ n < cfg.sys.N, |φ' k τ n - φ k τ n| ≤
        (mismatched a cfg.dc.T 0 0 η E k + 2 * 0 * 0 + η * τ) * Real.exp (a * τ) := by
    intro k hk hs
    have hcc := decide k hk hs
    obtain ⟨hc, ht, hti, hx⟩ := hs
    have s1 := (hr k).sol hvar.driven.1 G hvar.gamma.1
    have s2 := (hr' k).sol hvar.driven.2 G' hvar.gamma.2
    rw [hvar.states, hvar.control] at s2
    refine drift_mismatch cfg.sys.N 0 cfg.sys.A cfg'.sys.A G G' cfg.dc.T 0 0 _ a 0 η
      (fun τ n => dot cfg.sys.L cfg.sys.B (cfg.input ((st k).ticks + 1) (τ + (st k).t)) n
        + dot cfg.sys.M G (asVec (contribution cfg.dc (st (k + 1)).c τ)).v n)
      (fun τ n => dot cfg'.sys.L cfg'.sys.B (cfg'.input ((st' k).ticks + 1) (τ + (st' k).t)) n
        + dot cfg'.sys.M G' (asVec (contribution cfg.dc (st' (k + 1)).c τ)).v n)
      (φ' k) (φ k) (fun _ _ => 0) (fun _ _ => 0) ha hA le_rfl (fun n _ => by simp) le_rfl le_rfl (by linarith) (hpos k) hη ?_
      ?_ s1.cont ?_ ?_ ?_ (fun _ _ _ _ => by simp) (fun _ _ _ _ _ => rfl)
    · intro n hn
      rw [(hr k).start n hn, (hr' k).start n (by rw [hvar.states]; exact hn)]
      exact hx n hn
    · exact s2.cont
    · intro τ hτ n hn
      refine (s2.ode τ hτ n hn).congr_deriv ?_
      rw [Finset.sum_range_zero, add_zero]
      rfl
    · intro τ hτ n hn
      refine (s1.ode τ hτ n hn).congr_deriv ?_
      rw [Finset.sum_range_zero, add_zero]
      rfl
    · intro τ hτ n hn
      rw [Finset.sum_range_zero, add_zero, hcc, hvar.signals, hvar.inputs, hvar.controls.1, hvar.controls.2, ht, hti]
      unfold dot
      have e : ∑ l ∈ range cfg.sys.L, cfg'.sys.B n l * cfg.input ((st k).ticks + 1) (τ + (st k).t) l
          + ∑ c ∈ range M, G' n c * (asVec (contribution cfg.dc (st (k + 1)).c τ)).v c
          - (∑ l ∈ range cfg.sys.L, cfg.sys.B n l * cfg.input ((st k).ticks + 1) (τ + (st k).t) l
          + ∑ c ∈ range M, G n c * (asVec (contribution cfg.dc (st (k + 1)).c τ)).v c)
          = ∑ l ∈ range cfg.sys.L, (cfg'.sys.B n l - cfg.sys.B n l) * cfg.input ((st k).ticks + 1) (τ + (st k).t) l
          + ∑ c ∈ range M, (G' n c - G n c) * (asVec (contribution cfg.dc (st (k + 1)).c τ)).v c := by
        simp only [sub_mul, Finset.sum_sub_distrib]
        ring
      rw [e, ← add_assoc]
      refine le_trans ?_ (hrow n hn)
      refine (abs_add_le _ _).trans (add_le_add ((abs_add_le _ _).trans (add_le_add ?_ ?_)) ?_)
      · exact sum_bound _ _ _ _ fun j hj => hlim.states k hk τ ⟨hτ.1, hτ.2.le⟩ j hj
      · exact sum_bound _ _ _ _ fun l hl => hlim.inputs _ _ l hl
      · exact sum_bound _ _ _ _ (asVec_bound _ _ fun m => (hlim.controls k hk τ hτ m).2)
  have all : ∀ k ≤ K, SameStart cfg (st k) (st' k) (mismatched a cfg.dc.T 0 0 η E k) := by
    intro k
    induction k with
    | zero => exact fun _ => h0
    | succ k ih =>
      intro hk
      have hs := ih (by omega)
      refine ⟨decide k (by omega) hs, ?_, ?_, ?_⟩
      · rw [(hr k).time, (hr' k).time, hs.2.1, hvar.control]
      · rw [(ticks k).1, (ticks k).2, hs.2.2.1]
      · intro n hn
        have := period k (by omega) hs cfg.dc.T ⟨hT.le, le_rfl⟩ n hn
        rw [(hr k).stop n hn, (hr' k).stop n (by rw [hvar.states]; exact hn), hvar.control]
        exact this
  refine ⟨all, fun k hk τ hτ n hn => (period k hk (all k hk.le) τ hτ n hn).trans ?_⟩
  have h1 : η * τ ≤ η * cfg.dc.T := mul_le_mul_of_nonneg_left hτ.2 hη
  refine mul_le_mul (by linarith) (Real.exp_le_exp.mpr (mul_le_mul_of_nonneg_left hτ.2 ha)) (Real.exp_pos _).le ?_
  have := hpos k
  positivity

/-! ## The limit -/

theorem mismatched_scale (a T η ρ : ℝ) (k : ℕ) :
    mismatched a T 0 0 (ρ * η) ρ k = ρ * mismatched a T 0 0 η 1 k := by
  induction k with
  | zero => exact (mul_one ρ).symm
  | succ k ih =>
    unfold mismatched
    rw [ih]
    ring

theorem mismatched_mono {a T η : ℝ} (ha : 0 ≤ a) (hT : 0 ≤ T) (hη : 0 ≤ η) {k K : ℕ} (h : k ≤ K) :
    mismatched a T 0 0 η 1 k ≤ mismatched a T 0 0 η 1 K := by
  induction K, h using Nat.le_induction with
  | base => exact le_rfl
  | succ K _ ih =>
    refine ih.trans ?_
    have h0 := mismatched_nonneg (a := a) (g := 0) (r := 0) le_rfl le_rfl hη hT zero_le_one K
    have h1 : 1 ≤ Real.exp (a * T) := Real.one_le_exp (mul_nonneg ha hT)
    have h2 : 0 ≤ η * T := mul_nonneg hη hT
    show _ ≤ (mismatched a T 0 0 η 1 K + 2 * 0 * 0 + η * T) * Real.exp (a * T)
    nlinarith

/-- All coefficients of the second system are within `ρ` of those of the first one. -/
structure Close (cfg cfg' : Cfg M) (G G' GT GT' : ℕ → ℕ → ℝ) (ρ : ℝ) : Prop where
  A : ∀ n < cfg.sys.N, ∀ j < cfg.sys.N, |cfg'.sys.A n j - cfg.sys.A n j| ≤ ρ
  B : ∀ n < cfg.sys.N, ∀ l < cfg.sys.L, |cfg'.sys.B n l - cfg.sys.B n l| ≤ ρ
  Gamma : ∀ n < cfg.sys.N, ∀ m < M, |G' n m - G n m| ≤ ρ
  GammaT : ∀ m < M, ∀ n < cfg.sys.N, |GT' m n - GT m n| ≤ ρ
  Bt : ∀ m < M, ∀ l < cfg.sys.L, |cfg'.sys.Bt m l - cfg.sys.Bt m l| ≤ ρ
  At : ∀ m < M, ∀ c < M, |cfg'.sys.At m c - cfg.sys.At m c| ≤ ρ

theorem rowChange_le (N : ℕ) (A A' : ℕ → ℕ → ℝ) (X ρ : ℝ) (hX : 0 ≤ X) (n : ℕ)
    (h : ∀ j < N, |A' n j - A n j| ≤ ρ) : rowChange N A A' X n ≤ ρ * (N * X) := by
  unfold rowChange
  have : ∑ j ∈ range N, |A' n j - A n j| ≤ ∑ _j ∈ range N, ρ :=
    Finset.sum_le_sum fun j hj => h j (Finset.mem_range.mp hj)
  rw [Finset.sum_const, Finset.card_range, nsmul_eq_mul] at this
  calc _ ≤ (N * ρ) * X := mul_le_mul_of_nonneg_right this hX
    _ = ρ * (N * X) := by ring

theorem rowSum_le (N R : ℕ) (A A' : ℕ → ℕ → ℝ) (ρ : ℝ) (hρ : ρ ≤ 1) (n : ℕ) (hn : n < R)
    (h : ∀ j < N, |A' n j - A n j| ≤ ρ) :
    ∑ j ∈ range N, |A' n j| ≤ (∑ n ∈ range R, ∑ j ∈ range N, |A n j|) + N := by
  have h1 : ∑ j ∈ range N, |A n j| ≤ ∑ n ∈ range R, ∑ j ∈ range N, |A n j| :=
    Finset.single_le_sum (f := fun n => ∑ j ∈ range N, |A n j|)
      (fun _ _ => Finset.sum_nonneg fun _ _ => abs_nonneg _) (Finset.mem_range.mpr hn)
  have h2 : ∑ j ∈ range N, |A' n j| ≤ ∑ j ∈ range N, (|A n j| + 1) := by
    refine Finset.sum_le_sum fun j hj => ?_
    have := abs_sub_abs_le_abs_sub (A' n j) (A n j)
    have := h j (Finset.mem_range.mp hj)
    linarith
  rw [Finset.sum_add_distrib, Finset.sum_const, Finset.card_range, nsmul_eq_mul, mul_one] at h2
  linarith

/-- The states of a simulation are bounded during any number of periods. -/
theorem run_bounded (cfg : Cfg M) (st : ℕ → St M) (φ : ℕ → ℝ → ℕ → ℝ) (hr : Run cfg st φ) (K : ℕ) :
    ∃ X, 0 ≤ X ∧ ∀ k < K, ∀ τ ∈ Icc 0 cfg.dc.T, ∀ n < cfg.sys.N, |φ k τ n| ≤ X := by
  have h1 : ∀ k n, ∃ X, n < cfg.sys.N → ∀ τ ∈ Icc 0 cfg.dc.T, |φ k τ n| ≤ X := by
    intro k n
    by_cases hn : n < cfg.sys.N
    · obtain ⟨X, hX⟩ := isCompact_Icc.exists_bound_of_continuousOn ((hr k).cont n hn)
      exact ⟨X, fun _ τ hτ => hX τ hτ⟩
    · exact ⟨0, fun h => absurd h hn⟩
  choose X hX using h1
  refine ⟨∑ k ∈ range K, ∑ n ∈ range cfg.sys.N, |X k n|,
    Finset.sum_nonneg fun _ _ => Finset.sum_nonneg fun _ _ => abs_nonneg _, fun k hk τ hτ n hn => ?_⟩
  refine (hX k n hn τ hτ).trans ((le_abs_self _).trans ?_)
  refine le_trans ?_ (Finset.single_le_sum (f := fun k => ∑ n ∈ range cfg.sys.N, |X k n|)
    (fun _ _ => Finset.sum_nonneg fun _ _ => abs_nonneg _) (Finset.mem_range.mpr hk))
  exact Finset.single_le_sum (f := fun n => |X k n|) (fun _ _ => abs_nonneg _) (Finset.mem_range.mpr hn)

/-- **C174**, the limit: if no observation in the first `K` periods of a simulation is exactly at its threshold, then
for every `ε > 0` the simulations of all systems with coefficients and initial states close enough take the same
decisions for `K` periods and have states within `ε`. -/
theorem C174_limit_partial (cfg : Cfg M) (G GT : ℕ → ℕ → ℝ) (hT : 0 < cfg.dc.T) (st : ℕ → St M)
    (φ : ℕ → ℝ → ℕ → ℝ) (hr : Run cfg st φ) (U W : ℝ)
    (hU : ∀ j t, ∀ l < cfg.sys.L, |cfg.input j t l| ≤ U)
    (hW : ∀ k, ∀ τ ∈ Ico 0 cfg.dc.T, ∀ m, |contribution cfg.dc (st k).c τ m| ≤ W) (K : ℕ)
    (htie : Decided cfg st (fun _ => 0) K) :
    ∀ ε > 0, ∃ ρ > 0, ∀ (cfg' : Cfg M) (G' GT' : ℕ → ℕ → ℝ) (st' : ℕ → St M) (φ' : ℕ → ℝ → ℕ → ℝ),
      Variant cfg cfg' G G' GT GT' → Close cfg cfg' G G' GT GT' ρ → Run cfg' st' φ' →
      SameStart cfg (st 0) (st' 0) ρ → SameDecisions cfg st st' φ φ' (fun _ => ε) K := by
  intro ε hε
  obtain ⟨X, hX0, hX⟩ := run_bounded cfg st φ hr K
  obtain ⟨a, ha⟩ : ∃ a : ℝ, a = (∑ n ∈ range cfg.sys.N, ∑ j ∈ range cfg.sys.N, |cfg.sys.A n j|) + cfg.sys.N := ⟨_, rfl⟩
  obtain ⟨h, hh⟩ : ∃ h : ℝ, h = (∑ m ∈ range M, ∑ j ∈ range cfg.sys.N, |GT m j|) + cfg.sys.N := ⟨_, rfl⟩
  have ha0 : 0 ≤ a := ha ▸ add_nonneg (Finset.sum_nonneg fun _ _ => Finset.sum_nonneg fun _ _ => abs_nonneg _)
    (Nat.cast_nonneg _)
  have hh0 : 0 ≤ h := hh ▸ add_nonneg (Finset.sum_nonneg fun _ _ => Finset.sum_nonneg fun _ _ => abs_nonneg _)
    (Nat.cast_nonneg _)
  have hU0 : 0 ≤ |U| := abs_nonneg _
  have hW0 : 0 ≤ |W| := abs_nonneg _
  obtain ⟨q, hq⟩ : ∃ q : ℝ, q = cfg.sys.N * X + cfg.sys.L * |U| + M * |W| := ⟨_, rfl⟩
  have hq0 : 0 ≤ q := by rw [hq]; positivity
  obtain ⟨B, hB⟩ : ∃ B, B = mismatched a cfg.dc.T 0 0 q 1 K := ⟨_, rfl⟩
  have hB1 : 1 ≤ B := by
    rw [hB]
    exact mismatched_mono (k := 0) ha0 hT.le hq0 (Nat.zero_le K)
  obtain ⟨μ, hμ, hmin⟩ := lower_bound (fun k m => if hm : m < M then
      match cfg.sys.controlObservation ⟨cfg.sys.N, (st k).x⟩ (some (cfg.u0 (st k)))
      (some (asVec (contribution cfg.dc (st k).c 0))) with
      | .ok y => |y.v m - cfg.dc.offsets ⟨m, hm⟩| | .error _ => 1 else 1) K M (by
    intro k hk m hm
    simp only [dif_pos hm]
    cases hy : cfg.sys.controlObservation ⟨cfg.sys.N, (st k).x⟩ (some (cfg.u0 (st k)))
      (some (asVec (contribution cfg.dc (st k).c 0))) with
    | error e => exact one_pos
    | ok y => exact htie k hk y hy ⟨m, hm⟩)
  have hden : 0 < 2 * (h * B + q + 1) := by positivity
  obtain ⟨ρ, hρ⟩ : ∃ ρ, ρ = min 1 (min (ε / B) (μ / (2 * (h * B + q + 1)))) := ⟨_, rfl⟩
  have rp : 0 < ρ := hρ ▸ lt_min one_pos (lt_min (by positivity) (by positivity))
  have r0 : ρ ≤ 1 := hρ ▸ min_le_left _ _
  have r1 : ρ * B ≤ ε := by
    have h1 : ρ ≤ ε / B := hρ ▸ (min_le_right _ _).trans (min_le_left _ _)
    have h2 := mul_le_mul_of_nonneg_right h1 (by linarith : (0 : ℝ) ≤ B)
    rwa [div_mul_cancel₀ _ (by linarith : B ≠ 0)] at h2
  have r2 : ρ * (h * B + q) < μ := by
    have h1 : ρ ≤ μ / (2 * (h * B + q + 1)) := hρ ▸ (min_le_right _ _).trans (min_le_right _ _)
    have h2 := mul_le_mul_of_nonneg_right h1 hden.le
    rw [div_mul_cancel₀ _ hden.ne'] at h2
    have h3 : 0 ≤ ρ * (h * B + q) := by positivity
    nlinarith
  refine ⟨ρ, rp, ?_⟩
  intro cfg' G' GT' st' φ' hvar hcl hr' h0
  have hdev : ∀ k ≤ K, mismatched a cfg.dc.T 0 0 (ρ * q) ρ k ≤ ρ * B := fun k hk => by
    rw [mismatched_scale]
    exact mul_le_mul_of_nonneg_left (hB ▸ mismatched_mono ha0 hT.le hq0 hk) rp.le
  have key := C174_tolerance_partial cfg cfg' G G' GT GT' hvar hT st st' φ φ' hr hr' a h ρ (ρ * q) (ρ * q) X |U| |W| K
    rp.le h0 ⟨hX, fun j t l hl => (hU j t l hl).trans (le_abs_self _),
      fun k _ τ hτ m => ⟨(hW k τ hτ m).trans (le_abs_self _), (hW (k + 1) τ hτ m).trans (le_abs_self _)⟩⟩ ha0
    (fun n hn => ha ▸ rowSum_le _ _ _ _ ρ r0 n hn (hcl.A n hn))
    (fun m hm => hh ▸ rowSum_le _ _ _ _ ρ r0 m hm (hcl.GammaT m hm)) (by positivity)
    (fun n hn => by
      have h1 := rowChange_le cfg.sys.N _ _ X ρ hX0 n (hcl.A n hn)
      have h2 := rowChange_le cfg.sys.L _ _ |U| ρ hU0 n (hcl.B n hn)
      have h3 := rowChange_le M _ _ |W| ρ hW0 n (hcl.Gamma n hn)
      rw [hq]
      linarith)
    (fun n hn => by
      have h1 := rowChange_le cfg.sys.N _ _ X ρ hX0 n (hcl.GammaT n hn)
      have h2 := rowChange_le cfg.sys.L _ _ |U| ρ hU0 n (hcl.Bt n hn)
      have h3 := rowChange_le M _ _ |W| ρ hW0 n (hcl.At n hn)
      rw [hq]
      linarith)
    (by
      intro k hk y hy m
      have h1 := hmin k hk m m.2
      rw [hy] at h1
      simp only [dif_pos m.2] at h1
      have h3 := mul_le_mul_of_nonneg_left (hdev k hk.le) hh0
      show h * _ + ρ * q < |y.v m - cfg.dc.offsets m|
      have h4 : h * (ρ * B) + ρ * q = ρ * (h * B + q) := by ring
      exact lt_of_lt_of_le (by linarith) h1)
  refine ⟨fun k hk => ?_, fun k hk τ hτ n hn => (key.2 k hk τ hτ n hn).trans ((hdev (k + 1) hk).trans r1)⟩
  obtain ⟨h1, h2, h3, h4⟩ := key.1 k hk
  exact ⟨h1, h2, h3, fun n hn => (h4 n hn).trans ((hdev k hk).trans r1)⟩

/-- **C174**, estimates: with the same decisions for `K` periods, FIR and IIR filters return the same estimates in all
calls that read no more than `K` control vectors. -/
theorem C174_estimates (cfg : Cfg M) (st st' : ℕ → St M) (φ φ' : ℕ → ℝ → ℕ → ℝ) (dist : ℕ → ℝ) (K : ℕ)
    (h : SameDecisions cfg st st' φ φ' dist K) {N L : ℕ} (e : Coeffs ℝ N M L) (K1 K2 ds n : ℕ) (eta2 : ℝ) (mid : Bool) :
    (∀ offset f, FIR.new e K1 K2 eta2 mid ds 0 offset = .ok f → ds ≤ K1 + K2 → ds * (n + 1) ≤ K →
      ∃ v, call (f.next fun i => .ok (signal (st (i + 1)).c)) FIRState.init n = .ok v ∧
        call (f.next fun i => .ok (signal (st' (i + 1)).c)) FIRState.init n = .ok v) ∧
    (∀ f, IIR.new e K2 eta2 ds 0 = .ok f → 1 ≤ ds → 1 ≤ K2 → ds * n + 1 ≤ K →
      ∃ v, call (f.next fun i => .ok (signal (st (i + 1)).c)) IIRState.init n = .ok v ∧
        call (f.next fun i => .ok (signal (st' (i + 1)).c)) IIRState.init n = .ok v) := by
  refine ⟨fun offset f hf hds hn => ?_, fun f hf hds hK2 hn => ?_⟩
  · obtain ⟨-, rfl⟩ := fir_new_ok hf
    refine ⟨_, fir_call _ _ (fun i => signal (st (i + 1)).c) FIRState.init hds n (Or.inl rfl) fun j _ => rfl,
      fir_call _ _ (fun i => signal (st (i + 1)).c) FIRState.init hds n (Or.inl rfl) fun j hj => ?_⟩
    simp only [FIRState.init, Nat.zero_add]
    rw [(h.1 (j + 1) (lt_of_lt_of_le hj hn)).1]
  · refine ⟨_, C33_iir_estimate e K2 eta2 ds 0 f hf hK2 hds _ (fun i => signal (st (i + 1)).c) n (ds * n + 1)
        (by push_cast; omega) (Or.inl rfl) fun _ _ => rfl,
      C33_iir_estimate e K2 eta2 ds 0 f hf hK2 hds _ (fun i => signal (st (i + 1)).c) n (ds * n + 1)
        (by push_cast; omega) (Or.inl rfl) fun j hj => ?_⟩
    rw [(h.1 (j + 1) (by omega)).1]

end

/-! ## At the threshold -/

/-- The system of the example with a direct path from the input to the observation. -/
def tieEx (b : ℝ) : Sys ℝ := { loopEx with Bt := fun _ _ => b }

/-- Its simulation: period one, an input of one. -/
noncomputable def tieCfg (b : ℝ) : Cfg 1 :=
  ⟨tieEx b, ⟨1, 0, 1 / 4, fun _ => stepResponse 0, fun _ => 0⟩, fun _ _ _ => 1, true⟩

/-- It begins with a state of zero. -/
def tieSt : St 1 := ⟨0, 0, fun _ => 0, ⟨fun _ => 0, fun _ => -1, fun _ => -1⟩⟩

theorem tie_variant (b : ℝ) : Variant (tieCfg 0) (tieCfg b) (fun _ _ => -1) (fun _ _ => -1) (fun _ _ => 1)
    (fun _ _ => 1) :=
  ⟨rfl, rfl, ⟨rfl, rfl⟩, ⟨rfl, rfl⟩, ⟨rfl, rfl⟩, rfl, rfl, rfl, rfl⟩

theorem tie_run (b : ℝ) : ∃ st φ, st 0 = tieSt ∧ Run (tieCfg b) st φ := by
  refine C148_run (tieCfg b) zero_le_one (fun _ => ⟨.step 0 1, rfl⟩) (fun _ _ => continuous_const) ?_ tieSt
  exact ⟨by simp [tieCfg, tieEx, loopEx], rfl, by simp [tieCfg, tieEx, loopEx], le_refl _⟩

theorem tie_decision (b : ℝ) (st : ℕ → St 1) (φ : ℕ → ℝ → ℕ → ℝ) (h0 : st 0 = tieSt) (hr : Run (tieCfg b) st φ) :
    (st 1).c.s 0 = if 0 ≤ b then 1 else 0 := by
  obtain ⟨y, -, h2, h3⟩ := run_observation (tieCfg b) (fun _ _ => 1) st φ rfl rfl rfl hr 0
  have hy : y.v 0 = b := by
    rw [h2, h0]
    simp [tieCfg, tieEx, loopEx, tieSt]
  rw [h3]
  refine (update_plain (tieCfg b).dc (fun _ => rfl) (fun _ => rfl) le_rfl (st 0).c (fun m => y.v m) 0).1.trans ?_
  show (if (0 : ℝ) ≤ y.v 0 then (1 : ℝ) else 0) = _
  rw [hy]

/-- **C174**, at the threshold: an arbitrarily small change of a coefficient changes the first decision. -/
theorem C174_tie_false :
    ∃ (cfg : Cfg 1) (G GT : ℕ → ℕ → ℝ) (st : ℕ → St 1) (φ : ℕ → ℝ → ℕ → ℝ), Run cfg st φ ∧
      ∀ ρ > 0, ∃ (cfg' : Cfg 1) (st' : ℕ → St 1) (φ' : ℕ → ℝ → ℕ → ℝ), Variant cfg cfg' G G GT GT ∧
        Close cfg cfg' G G GT GT ρ ∧ Run cfg' st' φ' ∧ st' 0 = st 0 ∧ (st' 1).c.s 0 ≠ (st 1).c.s 0 := by
  obtain ⟨st, φ, h0, hr⟩ := tie_run 0
  refine ⟨tieCfg 0, fun _ _ => -1, fun _ _ => 1, st, φ, hr, fun ρ hρ => ?_⟩
  obtain ⟨st', φ', h0', hr'⟩ := tie_run (-ρ)
  refine ⟨tieCfg (-ρ), st', φ', tie_variant _, ⟨?_, ?_, ?_, ?_, ?_, ?_⟩, hr', h0'.trans h0.symm, ?_⟩
  · intro n _ j _; simp [tieCfg, tieEx, loopEx, hρ.le]
  · intro n _ j _; simp [tieCfg, tieEx, loopEx, hρ.le]
  · intro n _ j _; simp [hρ.le]
  · intro n _ j _; simp [hρ.le]
  · intro n _ j _; simp [tieCfg, tieEx, abs_of_pos hρ]
  · intro n _ j _; simp [tieCfg, tieEx, loopEx, hρ.le]
  · rw [tie_decision _ st φ h0 hr, tie_decision _ st' φ' h0' hr', if_pos le_rfl, if_neg (by linarith)]
    norm_num

/-! ## A case -/

/-- The system of the example with a leaking integrator and another gain of the control. -/
def offEx (ρ : ℝ) : Sys ℝ :=
  { loopEx with A := fun _ _ => -ρ, B := fun _ _ => 1 + ρ, Gamma := some fun _ _ => -1 + ρ, Bt := fun _ _ => -ρ }

/-- `C174_tolerance_partial`, `C174_estimates`:
For every number of periods and accuracy there is a range of coefficients in which the simulation of the loop with
leaking integrator, started with another state, takes the same decisions. -/
example (K : ℕ) (ε : ℝ) (hε : 0 < ε) : ∃ ρ > 0, ∃ (st' : ℕ → St 1) (φ' : ℕ → ℝ → ℕ → ℝ),
    Run ⟨offEx ρ, loopCfg.dc, loopCfg.input, true⟩ st' φ' ∧
    SameDecisions loopCfg loopSt st' (fun _ _ _ => 1) φ' (fun _ => ε) K := by
  obtain ⟨ρ, hρ, h⟩ := C174_limit_partial loopCfg (fun _ _ => -1) (fun _ _ => 1) (by norm_num [loopCfg]) loopSt
    (fun _ _ _ => 1) loop_run 1 1 (fun _ _ _ _ => by simp [loopCfg]) (fun k τ hτ m => by
      rw [contribution_plain loopCfg.dc (fun _ => rfl) _ _ hτ.1]
      split_ifs <;> simp [loopSt]) K (fun k _ y hy m => by
      obtain ⟨y', h1, -, h3⟩ := loop_obs k (contribution loopCfg.dc (loopSt k).c 0)
      have hy' : y = y' := Except.ok.inj (hy.symm.trans h1)
      have hm : (m : ℕ) = 0 := by
        have : (m : ℕ) < 1 := m.2
        omega
      rw [hy', hm, h3]
      simp [loopCfg]) ε hε
  obtain ⟨st', φ', h0, hr'⟩ := C148_run (M := 1) ⟨offEx ρ, loopCfg.dc, loopCfg.input, true⟩ zero_le_one
    (fun _ => ⟨.step 0 1, rfl⟩) (fun _ _ => continuous_const)
    ⟨by simp [offEx], rfl, by simp [offEx, loopEx], le_refl _⟩
    ⟨0, 0, fun _ => 1 + ρ, (loopSt 0).c⟩
  refine ⟨ρ, hρ, st', φ', hr', h ⟨offEx ρ, loopCfg.dc, loopCfg.input, true⟩ (fun _ _ => -1 + ρ) (fun _ _ => 1) st' φ'
    ⟨rfl, rfl, ⟨rfl, rfl⟩, ⟨rfl, rfl⟩, ⟨rfl, rfl⟩, rfl, rfl, rfl, rfl⟩ ⟨?_, ?_, ?_, ?_, ?_, ?_⟩ hr' ?_⟩
  · intro n _ j _; simp [offEx, loopCfg, loopEx, abs_of_pos hρ]
  · intro n _ j _; simp [offEx, loopCfg, loopEx, abs_of_pos hρ]
  · intro n _ j _; simp [abs_of_pos hρ]
  · intro n _ j _; simp [hρ.le]
  · intro n _ j _; simp [offEx, loopCfg, loopEx, abs_of_pos hρ]
  · intro n _ j _; simp [offEx, loopCfg, loopEx, hρ.le]
  · rw [h0]
    exact ⟨rfl, by simp [loopSt], rfl, fun n _ => by simp [loopSt, abs_of_pos hρ]⟩

end Cbadc.ClosedLoop
