import Mathlib.Algebra.Order.Floor.Semiring
import Mathlib.Analysis.SpecialFunctions.Exp
import Verif.Lemmas.Simulator

/-! # C16, C28, C29, C30: the simulators -/

namespace Cbadc.Simulate
open Cbadc.Analog Cbadc.Control Set Finset

/-! ### C16 -/

/-- C16 (what holds): a control whose phase is within the tolerance of the period start is re-decided in every
period, from the observation at the start of the period. -/
theorem C16_phase_zero_partial {M : ℕ} (cfg : Cfg M) (st : ℕ → St M) (φ : ℕ → ℝ → ℕ → ℝ) (hr : Run cfg st φ)
    (m : Fin M) (hm : |(0 : ℝ) - (cfg.dc.ir m).t0| ≤ cfg.dc.tt2 + 1 / 100000 * |(cfg.dc.ir m).t0|) (k : ℕ) :
    ∃ y, cfg.sys.controlObservation ⟨cfg.sys.N, (st k).x⟩ (some (cfg.u0 (st k)))
        (some (asVec (contribution cfg.dc (st k).c 0))) = .ok y ∧
      signal (st (k + 1)).c m = if cfg.dc.offsets m ≤ y.v m then 1 else 0 := by
  obtain ⟨y, h1, -, h3⟩ := (decide_ok cfg (st k) _).mp (hr k).dec
  refine ⟨y, h1, ?_⟩
  rw [h3]
  show (if allclose 0 (cfg.dc.ir m).t0 cfg.dc.tt2 then (if cfg.dc.offsets m ≤ y.v m then (1 : ℝ) else 0)
    else (st k).c.s m) = _
  rw [if_pos (show allclose 0 (cfg.dc.ir m).t0 cfg.dc.tt2 from hm)]

/-- C16: any other phase is never updated in any simulation: its decision keeps the initial value for ever. -/
theorem C16_other_phase_frozen {M : ℕ} (cfg : Cfg M) (st : ℕ → St M) (φ : ℕ → ℝ → ℕ → ℝ) (hr : Run cfg st φ)
    (m : Fin M) (hm : cfg.dc.tt2 + 1 / 100000 * |(cfg.dc.ir m).t0| < |(0 : ℝ) - (cfg.dc.ir m).t0|) (k : ℕ) :
    signal (st k).c m = signal (st 0).c m := by
  induction k with
  | zero => rfl
  | succ k ih =>
    obtain ⟨y, -, -, h3⟩ := (decide_ok cfg (st k) _).mp (hr k).dec
    rw [h3, ← ih]
    show (if allclose 0 (cfg.dc.ir m).t0 cfg.dc.tt2 then (if cfg.dc.offsets m ≤ y.v m then (1 : ℝ) else 0)
      else (st k).c.s m) = _
    rw [if_neg (show ¬ allclose 0 (cfg.dc.ir m).t0 cfg.dc.tt2 from not_le.mpr hm)]
    rfl

/-- C16 is false: a two-phase control with phases `0` and `T/2` is accepted, and there is a simulation in which
the observations of both controls are positive for ever while the second control stays at its initial 0. -/
theorem C16_false :
    ∃ (cfg : Cfg 2) (st : ℕ → St 2) (φ : ℕ → ℝ → ℕ → ℝ),
      DC.new 1 0 2 (some [stepResponse 0, stepResponse (1 / 2)]) 0 none = .ok cfg.dc ∧ Run cfg st φ ∧
      ∀ k, (∃ y, cfg.sys.controlObservation ⟨cfg.sys.N, (st k).x⟩ (some (cfg.u0 (st k)))
        (some (asVec (contribution cfg.dc (st k).c 0))) = .ok y ∧ y.v 0 = 1 ∧ y.v 1 = 1) ∧
        signal (st (k + 1)).c 0 = 1 ∧ signal (st (k + 1)).c 1 = 0 := by
  obtain ⟨dc, hdc⟩ : ∃ dc, DC.new (1 : ℝ) 0 2 (some [stepResponse 0, stepResponse (1 / 2)]) 0 none = .ok dc := by
    refine ⟨⟨1, 0, 0, fun m => [stepResponse 0, stepResponse (1 / 2)].get m, fun _ => 0⟩, ?_⟩
    unfold DC.new initIR initOffsets
    rw [if_neg (lt_irrefl _)]
    simp only [List.length_cons, List.length_nil, dite_true]
    rw [if_neg (by simp [badPhases, anyDecrease, stepResponse]; norm_num)]
    rfl
  have hdc' : dc = ⟨1, 0, 0, fun m => [stepResponse 0, stepResponse (1 / 2)].get m, fun _ => 0⟩ := by
    unfold DC.new initIR initOffsets at hdc
    rw [if_neg (lt_irrefl _)] at hdc
    simp only [List.length_cons, List.length_nil, dite_true] at hdc
    rw [if_neg (by simp [badPhases, anyDecrease, stepResponse]; norm_num)] at hdc
    exact (Except.ok.inj hdc).symm
  let g : Sys ℝ := ⟨1, 1, 2, 2, 1, fun _ _ => 0, fun _ _ => 0, fun _ _ => 1, some fun _ _ => 0, some fun _ _ => 1,
    fun _ _ => 0, fun _ _ => 0, fun _ _ => 0⟩
  let cfg : Cfg 2 := ⟨g, dc, fun _ _ _ => 0, true⟩
  have hobs : ∀ st : St 2, (∀ n, st.x n = 1) → ∃ y, cfg.sys.controlObservation ⟨cfg.sys.N, st.x⟩
      (some (cfg.u0 st)) (some (asVec (contribution cfg.dc st.c 0))) = .ok y ∧ y.len = 2 ∧ y.v = fun _ => 1 := by
    intro st hx
    obtain ⟨y, h1, h2, h3⟩ := (C27_observation_partial g _ rfl ⟨1, st.x⟩ (cfg.u0 st)
      (asVec (contribution cfg.dc st.c 0)) rfl rfl rfl).1
    refine ⟨y, h1, h2, ?_⟩
    funext r
    rw [h3]
    show (∑ c ∈ range 1, (1 : ℝ) * st.x c) + (∑ c ∈ range 1, (0 : ℝ) * _) + ∑ c ∈ range 2, (0 : ℝ) * _ = 1
    simp [hx]
  obtain ⟨st, hst⟩ : ∃ st : ℕ → St 2, st = fun k => ⟨k, k, fun _ => 1,
    Nat.rec State.init (fun _ c => update dc c 0 fun _ => 1) k⟩ := ⟨_, rfl⟩
  have hx : ∀ k n, (st k).x n = 1 := by intro k n; rw [hst]
  have hc : ∀ k, (st (k + 1)).c = update dc (st k).c 0 fun _ => 1 := by intro k; rw [hst]
  have hrun : Run cfg st (fun _ _ _ => 1) := by
    intro k
    refine Period.of_sol rfl (fun _ _ => 0) rfl rfl ?_ ⟨fun _ _ => continuousOn_const, ?_⟩ ?_ ?_ ?_ ?_
    · rw [decide_ok]
      obtain ⟨y, h1, h2, h3⟩ := hobs (st k) (hx k)
      refine ⟨y, h1, h2.ge, ?_⟩
      rw [h3]
      exact hc k
    · intro τ _ n _
      refine (hasDerivWithinAt_const τ (Ici τ) (1 : ℝ)).congr_deriv ?_
      simp [dot, cfg, g]
    · intro n _; rw [hx]
    · intro n _; rw [hx]
    · rw [hst]
    · rw [hst]
      show ((k + 1 : ℕ) : ℝ) = (k : ℝ) + dc.T
      rw [hdc']
      push_cast
      rfl
  refine ⟨cfg, st, fun _ _ _ => 1, hdc, hrun, ?_⟩
  intro k
  obtain ⟨y, h1, h2, h3⟩ := hobs (st k) (hx k)
  refine ⟨⟨y, h1, by rw [h3], by rw [h3]⟩, ?_, ?_⟩
  · obtain ⟨y', e1, e2⟩ := C16_phase_zero_partial cfg st _ hrun 0 (by
      show |(0 : ℝ) - (dc.ir 0).t0| ≤ dc.tt2 + 1 / 100000 * |(dc.ir 0).t0|
      rw [hdc']
      simp [stepResponse]) k
    rw [h1] at e1
    cases e1
    rw [e2, h3]
    show (if dc.offsets 0 ≤ (1 : ℝ) then (1 : ℝ) else 0) = 1
    rw [hdc']
    norm_num
  · rw [C16_other_phase_frozen cfg st _ hrun 1 (by
      show dc.tt2 + 1 / 100000 * |(dc.ir 1).t0| < |(0 : ℝ) - (dc.ir 1).t0|
      rw [hdc']
      show (0 : ℝ) + 1 / 100000 * |(1 / 2 : ℝ)| < |(0 : ℝ) - 1 / 2|
      rw [abs_of_pos (by norm_num), abs_of_neg (by norm_num)]
      norm_num) (k + 1)]
    rw [hst]
    rfl

/-! ### C28 -/

/-- `X` solves `x' = A x + B u(t) + Gamma w(t)` on `[a, b]` (specification) -/
structure Solves (g : Sys ℝ) (G : ℕ → ℕ → ℝ) (u w : ℝ → ℕ → ℝ) (a b : ℝ) (X : ℝ → ℕ → ℝ) : Prop where
  cont : ∀ n < g.N, ContinuousOn (fun t => X t n) (Icc a b)
  ode : ∀ t ∈ Ico a b, ∀ n < g.N, HasDerivWithinAt (fun t => X t n)
    ((∑ c ∈ range g.N, g.A n c * X t c) + (∑ c ∈ range g.L, g.B n c * u t c) + ∑ c ∈ range g.M, G n c * w t c)
    (Ici t) t

/-- time after `k` calls -/
theorem run_time {M : ℕ} (cfg : Cfg M) (st : ℕ → St M) (φ : ℕ → ℝ → ℕ → ℝ) (hr : Run cfg st φ) (k : ℕ) :
    (st k).t = (st 0).t + k * cfg.dc.T := by
  induction k with
  | zero => simp
  | succ k ih => rw [(hr k).time, ih]; push_cast; ring

theorem shift_solves {M : ℕ} (cfg : Cfg M) (hin : cfg.hasInput = true) (G : ℕ → ℕ → ℝ)
    (hG : cfg.sys.Gamma = some G) (st st' : St M) (φ : ℝ → ℕ → ℝ) (h : Period cfg st φ st') (X : ℝ → ℕ → ℝ)
    (hX : ∀ t ∈ Icc st.t st'.t, ∀ n, n < cfg.sys.N → X t n = φ (t - st.t) n) :
    Solves cfg.sys G (cfg.input (st.ticks + 1)) (fun t => (asVec (contribution cfg.dc st'.c (t - st.t))).v)
      st.t st'.t X := by
  have hs := h.sol hin G hG
  have htime := h.time
  constructor
  · intro n hn
    have hc : ContinuousOn (fun t => φ (t - st.t) n) (Icc st.t st'.t) := by
      have := hs.cont n hn
      refine ContinuousOn.comp (g := fun τ => φ τ n) (f := fun t => t - st.t) this
        ((continuous_id.sub continuous_const).continuousOn) ?_
      intro t ht
      constructor
      · have := ht.1; show 0 ≤ t - st.t; linarith
      · have := ht.2; show t - st.t ≤ cfg.dc.T; linarith
    exact hc.congr fun t ht => hX t ht n hn
  · intro t ht n hn
    have hτ : t - st.t ∈ Ico 0 cfg.dc.T := ⟨by have := ht.1; linarith, by have := ht.2; linarith⟩
    have hd := hs.ode (t - st.t) hτ n hn
    have hsub : HasDerivWithinAt (fun t => t - st.t) 1 (Ici t) t := (hasDerivWithinAt_id t _).sub_const _
    have hcomp := HasDerivWithinAt.comp t (h₂ := fun τ => φ τ n) (h := fun t => t - st.t) hd hsub (by
      intro s hs
      show t - st.t ≤ s - st.t
      have : t ≤ s := hs
      linarith)
    have heq : (fun t => X t n) =ᶠ[nhdsWithin t (Ici t)] ((fun τ => φ τ n) ∘ fun t => t - st.t) := by
      filter_upwards [Ico_mem_nhdsGE ht.2] with s hs
      exact hX s ⟨ht.1.trans hs.1, hs.2.le⟩ n hn
    refine (hcomp.congr_of_eventuallyEq heq (hX t (Ico_subset_Icc_self ht) n hn)).congr_deriv ?_
    have hXt : ∀ c ∈ range cfg.sys.N, cfg.sys.A n c * X t c = cfg.sys.A n c * φ (t - st.t) c :=
      fun c hc => by rw [hX t (Ico_subset_Icc_self ht) c (Finset.mem_range.mp hc)]
    rw [Finset.sum_congr rfl hXt]
    unfold dot
    rw [sub_add_cancel, mul_one, add_assoc]

/-- C28 (with input signals): in every simulation the time after `k` calls is the start time plus `k T`; the
decisions of period `k` are taken from the observation of the state at the start of the period; and there is one
trajectory `X` that passes through the simulator's state at the end of every period and solves the system's
differential equation, with the input signals and the control contributions of these decisions, throughout every
period. -/
theorem C28_solution_partial {M : ℕ} (cfg : Cfg M) (hin : cfg.hasInput = true) (hT : 0 < cfg.dc.T)
    (G : ℕ → ℕ → ℝ) (hG : cfg.sys.Gamma = some G)
    (st : ℕ → St M) (φ : ℕ → ℝ → ℕ → ℝ) (hr : Run cfg st φ) :
    (∀ k : ℕ, (st k).t = (st 0).t + k * cfg.dc.T) ∧
    (∀ k, ∃ y, cfg.sys.controlObservation ⟨cfg.sys.N, (st k).x⟩
        (some ⟨cfg.sys.L, cfg.input (st k).ticks (st k).t⟩) (some (asVec (contribution cfg.dc (st k).c 0))) = .ok y ∧
      (st (k + 1)).c = update cfg.dc (st k).c 0 fun m => y.v m) ∧
    ∃ X : ℝ → ℕ → ℝ, ∀ k, (∀ n < cfg.sys.N, X (st k).t n = (st k).x n) ∧
      Solves cfg.sys G (cfg.input ((st k).ticks + 1))
        (fun t => (asVec (contribution cfg.dc (st (k + 1)).c (t - (st k).t))).v) (st k).t (st (k + 1)).t X := by
  refine ⟨run_time cfg st φ hr, ?_, ?_⟩
  · intro k
    obtain ⟨y, h1, -, h3⟩ := (decide_ok cfg (st k) _).mp (hr k).dec
    refine ⟨y, ?_, h3⟩
    rw [← h1]
    unfold Cfg.u0
    simp only [hin, if_true, zero_add]
  · let idx : ℝ → ℕ := fun t => ⌊(t - (st 0).t) / cfg.dc.T⌋₊
    have htime := run_time cfg st φ hr
    have hX : ∀ k, ∀ t ∈ Icc (st k).t (st (k + 1)).t, ∀ n, n < cfg.sys.N →
        φ (idx t) (t - (st (idx t)).t) n = φ k (t - (st k).t) n := by
      intro k t ht n hn
      by_cases hlt : t < (st (k + 1)).t
      · have hidx : idx t = k := by
          show ⌊(t - (st 0).t) / cfg.dc.T⌋₊ = k
          rw [Nat.floor_eq_iff (div_nonneg (by
            have h1 := ht.1
            rw [htime k] at h1
            have : (0 : ℝ) ≤ k * cfg.dc.T := by positivity
            linarith) hT.le)]
          rw [le_div_iff₀ hT, div_lt_iff₀ hT]
          have h1 := ht.1
          rw [htime k] at h1
          rw [htime (k + 1)] at hlt
          push_cast at hlt
          constructor <;> linarith
        rw [hidx]
      · have heq : t = (st (k + 1)).t := le_antisymm ht.2 (not_lt.mp hlt)
        have hidx : idx t = k + 1 := by
          show ⌊(t - (st 0).t) / cfg.dc.T⌋₊ = k + 1
          rw [heq, htime (k + 1)]
          rw [show (st 0).t + ((k + 1 : ℕ) : ℝ) * cfg.dc.T - (st 0).t = ((k + 1 : ℕ) : ℝ) * cfg.dc.T by ring]
          rw [mul_div_assoc, div_self hT.ne', mul_one, Nat.floor_natCast]
        rw [hidx, heq, sub_self, (hr (k + 1)).start n hn, (hr k).stop n hn, (hr k).time, add_sub_cancel_left]
    refine ⟨fun t => φ (idx t) (t - (st (idx t)).t), fun k => ⟨?_, ?_⟩⟩
    · intro n hn
      show φ _ _ n = _
      rw [hX k (st k).t ⟨le_refl _, by rw [(hr k).time]; linarith⟩ n hn, sub_self, (hr k).start n hn]
    · exact shift_solves cfg hin G hG _ _ _ (hr k) _ fun t ht n hn => hX k t ht n hn

/-- C28: the simulation is determined: two runs of the same set-up that start from the same attributes have the
same states, decisions, times at the end of every period. -/
theorem C28_deterministic {M : ℕ} (cfg : Cfg M) (hin : cfg.hasInput = true) (hT : 0 < cfg.dc.T)
    (st st' : ℕ → St M) (φ φ' : ℕ → ℝ → ℕ → ℝ) (hr : Run cfg st φ) (hr' : Run cfg st' φ')
    (h0 : (∀ n < cfg.sys.N, (st 0).x n = (st' 0).x n) ∧ (st 0).c = (st' 0).c ∧ (st 0).t = (st' 0).t ∧
      (st 0).ticks = (st' 0).ticks)
    (k : ℕ) :
    (∀ n < cfg.sys.N, (st k).x n = (st' k).x n) ∧ (st k).c = (st' k).c ∧ (st k).t = (st' k).t ∧
      (st k).ticks = (st' k).ticks := by
  induction k with
  | zero => exact h0
  | succ k ih =>
    obtain ⟨hx, hc, ht, hk⟩ := ih
    obtain ⟨y, h1, h2, h3⟩ := (decide_ok cfg (st k) _).mp (hr k).dec
    obtain ⟨y', h1', h2', h3'⟩ := (decide_ok cfg (st' k) _).mp (hr' k).dec
    have hu : cfg.u0 (st k) = cfg.u0 (st' k) := by unfold Cfg.u0; rw [ht, hk]
    obtain ⟨d, hd, -⟩ := (hr k).ode 0 ⟨le_refl _, hT⟩
    obtain ⟨G, hG, hM, -⟩ := rhs_input cfg hin _ _ _ _ _ hd
    -- same observation
    have hobs : y = y' := by
      rw [hu, hc] at h1
      unfold Sys.controlObservation at h1 h1'
      cases hGT : cfg.sys.GammaT with
      | none => rw [hGT] at h1; cases h1
      | some GT =>
        rw [hGT] at h1 h1'
        have hdot : npDot cfg.sys.Mt cfg.sys.N GT ⟨cfg.sys.N, (st k).x⟩ =
            npDot cfg.sys.Mt cfg.sys.N GT ⟨cfg.sys.N, (st' k).x⟩ := by
          unfold npDot dot
          dsimp only
          rw [if_neg (by simp), if_neg (by simp)]
          congr 2
          funext r
          exact Finset.sum_congr rfl fun c hcc => by rw [hx c (Finset.mem_range.mp hcc)]
        dsimp only at h1 h1'
        rw [hdot] at h1
        rw [h1] at h1'
        exact Except.ok.inj h1'
    have hcc : (st (k + 1)).c = (st' (k + 1)).c := by rw [h3, h3', hobs, hc]
    refine ⟨?_, hcc, ?_, ?_⟩
    · intro n hn
      have s1 := (hr k).sol hin G hG
      have s2 := (hr' k).sol hin G hG
      rw [← hcc, ← ht, ← hk] at s2
      have := s1.unique s2 (fun n hn => by rw [(hr k).start n hn, (hr' k).start n hn, hx n hn]) cfg.dc.T
        ⟨hT.le, le_refl _⟩ n hn
      rw [(hr k).stop n hn, (hr' k).stop n hn, this]
    · rw [(hr k).time, (hr' k).time, ht]
    · rw [(hr k).ticks, (hr' k).ticks, hk]

/-- C28 is false without input signals: the solver is then given a right-hand side that uses the state at the
start of the period throughout.  Leaky integrator `x' = -x + s`, period 1, start at 1: the simulator arrives at
`-1`, which no solution of the differential equation reaches. -/
theorem C28_no_input_false :
    ∃ (cfg : Cfg 1) (st st' : St 1) (φ : ℝ → ℕ → ℝ) (G : ℕ → ℕ → ℝ),
      Sys.new (.mat 1 1 fun _ _ => -1) (.mat 1 1 fun _ _ => 1) (.mat 1 1 fun _ _ => 1)
        (some (.mat 1 1 fun _ _ => 1)) (some (.mat 1 1 fun _ _ => -1)) none none none = .ok cfg.sys ∧
      DC.new 1 0 1 none 0 none = .ok cfg.dc ∧ cfg.hasInput = false ∧ cfg.sys.Gamma = some G ∧
      st.x 0 = 1 ∧ Period cfg st φ st' ∧ st'.x 0 = -1 ∧
      ∀ X : ℝ → ℕ → ℝ, X 0 0 = st.x 0 →
        Solves cfg.sys G (fun _ _ => 0) (fun t => (asVec (contribution cfg.dc st'.c t)).v) 0 1 X →
        X 1 0 ≠ st'.x 0 := by
  let g : Sys ℝ := ⟨1, 1, 1, 1, 1, fun _ _ => -1, fun _ _ => 1, fun _ _ => 1, some fun _ _ => 1,
    some fun _ _ => -1, fun _ _ => 0, fun _ _ => 0, fun _ _ => 0⟩
  let dc : DC ℝ 1 := ⟨1, 0, 0, fun _ => stepResponse 0, fun _ => 0⟩
  have hdc : DC.new (1 : ℝ) 0 1 none 0 none = .ok dc := by
    simp [DC.new, initIR, initOffsets, dc]
  let cfg : Cfg 1 := ⟨g, dc, fun _ _ _ => 0, false⟩
  let st : St 1 := ⟨0, 0, fun _ => 1, State.init⟩
  obtain ⟨y, hy1, hy2, hy3⟩ := (C27_observation_partial g _ rfl ⟨1, st.x⟩ (cfg.u0 st)
      (asVec (contribution cfg.dc st.c 0)) rfl rfl rfl).1
  have hy0 : ∀ r, y.v r = -1 := by
    intro r
    rw [hy3]
    show (∑ c ∈ range 1, (-1 : ℝ) * 1) + (∑ c ∈ range 1, (0 : ℝ) * _) + ∑ c ∈ range 1, (0 : ℝ) * _ = -1
    simp
  let c' : State ℝ 1 := update dc State.init 0 fun m => y.v m
  have hcur : ∀ m, c'.cur m = -1 := by
    intro m
    show (if allclose (0 : ℝ) 0 0 then 2 * (if (0 : ℝ) ≤ y.v m then (1 : ℝ) else 0) - 1 else 0) = -1
    rw [if_pos (by simp [allclose]), hy0, if_neg (by norm_num)]
    norm_num
  have hcon : ∀ τ, 0 ≤ τ → (asVec (contribution dc c' τ)).v 0 = -1 := by
    intro τ hτ
    show (if h : 0 < 1 then contribution dc c' τ ⟨0, h⟩ else 0) = -1
    rw [dif_pos (by omega)]
    show (if τ < (0 : ℝ) then _ else (if (0 : ℝ) ≤ τ then (1 : ℝ) else 0)) *
      (if τ < (0 : ℝ) then _ else c'.cur 0) = -1
    rw [if_neg (not_lt.mpr hτ), if_neg (not_lt.mpr hτ), if_pos hτ, hcur]
    norm_num
  let st' : St 1 := ⟨0, 0 + 1, fun _ => -1, c'⟩
  refine ⟨cfg, st, st', fun τ _ => 1 - 2 * τ, fun _ _ => 1, ?_, hdc, rfl, rfl, rfl, ?_, rfl, ?_⟩
  · exact (C21_entries 1 1 1 1 1 (fun _ _ => (-1 : ℝ)) (fun _ _ => 1) (fun _ _ => 1) (fun _ _ => 1)
      (fun _ _ => -1) (fun _ _ => 0) (fun _ _ => 0) (fun _ _ => 0)).2
  · refine ⟨?_, fun n _ => by simp [st], fun n _ => by fun_prop, ?_, fun n _ => ?_, rfl, rfl⟩
    · rw [decide_ok]
      exact ⟨y, hy1, hy2.ge, rfl⟩
    · intro τ hτ
      refine ⟨⟨1, fun r => (∑ c ∈ range 1, (-1 : ℝ) * 1) +
        ∑ c ∈ range 1, (1 : ℝ) * (asVec (contribution dc c' τ)).v c⟩, rfl, ?_⟩
      intro n hn
      have hd : HasDerivAt (fun τ : ℝ => 1 - 2 * τ) (-(2 * 1)) τ :=
        ((hasDerivAt_id τ).const_mul (2 : ℝ)).const_sub 1
      refine hd.hasDerivWithinAt.congr_deriv ?_
      simp only [Finset.sum_range_one]
      rw [hcon τ hτ.1]
      norm_num
    · show (-1 : ℝ) = 1 - 2 * 1
      norm_num
  · intro X hX0 hX hend
    have hsol : Sol 1 g.A 1 (fun τ n => -1) X := by
      refine ⟨hX.cont, fun τ hτ n hn => ?_⟩
      have := hX.ode τ hτ n hn
      refine this.congr_deriv ?_
      show (∑ c ∈ range 1, (-1 : ℝ) * X τ c) + (∑ c ∈ range 1, (1 : ℝ) * 0) +
        (∑ c ∈ range 1, (1 : ℝ) * (asVec (contribution dc c' τ)).v c) = (∑ c ∈ range 1, (-1 : ℝ) * X τ c) + -1
      simp only [Finset.sum_range_one]
      rw [hcon τ hτ.1]
      ring
    have hexp : Sol 1 g.A 1 (fun τ n => -1) (fun τ _ => 2 * Real.exp (-τ) - 1) := by
      refine ⟨fun n _ => by fun_prop, fun τ hτ n hn => ?_⟩
      have hd : HasDerivAt (fun τ : ℝ => 2 * Real.exp (-τ) - 1) (2 * (Real.exp (-τ) * (-1))) τ :=
        (((hasDerivAt_id τ).neg.exp).const_mul 2).sub_const 1
      refine hd.hasDerivWithinAt.congr_deriv ?_
      show _ = (∑ c ∈ range 1, (-1 : ℝ) * (2 * Real.exp (-τ) - 1)) + -1
      simp only [Finset.sum_range_one]
      ring
    have := hsol.unique hexp (fun n hn => by
      have : n = 0 := by omega
      subst this
      rw [hX0]
      show (1 : ℝ) = 2 * Real.exp (-0) - 1
      rw [neg_zero, Real.exp_zero]
      norm_num) 1 ⟨by norm_num, le_refl _⟩ 0 (by omega)
    rw [hend] at this
    have h2 : (-1 : ℝ) = 2 * Real.exp (-1) - 1 := this
    have := Real.exp_pos (-1)
    linarith

/-! ### C29 -/

/-- in the accepted single-phase set-up all phases are zero -/
theorem phases_zero {M : ℕ} (cfg : PCfg M) (hcheck : cfg.check = .ok ()) (hpos : ∀ m, 0 ≤ (cfg.dc.ir m).t0)
    (m : Fin M) : (cfg.dc.ir m).t0 = 0 := by
  unfold PCfg.check at hcheck
  split_ifs at hcheck with h1 h2 h3
  have hs : ∑ m, (cfg.dc.ir m).t0 = 0 := le_antisymm (not_lt.mp h2) (Finset.sum_nonneg fun m _ => hpos m)
  exact (Finset.sum_eq_zero_iff_of_nonneg fun m _ => hpos m).mp hs m (Finset.mem_univ m)

/-- **C29** Which calls the pre-computing simulator refuses: with sinusoids and a number of outputs other than one and the
number of states all of them; with piecewise constant signals only, whatever the outputs, none but those that the full
simulator refuses as well. -/
theorem C29_refused {M : ℕ} (cfg : PCfg M) (ctrl pw : ℕ → ℕ → ℝ) (st : St M) :
    ((∃ a ω p o, Sig.sine a ω p o ∈ cfg.sig) → cfg.sys.Nt ≠ cfg.sys.N → cfg.sys.Nt ≠ 1 →
      cfg.next ctrl pw st = .error .valueError) ∧
    ((∀ s ∈ cfg.sig, ∃ f, s = .pw f) → ∀ e, cfg.next ctrl pw st = .error e ↔ cfg.full.decide st = .error e) := by
  constructor
  · rintro ⟨a, ω, p, o, h⟩ h1 h2
    unfold PCfg.next
    rw [if_pos ⟨List.any_eq_true.2 ⟨_, h, rfl⟩, h1, h2⟩]
  · intro h e
    unfold PCfg.next
    rw [if_neg]
    · cases cfg.full.decide st with
      | error x => constructor <;> (intro hx; cases hx; rfl)
      | ok c => simp
    · rintro ⟨h1, -⟩
      obtain ⟨s, hs, h2⟩ := List.any_eq_true.1 h1
      obtain ⟨f, rfl⟩ := h s hs
      cases h2

/-- C29 (what holds): for an accepted set-up with at least one signal in which the outputs are the states
(`CT = I`, `D = 0`) if there are sinusoids, the controls have no delay, no sinusoid sits on a pole and every piecewise constant signal
keeps one value over the period including its end, the pre-computing simulator makes the same step as the full
simulator: its new state is the end point of an exact solution of the differential equation, and it is the only
possible outcome of the full simulator. -/
theorem C29_exact_partial {M : ℕ} (cfg : PCfg M) (hcheck : cfg.check = .ok ()) (hsig : 0 < cfg.sig.length)
    (hT : 0 < cfg.dc.T) (htt : 0 ≤ cfg.dc.tt2) (hdelay : cfg.dc.tDelay = 0)
    (hpos : ∀ m, 0 ≤ (cfg.dc.ir m).t0)
    (G : ℕ → ℕ → ℝ) (hG : cfg.sys.Gamma = some G) (hM : cfg.sys.M = M)
    (hout : ∀ l < cfg.sig.length, ∀ a ω p o, cfg.sigAt l = .sine a ω p o → cfg.sys.Nt = cfg.sys.N ∧
      (∀ r < cfg.sys.N, ∀ c < cfg.sys.N, cfg.sys.CT r c = if r = c then 1 else 0) ∧
      ∀ r < cfg.sys.N, ∀ c < cfg.sys.L, cfg.sys.D r c = 0)
    (hreg : ∀ l < cfg.sig.length, ∀ a ω p o, cfg.sigAt l = .sine a ω p o →
      Analog.Spec.Regular cfg.sys.N (fun r c => (cfg.sys.A r c : ℂ)) (Complex.I * ω))
    (ctrl pw : ℕ → ℕ → ℝ) (hpre : Pre cfg G ctrl pw) (st st' : St M)
    (hpw : ∀ l < cfg.sig.length, ∀ f, cfg.sigAt l = .pw f →
      ∀ s ∈ Ico st.t (st.t + cfg.dc.T), f s = f (st.t + cfg.dc.T))
    (hnext : cfg.next ctrl pw st = .ok st') :
    (∃ φ, Period cfg.full st φ { st' with ticks := st.ticks + 1 }) ∧
    ∀ φ st'', Period cfg.full st φ st'' →
      (∀ n < cfg.sys.N, st''.x n = st'.x n) ∧ st''.c = st'.c ∧ st''.t = st'.t := by
  have hin : cfg.full.hasInput = true := by
    show decide (0 < cfg.sig.length) = true
    rw [decide_eq_true hsig]
  have hL : cfg.sys.L = cfg.sig.length := by
    unfold PCfg.check at hcheck
    split_ifs at hcheck with h1
    by_contra hne
    exact h1 ⟨hsig, hne⟩
  have hoff : ∀ l < cfg.sig.length, ∀ a ω p o, cfg.sigAt l = .sine a ω p o → o = 0 := by
    intro l hl a ω p o hs
    unfold PCfg.check at hcheck
    split_ifs at hcheck with h1 h2 h3
    by_contra hne
    apply h3
    rw [List.any_eq_true]
    refine ⟨cfg.sigAt l, ?_, ?_⟩
    · unfold PCfg.sigAt
      have : cfg.sig.getD l (.pw fun _ => 0) = cfg.sig[l] := by simp [List.getD, hl]
      rw [this]
      exact List.getElem_mem hl
    · rw [hs]
      simp [Sig.hasOffset, hne]
  have ht0 := phases_zero cfg hcheck hpos
  -- unfold the step
  unfold PCfg.next at hnext
  by_cases hbad : cfg.sig.any Sig.isSine ∧ cfg.sys.Nt ≠ cfg.sys.N ∧ cfg.sys.Nt ≠ 1
  · rw [if_pos hbad] at hnext
    cases hnext
  rw [if_neg hbad] at hnext
  cases hdec : cfg.full.decide st with
  | error e => rw [hdec] at hnext; cases hnext
  | ok c =>
  rw [hdec] at hnext
  have hst' := (Except.ok.inj hnext).symm
  clear hnext
  -- control waveforms
  have hcur : ∀ m, c.cur m = 2 * c.s m - 1 := by
    intro m
    obtain ⟨y, -, -, h3⟩ := (decide_ok cfg.full st c).mp hdec
    rw [h3]
    have ha : allclose (0 : ℝ) (cfg.dc.ir m).t0 cfg.dc.tt2 := by rw [ht0 m]; simp [allclose, htt]
    show (if allclose (0 : ℝ) (cfg.dc.ir m).t0 cfg.dc.tt2 then
        2 * (if cfg.dc.offsets m ≤ y.v m then (1 : ℝ) else 0) - 1 else st.c.cur m) =
      2 * (if allclose (0 : ℝ) (cfg.dc.ir m).t0 cfg.dc.tt2 then
        (if cfg.dc.offsets m ≤ y.v m then (1 : ℝ) else 0) else st.c.s m) - 1
    rw [if_pos ha, if_pos ha]
  have hcontrib : ∀ τ ∈ Ico (0 : ℝ) cfg.dc.T, ∀ m, contribution cfg.dc c τ m =
      (cfg.dc.ir m).f τ * (2 * c.s m - 1) := by
    intro τ hτ m
    unfold contribution
    rw [ht0 m, hdelay, if_neg (not_lt.mpr hτ.1), if_neg (not_lt.mpr hτ.1), hcur]
  choose χ hχ hχT using hpre.ctrl
  have hpwex : ∀ l, ∃ ψ, l < cfg.sig.length → Forced cfg.sys cfg.dc.T (fun _ n => cfg.sys.B n l) ψ ∧
      ∀ n < cfg.sys.N, pw n l = ψ cfg.dc.T n := by
    intro l
    by_cases hl : l < cfg.sig.length
    · obtain ⟨ψ, h⟩ := hpre.pw l hl
      exact ⟨ψ, fun _ => h⟩
    · exact ⟨fun _ _ => 0, fun h => absurd h hl⟩
  choose π hπ using hpwex
  -- the transfer functions solve the equation
  have htf : ∀ l < cfg.sig.length, ∀ a ω p o, cfg.sigAt l = .sine a ω p o → ∀ n < cfg.sys.N,
      Complex.I * ω * tfCol cfg.sys ω n l =
        (∑ c ∈ range cfg.sys.N, (cfg.sys.A n c : ℂ) * tfCol cfg.sys ω c l) + cfg.sys.B n l := by
    intro l hl a ω p o hs n hn
    have hNt := (hout l hl a ω p o hs).1
    have hcol : ∀ c < cfg.sys.N, tfCol cfg.sys ω c l = tfEntry cfg.sys ω c l := by
      intro c hc
      unfold tfCol
      by_cases h1 : cfg.sys.Nt = 1
      · rw [if_pos h1, show c = 0 by omega]
      · rw [if_neg h1]
    rw [hcol n hn, Finset.sum_congr rfl fun c hc => by rw [hcol c (Finset.mem_range.mp hc)]]
    exact tf_eq cfg.sys ω l (by omega) (hout l hl a ω p o hs).1 (hout l hl a ω p o hs).2.1 (hout l hl a ω p o hs).2.2 (hreg l hl a ω p o hs) n hn
  -- particular solutions
  have hS : Sol cfg.sys.N cfg.sys.A cfg.dc.T
      (fun τ n => ∑ l ∈ range cfg.sig.length, match cfg.sigAt l with
        | .sine a ω p _ => cfg.sys.B n l * (a * Real.sin (ω * (st.t + τ) + p))
        | .pw _ => 0)
      (fun τ n => cfg.sines (st.t + τ) n) := by
    unfold PCfg.sines
    refine Sol.sum _ (fun l hl => ?_)
    rw [Finset.mem_range] at hl
    cases hs : cfg.sigAt l with
    | pw f => exact Sol.zero _ _ _
    | sine a ω p o =>
      dsimp only
      have hder := fun τ n hn => (sine_deriv cfg.sys.N cfg.sys.A (fun n => cfg.sys.B n l) ω a p
        (fun n => tfCol cfg.sys ω n l) (htf l hl a ω p o hs) (st.t + τ) n hn)
      have hshift : ∀ τ : ℝ, HasDerivAt (fun τ => st.t + τ) 1 τ := fun τ => (hasDerivAt_id τ).const_add _
      have hd : ∀ τ n, n < cfg.sys.N → HasDerivAt (fun τ => ‖tfCol cfg.sys ω n l‖ * a *
          Real.sin (ω * (st.t + τ) + ((tfCol cfg.sys ω n l).arg + p))) _ τ :=
        fun τ n hn => (hder τ n hn).comp τ (hshift τ)
      refine ⟨fun n hn τ _ => (hd τ n hn).continuousAt.continuousWithinAt, fun τ _ n hn => ?_⟩
      exact (hd τ n hn).hasDerivWithinAt.congr_deriv (mul_one _)
  have hP : Sol cfg.sys.N cfg.sys.A cfg.dc.T
      (fun _ n => ∑ l ∈ range cfg.sig.length, match cfg.sigAt l with
        | .sine _ _ _ _ => 0
        | .pw f => cfg.sys.B n l * f (st.t + cfg.dc.T))
      (fun τ n => ∑ l ∈ range cfg.sig.length, match cfg.sigAt l with
        | .sine _ _ _ _ => 0
        | .pw f => π l τ n * f (st.t + cfg.dc.T)) := by
    refine Sol.sum _ (fun l hl => ?_)
    rw [Finset.mem_range] at hl
    cases hs : cfg.sigAt l with
    | sine a ω p o => exact Sol.zero _ _ _
    | pw f => exact Sol.smul ⟨(hπ l hl).1.cont, (hπ l hl).1.ode⟩ _
  have hX : Sol cfg.sys.N cfg.sys.A cfg.dc.T
      (fun τ n => ∑ m, dot cfg.sys.M G (asVec (impulseResponse cfg.dc m τ)).v n * (2 * c.s m - 1))
      (fun τ n => ∑ m, χ m τ n * (2 * c.s m - 1)) :=
    Sol.sum _ fun m _ => Sol.smul ⟨(hχ m).cont, (hχ m).ode⟩ _
  have hE := Sol.exp cfg.sys cfg.dc.T (fun i => st.x i - cfg.sines (st.t + 0) i)
  have htot := ((hE.add hS).add hP).add hX
  -- total forcing
  have hforce : ∀ τ ∈ Ico (0 : ℝ) cfg.dc.T, ∀ n < cfg.sys.N,
      (0 + ∑ l ∈ range cfg.sig.length, (match cfg.sigAt l with
        | .sine a ω p _ => cfg.sys.B n l * (a * Real.sin (ω * (st.t + τ) + p))
        | .pw _ => 0)) +
      (∑ l ∈ range cfg.sig.length, (match cfg.sigAt l with
        | .sine _ _ _ _ => 0
        | .pw f => cfg.sys.B n l * f (st.t + cfg.dc.T))) +
      (∑ m, dot cfg.sys.M G (asVec (impulseResponse cfg.dc m τ)).v n * (2 * c.s m - 1)) =
      dot cfg.sys.L cfg.sys.B (cfg.full.input (st.ticks + 1) (τ + st.t)) n +
        dot cfg.sys.M G (asVec (contribution cfg.dc c τ)).v n := by
    intro τ hτ n hn
    congr 1
    · rw [zero_add, ← Finset.sum_add_distrib]
      unfold dot
      rw [hL]
      refine Finset.sum_congr rfl fun l hl => ?_
      rw [Finset.mem_range] at hl
      show _ = cfg.sys.B n l * (cfg.sigAt l).eval (τ + st.t)
      cases hs : cfg.sigAt l with
      | sine a ω p o =>
        have := hoff l hl a ω p o hs
        subst this
        dsimp only [Sig.eval]
        rw [add_zero, add_zero, add_comm st.t τ]
      | pw f =>
        dsimp only [Sig.eval]
        rw [zero_add, add_comm τ st.t, hpw l hl f hs (st.t + τ) ⟨by linarith [hτ.1], by linarith [hτ.2]⟩]
    · unfold dot
      simp only [Finset.sum_mul]
      rw [Finset.sum_comm]
      refine Finset.sum_congr rfl fun i hi => ?_
      have hiM : i < M := by rw [← hM]; exact Finset.mem_range.mp hi
      have e1 : (asVec (contribution cfg.dc c τ)).v i = (cfg.dc.ir ⟨i, hiM⟩).f τ * (2 * c.s ⟨i, hiM⟩ - 1) := by
        show (if h : i < M then contribution cfg.dc c τ ⟨i, h⟩ else 0) = _
        rw [dif_pos hiM, hcontrib τ hτ]
      have e2 : ∀ m, (asVec (impulseResponse cfg.dc m τ)).v i =
          if (⟨i, hiM⟩ : Fin M) = m then (cfg.dc.ir m).f τ else 0 := by
        intro m
        show (if h : i < M then impulseResponse cfg.dc m τ ⟨i, h⟩ else 0) = _
        rw [dif_pos hiM]
        unfold impulseResponse
        by_cases hm : (⟨i, hiM⟩ : Fin M) = m
        · rw [if_pos ⟨hm, hτ.1, hτ.2.le⟩, if_pos hm]
        · rw [if_neg (fun h => hm h.1), if_neg hm]
      rw [e1, Finset.sum_eq_single (⟨i, hiM⟩ : Fin M)]
      · rw [e2, if_pos rfl]; ring
      · intro m _ hm
        rw [e2, if_neg (fun h => hm h.symm)]; ring
      · intro h; exact absurd (Finset.mem_univ _) h
  have hsol := htot.congr hforce
  have hstart : ∀ n < cfg.sys.N, matVec (expAT cfg.sys 0) (fun i => st.x i - cfg.sines (st.t + 0) i) n +
      cfg.sines (st.t + 0) n + (∑ l ∈ range cfg.sig.length, match cfg.sigAt l with
        | .sine _ _ _ _ => 0
        | .pw f => π l 0 n * f (st.t + cfg.dc.T)) + (∑ m, χ m 0 n * (2 * c.s m - 1)) = st.x n := by
    intro n hn
    rw [exp_zero _ _ _ hn]
    have z1 : (∑ l ∈ range cfg.sig.length, match cfg.sigAt l with
        | .sine _ _ _ _ => 0
        | .pw f => π l 0 n * f (st.t + cfg.dc.T)) = 0 := by
      refine Finset.sum_eq_zero fun l hl => ?_
      rw [Finset.mem_range] at hl
      cases cfg.sigAt l with
      | sine a ω p o => rfl
      | pw f =>
        dsimp only
        rw [(hπ l hl).1.start n hn, zero_mul]
    have z2 : (∑ m, χ m 0 n * (2 * c.s m - 1)) = 0 :=
      Finset.sum_eq_zero fun m _ => by rw [(hχ m).start n hn, zero_mul]
    rw [z1, z2]
    ring
  have hend : ∀ n < cfg.sys.N, st'.x n =
      matVec (expAT cfg.sys cfg.dc.T) (fun i => st.x i - cfg.sines (st.t + 0) i) n +
      cfg.sines (st.t + cfg.dc.T) n + (∑ l ∈ range cfg.sig.length, match cfg.sigAt l with
        | .sine _ _ _ _ => 0
        | .pw f => π l cfg.dc.T n * f (st.t + cfg.dc.T)) + (∑ m, χ m cfg.dc.T n * (2 * c.s m - 1)) := by
    intro n hn
    rw [hst']
    dsimp only
    rw [matVec_sub]
    have z1 : cfg.pieces pw st.t n = (∑ l ∈ range cfg.sig.length, match cfg.sigAt l with
        | .sine _ _ _ _ => 0
        | .pw f => π l cfg.dc.T n * f (st.t + cfg.dc.T)) := by
      refine Finset.sum_congr rfl fun l hl => ?_
      rw [Finset.mem_range] at hl
      cases cfg.sigAt l with
      | sine a ω p o => rfl
      | pw f =>
        dsimp only
        rw [(hπ l hl).2 n hn]
    have z2 : (∑ m : Fin M, ctrl n m * (2 * c.s m - 1)) = ∑ m, χ m cfg.dc.T n * (2 * c.s m - 1) :=
      Finset.sum_congr rfl fun m _ => by rw [hχT m n hn]
    rw [z1, z2]
    ring
  have hc' : st'.c = c := by rw [hst']
  have hperiod : Period cfg.full st (fun τ n =>
      matVec (expAT cfg.sys τ) (fun i => st.x i - cfg.sines (st.t + 0) i) n + cfg.sines (st.t + τ) n +
        (∑ l ∈ range cfg.sig.length, match cfg.sigAt l with
          | .sine _ _ _ _ => 0
          | .pw f => π l τ n * f (st.t + cfg.dc.T)) + (∑ m, χ m τ n * (2 * c.s m - 1)))
      { st' with ticks := st.ticks + 1 } :=
    Period.of_sol hin G hG hM (by dsimp only; rw [hc']; exact hdec) (by dsimp only; rw [hc']; exact hsol)
      hstart hend rfl (by rw [hst']; rfl)
  refine ⟨⟨_, hperiod⟩, ?_⟩
  intro φ st'' hp
  have hcc : st''.c = c := by
    have := hp.dec
    rw [hdec] at this
    exact (Except.ok.inj this).symm
  refine ⟨?_, by rw [hcc, hc'], by rw [hp.time, hst']; rfl⟩
  intro n hn
  have s1 := hp.sol hin G hG
  have s2 := hperiod.sol hin G hG
  dsimp only at s2
  rw [hc'] at s2
  rw [hcc] at s1
  have := s1.unique s2 (fun n hn => by rw [hp.start n hn, hperiod.start n hn]) cfg.dc.T ⟨hT.le, le_refl _⟩ n hn
  rw [hp.stop n hn]
  exact this.trans (hperiod.stop n hn).symm

/-! ### C30 -/

/-- invariant: the arrays of the simulator are allocated -/
def Mem.Wf (m : Mem) : Prop := m.xAddr < m.fresh ∧ m.sAddr < m.fresh ∧ m.xAddr ≠ m.sAddr

theorem tick_wf (m : Mem) (h : m.Wf) (k : Tick) : (m.tick k).Wf ∧ m.fresh ≤ (m.tick k).fresh := by
  obtain ⟨h1, h2, h3⟩ := h
  unfold Mem.tick Mem.Wf
  split_ifs <;> dsimp only <;> omega

theorem extended_wf (m : Mem) (h : m.Wf) (k : Tick) :
    (m.extended k).1.Wf ∧ m.fresh ≤ (m.extended k).1.fresh := by
  have ⟨⟨h1, h2, h3⟩, h4⟩ := tick_wf m h k
  unfold Mem.extended Mem.Wf
  dsimp only
  omega

theorem tick_values (m : Mem) (h : m.Wf) (k : Tick) :
    (m.tick k).heap (m.tick k).sAddr = k.s ∧ (m.tick k).heap (m.tick k).xAddr = k.x ∧ (m.tick k).t = k.t := by
  obtain ⟨h1, h2, h3⟩ := h
  unfold Mem.tick
  split_ifs <;> dsimp only [Mem.write] <;> refine ⟨by rw [if_pos rfl], ?_, rfl⟩
  · rw [if_neg (by omega), if_pos rfl]
  · rw [if_neg h3, if_pos rfl]

theorem tick_keeps (m : Mem) (k : Tick) (a : ℕ) (ha : a < m.fresh) (hx : a ≠ m.xAddr)
    (hs : a ≠ m.sAddr) : (m.tick k).heap a = m.heap a ∧ a ≠ (m.tick k).xAddr ∧ a ≠ (m.tick k).sAddr := by
  unfold Mem.tick
  split_ifs
  · dsimp only [Mem.write]
    rw [if_neg hs, if_neg (by omega)]
    exact ⟨rfl, by omega, hs⟩
  · dsimp only [Mem.write]
    rw [if_neg hs, if_neg hx]
    exact ⟨rfl, hx, hs⟩

theorem extended_keeps (m : Mem) (h : m.Wf) (k : Tick) (a : ℕ) (ha : a < m.fresh) (hx : a ≠ m.xAddr)
    (hs : a ≠ m.sAddr) : (m.extended k).1.heap a = m.heap a ∧ a ≠ (m.extended k).1.xAddr ∧
      a ≠ (m.extended k).1.sAddr := by
  obtain ⟨h1, h2, h3⟩ := tick_keeps m k a ha hx hs
  have h4 := (tick_wf m h k).2
  unfold Mem.extended
  dsimp only [Mem.write]
  rw [if_neg (by omega), if_neg (by omega)]
  exact ⟨h1, h2, h3⟩

theorem collect_keeps (ks : List Tick) (m : Mem) (h : m.Wf) (a : ℕ) (ha : a < m.fresh) (hx : a ≠ m.xAddr)
    (hs : a ≠ m.sAddr) : (m.collect ks).1.heap a = m.heap a := by
  induction ks generalizing m with
  | nil => rfl
  | cons k ks ih =>
    obtain ⟨h1, h2, h3⟩ := extended_keeps m h k a ha hx hs
    have hw := extended_wf m h k
    show ((m.extended k).1.collect ks).1.heap a = _
    rw [ih _ hw.1 (by omega) h2 h3, h1]

/-- C30: collect any number of items of `extended_simulation_result`, from any simulator; after all steps the
`k`-th item still holds the control vector, the analog state and the time right after the `k`-th step. -/
theorem C30_items (ks : List Tick) (m : Mem) (h : m.Wf) :
    (m.collect ks).2.map (fun i => ((m.collect ks).1.heap i.ctrl, (m.collect ks).1.heap i.state, i.t)) =
      ks.map fun k => (k.s, k.x, k.t) := by
  induction ks generalizing m with
  | nil => rfl
  | cons k ks ih =>
    have hw := extended_wf m h k
    have hi := ih _ hw.1
    obtain ⟨v1, v2, v3⟩ := tick_values m h k
    obtain ⟨⟨w1, w2, w3⟩, w4⟩ := tick_wf m h k
    have hk1 := collect_keeps ks (m.extended k).1 hw.1 (m.tick k).fresh
      (by show _ < (m.tick k).fresh + 2; omega) (by show _ ≠ (m.tick k).xAddr; omega)
      (by show _ ≠ (m.tick k).sAddr; omega)
    have hk2 := collect_keeps ks (m.extended k).1 hw.1 ((m.tick k).fresh + 1)
      (by show _ < (m.tick k).fresh + 2; omega) (by show _ ≠ (m.tick k).xAddr; omega)
      (by show _ ≠ (m.tick k).sAddr; omega)
    show (((m.extended k).1.collect ks).1.heap (m.tick k).fresh,
      ((m.extended k).1.collect ks).1.heap ((m.tick k).fresh + 1), (m.tick k).t) :: _ = _
    rw [hk1, hk2, v3]
    refine congrArg₂ List.cons ?_ hi
    refine Prod.ext ?_ (Prod.ext ?_ rfl)
    · show (m.extended k).1.heap (m.tick k).fresh = k.s
      unfold Mem.extended
      dsimp only [Mem.write]
      rw [if_neg (by omega), if_pos rfl, v1]
    · show (m.extended k).1.heap ((m.tick k).fresh + 1) = k.x
      unfold Mem.extended
      dsimp only [Mem.write]
      rw [if_pos rfl, v2]

/-- a memory with the two arrays of a simulator meets the hypothesis of `C30_items` -/
example : (Mem.mk (fun _ => [0]) 2 0 1 0).Wf ∧
    ((Mem.mk (fun _ => [0]) 2 0 1 0).collect [⟨[1], [0], false, 1⟩, ⟨[2], [1], true, 2⟩]).2.length = 2 := by
  constructor
  · exact ⟨by decide, by decide, by decide⟩
  · rfl

end Cbadc.Simulate
