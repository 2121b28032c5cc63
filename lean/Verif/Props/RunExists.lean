import Verif.Lemmas.RunExists
import Verif.Props.Existence

/-! # Every consistent set-up can be simulated (C148) -/

namespace Cbadc.Simulate

open Set Cbadc.Analog Cbadc.Control Cbadc.Filter Cbadc.Filter.Spec

variable {M : ℕ}

/-- A set-up fits together (specification): the analog system has a control input matrix with one column and a control observation
matrix with at least one row for each control. -/
structure Fits (cfg : Cfg M) : Prop where
  gamma : cfg.sys.Gamma ≠ none
  controls : cfg.sys.M = M
  gammaT : cfg.sys.GammaT ≠ none
  observed : M ≤ cfg.sys.Mt

/-- **C148** If the set-up fits together, with any waveforms of the library and continuous input signals, then every call of
`__next__` succeeds, whatever the state: the differential equation of the period has a solution. -/
theorem C148_period (cfg : Cfg M) (hT : 0 ≤ cfg.dc.T) (hw : ∀ m, ∃ d : Dac, (cfg.dc.ir m).f = d.eval)
    (hu : ∀ k l, Continuous fun t => cfg.input k t l) (h : Fits cfg) (st : St M) : ∃ φ st', Period cfg st φ st' := by
  have hw' : ∀ m T, Waveform T (cfg.dc.ir m).f := fun m T => by
    obtain ⟨d, hd⟩ := hw m
    rw [hd]
    exact C147_waveforms d T
  obtain ⟨G, hG⟩ := Option.ne_none_iff_exists'.1 h.gamma
  obtain ⟨GT, hGT⟩ := Option.ne_none_iff_exists'.1 h.gammaT
  obtain ⟨c, hc⟩ : ∃ c, cfg.decide st = .ok c := by
    obtain ⟨y, hy⟩ := (observation_ok cfg.sys ⟨cfg.sys.N, st.x⟩ (cfg.u0 st) (asVec (contribution cfg.dc st.c 0)) rfl rfl h.controls.symm).2
      h.gammaT
    refine ⟨_, (decide_ok cfg st _).2 ⟨y, hy, ?_, rfl⟩⟩
    have hl : y.len = cfg.sys.Mt := by
      unfold Sys.controlObservation at hy
      rw [hGT] at hy
      simp only [npDot, asVec, Cfg.u0, ne_eq, not_true_eq_false, if_false, h.controls, bind, Except.bind, npAdd, Except.ok.injEq] at hy
      rw [← hy]
    rw [hl]
    exact h.observed
  have hC : ∀ n, Waveform cfg.dc.T fun τ => dot cfg.sys.M G (asVec (contribution cfg.dc c τ)).v n := fun n => by
    refine Waveform.sum _ fun m _ => (Waveform.const _ _).mul ?_
    show Waveform cfg.dc.T fun τ => if h : m < M then contribution cfg.dc c τ ⟨m, h⟩ else 0
    by_cases hm : m < M
    · simp only [dif_pos hm]
      exact contribution_waveform cfg.dc hT hw' c _ _
    · simp only [dif_neg hm]
      exact Waveform.const _ _
  cases hin : cfg.hasInput with
  | true =>
    have hv : ∀ n < cfg.sys.N, Waveform cfg.dc.T fun τ => dot cfg.sys.L cfg.sys.B (cfg.input (st.ticks + 1) (τ + st.t)) n +
        dot cfg.sys.M G (asVec (contribution cfg.dc c τ)).v n := fun n _ => by
      refine Waveform.add (Waveform.sum _ fun l _ => (Waveform.const _ _).mul (Waveform.of_continuous ?_)) (hC n)
      exact (hu (st.ticks + 1) l).comp (continuous_id.add continuous_const)
    obtain ⟨φ, hφ, h0⟩ := sol_exists cfg.sys.N cfg.sys.A (v := fun τ n => dot cfg.sys.L cfg.sys.B (cfg.input (st.ticks + 1) (τ + st.t)) n +
      dot cfg.sys.M G (asVec (contribution cfg.dc c τ)).v n) hv st.x
    exact ⟨φ, ⟨st.ticks + 1, st.t + cfg.dc.T, φ cfg.dc.T, c⟩, Period.of_sol hin G hG h.controls hc hφ h0 (fun _ _ => rfl) rfl rfl⟩
  | false =>
    obtain ⟨φ, hφ, h0⟩ := sol_exists cfg.sys.N (fun _ _ => 0) (v := fun τ n => dot cfg.sys.N cfg.sys.A st.x n +
      dot cfg.sys.M G (asVec (contribution cfg.dc c τ)).v n) (T := cfg.dc.T) (fun n _ => (Waveform.const _ _).add (hC n)) st.x
    refine ⟨φ, ⟨st.ticks, st.t + cfg.dc.T, φ cfg.dc.T, c⟩, hc, h0, hφ.cont, fun τ hτ => ?_, fun _ _ => rfl, by rw [hin]; rfl, rfl⟩
    refine ⟨⟨cfg.sys.N, fun n => dot cfg.sys.N cfg.sys.A st.x n + dot cfg.sys.M G (asVec (contribution cfg.dc c τ)).v n⟩, ?_, fun n hn => ?_⟩
    · unfold Cfg.rhs
      rw [hin, if_neg Bool.false_ne_true, hG]
      unfold npDot
      rw [if_neg (by simp)]
      dsimp only [bind, Except.bind]
      rw [if_neg (by simp [asVec, h.controls])]
      rfl
    · refine (hφ.ode τ hτ n hn).congr_deriv ?_
      unfold dot
      simp

/-- **C148** If the set-up does not fit together, then no call of `__next__` succeeds. -/
theorem C148_stuck (cfg : Cfg M) (hT : 0 < cfg.dc.T) (h : ¬ Fits cfg) (st : St M) (φ : ℝ → ℕ → ℝ) (st' : St M) : ¬ Period cfg st φ st' := by
  intro hp
  refine h ?_
  obtain ⟨d, hd, -⟩ := hp.ode 0 ⟨le_refl _, hT⟩
  have hg : cfg.sys.Gamma ≠ none ∧ cfg.sys.M = M := by
    cases hin : cfg.hasInput with
    | true =>
      obtain ⟨G, hG, hM, -⟩ := rhs_input cfg hin _ _ _ _ _ hd
      exact ⟨by simp [hG], hM⟩
    | false =>
      unfold Cfg.rhs at hd
      rw [hin, if_neg Bool.false_ne_true] at hd
      unfold npDot at hd
      rw [if_neg (by simp)] at hd
      dsimp only [bind, Except.bind] at hd
      cases hG : cfg.sys.Gamma with
      | none => rw [hG] at hd; cases hd
      | some G =>
        rw [hG] at hd
        dsimp only at hd
        by_cases hM : (asVec (contribution cfg.dc st'.c 0)).len ≠ cfg.sys.M
        · rw [if_pos hM] at hd; cases hd
        · exact ⟨by simp, (not_not.1 hM).symm⟩
  obtain ⟨y, hy, hl, -⟩ := (decide_ok cfg st _).1 hp.dec
  have hGT := (observation_ok cfg.sys ⟨cfg.sys.N, st.x⟩ (cfg.u0 st) (asVec (contribution cfg.dc st.c 0)) rfl rfl hg.2.symm).1 ⟨y, hy⟩
  refine ⟨hg.1, hg.2, hGT, ?_⟩
  obtain ⟨GT, hGT⟩ := Option.ne_none_iff_exists'.1 hGT
  unfold Sys.controlObservation at hy
  rw [hGT] at hy
  simp only [npDot, asVec, Cfg.u0, ne_eq, not_true_eq_false, if_false, hg.2, bind, Except.bind, npAdd, Except.ok.injEq] at hy
  rw [← hy] at hl
  exact hl

/-- **C148** The simulation goes on for ever, from every state the simulator is given. -/
theorem C148_run (cfg : Cfg M) (hT : 0 ≤ cfg.dc.T) (hw : ∀ m, ∃ d : Dac, (cfg.dc.ir m).f = d.eval)
    (hu : ∀ k l, Continuous fun t => cfg.input k t l) (h : Fits cfg) (s0 : St M) : ∃ st φ, st 0 = s0 ∧ Run cfg st φ := by
  choose φ nx hn using C148_period cfg hT hw hu h
  exact ⟨fun k => nx^[k] s0, fun k => φ (nx^[k] s0), rfl, fun k => by
    beta_reduce
    rw [Function.iterate_succ_apply']
    exact hn _⟩

/-- `C148_stuck`: a system without control observation cannot be simulated -/
example : ¬ Fits (⟨{ exSys 0 with GammaT := none }, exDC 0 (.step 0 1), fun _ _ _ => 0, true⟩ : Cfg 1) := fun h => h.gammaT rfl

/-- `C148_period` -/
example : Fits (⟨exSys 0, exDC 0 (.nrz 0 (1 / 2) 2), fun _ t _ => Real.sin t, true⟩ : Cfg 1) :=
  ⟨by simp, rfl, by simp, le_refl _⟩

end Cbadc.Simulate

namespace Cbadc.EndToEnd

open Matrix Set Filter.Spec Cbadc.Analog Cbadc.Analog.Spec Cbadc.Control Cbadc.Estimator Cbadc.Simulate Cbadc.Filter Cbadc.Streams

/-- **C148** Every chain of integrators and every leap-frog structure fits a digital control with one control per integrator. -/
theorem C148_structures (beta alpha rho : List ℝ) (kappa : ℕ → ℕ → ℝ) (hb : beta ≠ []) (ha : alpha.length + 1 = beta.length)
    (hr : rho.length = beta.length) (cfg : Cfg beta.length) (h : chainOfIntegrators beta rho (.mat beta.length 1 kappa) = .ok cfg.sys ∨
      leapFrog beta alpha rho (.mat beta.length 1 kappa) = .ok cfg.sys) : Fits cfg := by
  rcases h with h | h
  · rw [chain_eq beta rho hb hr, Except.ok.injEq] at h
    exact ⟨by rw [← h]; simp, by rw [← h], by rw [← h]; simp, by rw [← h]⟩
  · rw [leap_eq beta alpha rho hb ha hr, Except.ok.injEq] at h
    exact ⟨by rw [← h]; simp, by rw [← h], by rw [← h]; simp, by rw [← h]⟩

/-- **C148** The converter of C143, without any assumption on simulation or filters: for a chain of integrators with strong enough
control and a continuous input within the unit interval, every `eta2 > 0` and every start within the unit box, there are filter
coefficients and there is a simulation from that start, and the estimates from its control signals have an error of bounded energy per
period. -/
theorem C148_converter (beta rho : List ℝ) (kappa : ℕ → ℕ → ℝ) (hb : beta ≠ []) (hrl : rho.length = beta.length) (hb0 : ∀ b ∈ beta, b ≠ 0)
    (cfg : Cfg beta.length) (hsys : chainOfIntegrators beta rho (.mat beta.length 1 kappa) = .ok cfg.sys)
    (T tt2 : ℝ) (hT : 0 < T) (h2 : 0 ≤ tt2) (hdc : DC.new T tt2 beta.length none 0 none = .ok cfg.dc) (hin : cfg.hasInput = true)
    (hu : ∀ k t, |cfg.input k t 0| ≤ 1) (hcont : ∀ k l, Continuous fun t => cfg.input k t l)
    (hκ : ∀ n < beta.length, kappa n 0 ≠ 0) (hrho : ∀ n < beta.length, rho.getD n 0 ≤ 0)
    (hdom : ∀ n < beta.length, |beta.getD n 0| ≤ |kappa n 0|) (hκT : ∀ n < beta.length, |kappa n 0| * T ≤ 1 / 2)
    {G : ℕ → ℕ → ℝ} (hG : cfg.sys.Gamma = some G) {eta2 : ℝ} (he : 0 < eta2) :
    ∃ Vf Vb, ∃ c : Coeffs ℝ cfg.sys.N beta.length cfg.sys.L, ∃ E : ℝ, Numerical cfg.sys G cfg.dc eta2 Vf Vb c ∧
      ∀ s0 : St beta.length, InBox beta.length s0.x → ∃ st φ, st 0 = s0 ∧ Run cfg st φ ∧ ∀ K : ℕ,
      ∃ u, (∀ k ≤ K, u k 0 = Cbadc.Spec.future c.WT c.Ab c.Bb (Cbadc.Spec.ext fun k => signal (st (k + 1)).c) k (K - k) -
          Cbadc.Spec.past c.WT c.Af c.Bf (Cbadc.Spec.ext fun k => signal (st (k + 1)).c) k k) ∧
        ErrorWithin (toM cfg.sys.N cfg.sys.N cfg.sys.A) (toM cfg.sys.N cfg.sys.L cfg.sys.B) (toM cfg.sys.Nt cfg.sys.N cfg.sys.CT) T K
          (fun k t l => cfg.input ((st k).ticks + 1) (t + (st k).t) l) u (K * T * (eta2 + beta.length) + E) := by
  obtain ⟨Vf, Vb, c, E, hn, -, -, hE⟩ := C147_converter beta rho kappa hb hrl hb0 cfg hsys T tt2 hT h2 hdc hin hu hcont hκ hrho hdom hκT hG he
  refine ⟨Vf, Vb, c, E, hn, fun s0 hbox => ?_⟩
  have hf : Fits cfg := C148_structures beta beta.tail rho kappa hb (by
    rw [List.length_tail]
    have := List.length_pos_iff.2 hb
    omega) hrl cfg (.inl hsys)
  have hcT := plain_T T tt2 cfg.dc hdc
  obtain ⟨st, φ, h0, hr⟩ := C148_run cfg (hcT ▸ hT.le) (fun m => ⟨.step 0 1, by
    have hd : cfg.dc = ⟨T, tt2, 0, fun _ => stepResponse 0, fun _ => 0⟩ := by
      have h := hdc
      simp only [DC.new, initIR, initOffsets, lt_self_iff_false, if_false, Except.ok.injEq] at h
      exact h.symm
    rw [hd]
    rfl⟩) hcont hf s0
  exact ⟨st, φ, h0, hr, hE st φ hr (h0 ▸ hbox)⟩

/-- a second-order converter with an input that is a sinusoid meets the hypotheses -/
example : ∃ (cfg : Cfg 2), chainOfIntegrators [1, 1] [0, 0] (.mat 2 1 fun _ _ => -1) = .ok cfg.sys ∧
    DC.new (1 / 2) 0 2 none 0 none = .ok cfg.dc ∧ cfg.hasInput = true ∧ (∀ k t, |cfg.input k t 0| ≤ 1) ∧
    (∀ k l, Continuous fun t => cfg.input k t l) ∧ (∀ n < 2, |([1, 1] : List ℝ).getD n 0| ≤ |(-1 : ℝ)|) ∧ |(-1 : ℝ)| * (1 / 2) ≤ 1 / 2 ∧
    cfg.sys.Gamma ≠ none :=
  ⟨⟨_, ⟨1 / 2, 0, 0, fun _ => stepResponse 0, fun _ => 0⟩, fun _ t _ => Real.sin t, true⟩, chain_eq [1, 1] [0, 0] (by simp) rfl _,
    by simp [DC.new, initIR, initOffsets], rfl, fun _ t => Real.abs_sin_le_one t, fun _ _ => Real.continuous_sin, fun n hn => by
      interval_cases n <;> simp, by norm_num, by simp⟩

/-- **C148** The same for a leap-frog structure. -/
theorem C148_leap_frog (beta alpha rho : List ℝ) (kappa : ℕ → ℕ → ℝ) (hb : beta ≠ []) (ha : alpha.length + 1 = beta.length)
    (hrl : rho.length = beta.length) (hb0 : ∀ b ∈ beta, b ≠ 0)
    (cfg : Cfg beta.length) (hsys : leapFrog beta alpha rho (.mat beta.length 1 kappa) = .ok cfg.sys)
    (T tt2 : ℝ) (hT : 0 < T) (h2 : 0 ≤ tt2) (hdc : DC.new T tt2 beta.length none 0 none = .ok cfg.dc) (hin : cfg.hasInput = true)
    (hu : ∀ k t, |cfg.input k t 0| ≤ 1) (hcont : ∀ k l, Continuous fun t => cfg.input k t l)
    (hκ : ∀ n < beta.length, kappa n 0 ≠ 0) (hrho : ∀ n < beta.length, rho.getD n 0 ≤ 0)
    (hdom : ∀ n < beta.length, |beta.getD n 0| + |alpha.getD n 0| ≤ |kappa n 0|) (hκT : ∀ n < beta.length, |kappa n 0| * T ≤ 1 / 2)
    {G : ℕ → ℕ → ℝ} (hG : cfg.sys.Gamma = some G) {eta2 : ℝ} (he : 0 < eta2) :
    ∃ Vf Vb, ∃ c : Coeffs ℝ cfg.sys.N beta.length cfg.sys.L, ∃ E : ℝ, Numerical cfg.sys G cfg.dc eta2 Vf Vb c ∧
      Filter.Tendsto (fun k : ℕ => c.Af ^ k) Filter.atTop (nhds 0) ∧ Filter.Tendsto (fun k : ℕ => c.Ab ^ k) Filter.atTop (nhds 0) ∧
      (∀ s0 : St beta.length, ∃ st φ, st 0 = s0 ∧ Run cfg st φ) ∧
      ∀ st φ, InBox beta.length (st 0).x → Run cfg st φ → ∀ K : ℕ,
      ∃ u, (∀ k ≤ K, u k 0 = Cbadc.Spec.future c.WT c.Ab c.Bb (Cbadc.Spec.ext fun k => signal (st (k + 1)).c) k (K - k) -
          Cbadc.Spec.past c.WT c.Af c.Bf (Cbadc.Spec.ext fun k => signal (st (k + 1)).c) k k) ∧
        ErrorWithin (toM cfg.sys.N cfg.sys.N cfg.sys.A) (toM cfg.sys.N cfg.sys.L cfg.sys.B) (toM cfg.sys.Nt cfg.sys.N cfg.sys.CT) T K
          (fun k t l => cfg.input ((st k).ticks + 1) (t + (st k).t) l) u (K * T * (eta2 + beta.length) + E) := by
  have hro := C144_leap_frog beta alpha rho kappa hb ha hrl cfg.sys hsys
  have hreach := hro.1.2 hb0
  have hd : cfg.dc = ⟨T, tt2, 0, fun _ => stepResponse 0, fun _ => 0⟩ := by
    have h := hdc
    simp only [DC.new, initIR, initOffsets, lt_self_iff_false, if_false, Except.ok.injEq] at h
    exact h.symm
  have hcT : cfg.dc.T = T := plain_T T tt2 cfg.dc hdc
  have hwf : ∀ m, Waveform cfg.dc.T (cfg.dc.ir m).f := fun m => by
    rw [hd]
    exact default_waveform T
  obtain ⟨Vf, Vb, c, ⟨hf, hb', hn⟩, -⟩ := C147_coefficients he hreach hro.2 G cfg.dc (hcT ▸ hT.le) hwf
  obtain ⟨-, pf, pb, -, -, hp⟩ := C144_filters (c := c) hf hb' he hreach
  obtain ⟨p1, p2⟩ := hp _ (hcT ▸ hT) hn.common
  refine ⟨Vf, Vb, c, _, hn, p1, p2, fun s0 => ?_, fun st φ hbox hrun K => C143_leap_frog beta alpha rho kappa hb ha hrl cfg hsys T tt2 hT h2
    hdc hin hu hcont hκ hrho hdom hκT st φ hrun hbox hG hn he pf pb K⟩
  exact C148_run cfg (hcT ▸ hT.le) (fun m => ⟨.step 0 1, by rw [hd]; rfl⟩) hcont
    (C148_structures beta alpha rho kappa hb ha hrl cfg (.inr hsys)) s0

/-- a third-order leap-frog converter meets the hypotheses -/
example : ∃ (cfg : Cfg 3), leapFrog [1, 1, 1] [-1, -1] [0, 0, 0] (.mat 3 1 fun _ _ => -2) = .ok cfg.sys ∧
    DC.new (1 / 4) 0 3 none 0 none = .ok cfg.dc ∧ cfg.hasInput = true ∧ (∀ k t, |cfg.input k t 0| ≤ 1) ∧
    (∀ k l, Continuous fun t => cfg.input k t l) ∧
    (∀ n < 3, |([1, 1, 1] : List ℝ).getD n 0| + |([-1, -1] : List ℝ).getD n 0| ≤ |(-2 : ℝ)|) ∧ |(-2 : ℝ)| * (1 / 4) ≤ 1 / 2 ∧
    cfg.sys.Gamma ≠ none :=
  ⟨⟨_, ⟨1 / 4, 0, 0, fun _ => stepResponse 0, fun _ => 0⟩, fun _ t _ => Real.sin t, true⟩, leap_eq [1, 1, 1] [-1, -1] [0, 0, 0] (by simp) rfl rfl _,
    by simp [DC.new, initIR, initOffsets], rfl, fun _ t => Real.abs_sin_le_one t, fun _ _ => Real.continuous_sin, fun n hn => by
      interval_cases n <;> norm_num, by norm_num, by simp⟩

end Cbadc.EndToEnd
