import Verif.Lemmas.Noise
import Verif.Props.Bounded
import Verif.Props.PreComputed
import Verif.Props.RunExists

/-! # Thermal noise in the simulators (C154) -/

namespace Cbadc.Simulate
open Matrix MeasureTheory ProbabilityTheory Cbadc.Analog Cbadc.Analog.Spec Cbadc.Control Cbadc.Filter

variable {M : ℕ} {Ω : Type} [MeasurableSpace Ω]

/-- **C154** A matrix is accepted exactly if it is square and what is read of it, the diagonal and the part below, makes a
positive definite matrix.  The simulator then works with the only lower triangular matrix with positive diagonal whose
product with its own transpose is that matrix. -/
theorem C154_accepts (r c : ℕ) (a : ℕ → ℕ → ℝ) :
    ((∃ dev, deviation (some ⟨r, c, a⟩) = .ok dev) ↔
      r = c ∧ (Matrix.of fun i j : Fin r => if j ≤ i then a i j else a j i).PosDef) ∧
    ∀ dev, deviation (some ⟨r, c, a⟩) = .ok dev ↔ r = c ∧ ∃ L : Matrix (Fin r) (Fin r) ℝ, dev = some ⟨r, L⟩ ∧
      (∀ i j, i < j → L i j = 0) ∧ (∀ i, 0 < L i i) ∧ ∀ i j, j ≤ i → (L * Lᵀ) i j = a i j := by
  have key : ∀ L : Matrix (Fin r) (Fin r) ℝ, IsCholesky (Matrix.of fun i j : Fin r => a i j) L ↔
      (∀ i j, i < j → L i j = 0) ∧ (∀ i, 0 < L i i) ∧ ∀ i j, j ≤ i → (L * Lᵀ) i j = a i j := by
    intro L
    constructor
    · rintro ⟨h1, h2, h3⟩
      refine ⟨h1, h2, fun i j hij => ?_⟩
      rw [h3]
      exact if_pos hij
    · rintro ⟨h1, h2, h3⟩
      refine ⟨h1, h2, ?_⟩
      ext i j
      unfold lowerSym
      rw [Matrix.of_apply]
      split_ifs with hij
      · exact h3 i j hij
      · rw [Matrix.of_apply, ← h3 j i (not_le.1 hij).le, ← Matrix.transpose_apply (L * Lᵀ), Matrix.transpose_mul, Matrix.transpose_transpose]
  have main : ∀ dev, deviation (some ⟨r, c, a⟩) = .ok dev ↔ r = c ∧ ∃ L : Matrix (Fin r) (Fin r) ℝ, dev = some ⟨r, L⟩ ∧
      IsCholesky (Matrix.of fun i j : Fin r => a i j) L := by
    intro dev
    unfold deviation
    dsimp only
    by_cases hrc : r = c
    · rw [if_neg (by simp [hrc])]
      constructor
      · intro h
        cases hL : cholesky (Matrix.of fun i j : Fin r => a i j) with
        | error e => rw [hL] at h; cases h
        | ok L =>
          rw [hL] at h
          exact ⟨hrc, L, (Except.ok.inj h).symm, cholesky_ok.1 hL⟩
      · rintro ⟨-, L, rfl, h⟩
        rw [cholesky_ok.2 h]
    · rw [if_pos hrc]
      exact ⟨fun h => (by cases h), fun h => absurd h.1 hrc⟩
  refine ⟨?_, fun dev => ?_⟩
  · have := cholesky_exists (Matrix.of fun i j : Fin r => a i j)
    change _ ↔ r = c ∧ (lowerSym (Matrix.of fun i j : Fin r => a i j)).PosDef
    rw [← this]
    constructor
    · rintro ⟨dev, h⟩
      obtain ⟨h1, L, -, h2⟩ := (main dev).1 h
      exact ⟨h1, L, h2⟩
    · rintro ⟨h1, L, h2⟩
      exact ⟨_, (main _).2 ⟨h1, L, rfl, h2⟩⟩
  · rw [main]
    simp only [key]

/-- what the noise adds in a period -/
theorem kick_ok {N : ℕ} {T : ℝ} {P : ℕ} {L : Matrix (Fin P) (Fin P) ℝ} {draw x x' : ℕ → ℝ}
    (h : kick N T (some ⟨P, L⟩) draw x = .ok x') :
    P = N ∧ ∀ n (hn : n < P), x' n = x n + (∑ c, L ⟨n, hn⟩ c * draw c) * T := by
  unfold kick at h
  dsimp only at h
  by_cases hP : P = N
  · rw [if_neg (by simp [hP]), Except.ok.injEq] at h
    refine ⟨hP, fun n hn => ?_⟩
    rw [← h]
    beta_reduce
    rw [dif_pos hn]
  · rw [if_pos hP] at h
    cases h

/-- **C154** Without the argument the simulation is the one without noise. -/
theorem C154_none (cfg : Cfg M) (draw : ℕ → ℕ → ℝ) (st : ℕ → St M) (φ : ℕ → ℝ → ℕ → ℝ) (dev : Deviation)
    (h : deviation none = .ok dev) : NRun cfg dev draw st φ ↔ Run cfg st φ := by
  cases h
  refine forall_congr' fun k => ⟨fun ⟨x, hp, hk⟩ => ?_, fun hp => ⟨⟨_, hp, rfl⟩⟩⟩
  cases hk
  exact hp

/-- **C154** The noise changes nothing but the state at the end of each period, where a vector is added that does not depend on
the state, the input or the decisions. -/
theorem C154_added (cfg : Cfg M) (arg : CovArg) (dev : Deviation) (hdev : deviation (some arg) = .ok dev) (draw : ℕ → ℝ)
    (st st' : St M) (φ : ℝ → ℕ → ℝ) : NPeriod cfg dev draw st φ st' ↔ ∃ (h : arg.r = cfg.sys.N) (x w : ℕ → ℝ),
      Period cfg st φ { st' with x := x } ∧ (∀ n, st'.x n = x n + w n * cfg.dc.T) ∧
      ∃ L : Matrix (Fin cfg.sys.N) (Fin cfg.sys.N) ℝ, dev = some ⟨arg.r, h ▸ L⟩ ∧
        ∀ n, w n = if hn : n < cfg.sys.N then ∑ c, L ⟨n, hn⟩ c * draw c else 0 := by
  obtain ⟨-, L, rfl, -⟩ := ((C154_accepts arg.r arg.c arg.a).2 dev).1 hdev
  obtain ⟨r, c, a⟩ := arg
  constructor
  · rintro ⟨x, hp, hk⟩
    have hr := (kick_ok hk).1
    simp only at hr
    subst hr
    unfold kick at hk
    dsimp only at hk
    rw [if_neg (by simp), Except.ok.injEq] at hk
    exact ⟨rfl, x, _, hp, fun n => by rw [← hk], L, rfl, fun n => rfl⟩
  · rintro ⟨hr, x, w, hp, hx, L', hL, hw⟩
    simp only at hr
    subst hr
    simp only [Option.some.injEq, Sigma.mk.injEq, heq_eq_eq, true_and] at hL
    subst hL
    refine ⟨x, hp, ?_⟩
    unfold kick
    dsimp only
    rw [if_neg (by simp), Except.ok.injEq]
    funext n
    rw [hx n, hw n]

/-- **C154** With a matrix of the right size, every set-up that can be simulated without noise can be simulated with noise, whatever
values are drawn; with a matrix of another size no period can be simulated. -/
theorem C154_run (cfg : Cfg M) (hT : 0 ≤ cfg.dc.T) (hw : ∀ m, ∃ d : Dac, (cfg.dc.ir m).f = d.eval)
    (hu : ∀ k l, Continuous fun t => cfg.input k t l) (h : Fits cfg) (arg : CovArg) (dev : Deviation)
    (hdev : deviation (some arg) = .ok dev) (draw : ℕ → ℕ → ℝ) (s0 : St M) :
    (arg.r = cfg.sys.N → ∃ st φ, st 0 = s0 ∧ NRun cfg dev draw st φ) ∧
    (arg.r ≠ cfg.sys.N → ∀ st φ st', ¬ NPeriod cfg dev (draw 0) st φ st') := by
  obtain ⟨-, L, rfl, -⟩ := ((C154_accepts arg.r arg.c arg.a).2 dev).1 hdev
  constructor
  · intro hr
    have hk : ∀ d x, ∃ x', kick cfg.sys.N cfg.dc.T (some ⟨arg.r, L⟩) d x = .ok x' := fun d x => by
      unfold kick
      dsimp only
      rw [if_neg (by simp [hr])]
      exact ⟨_, rfl⟩
    choose kk hkk using hk
    choose φ nx hn using C148_period cfg hT hw hu h
    have hst : ∃ st : ℕ → St M, st 0 = s0 ∧ ∀ k, st (k + 1) = { nx (st k) with x := kk (draw k) (nx (st k)).x } :=
      ⟨fun k => Nat.rec s0 (fun k s => { nx s with x := kk (draw k) (nx s).x }) k, rfl, fun _ => rfl⟩
    obtain ⟨st, h0, hs⟩ := hst
    refine ⟨st, fun k => φ (st k), h0, fun k => ⟨⟨(nx (st k)).x, ?_, ?_⟩⟩⟩
    · rw [hs]
      exact hn (st k)
    · rw [hs]
      exact hkk _ _
  · rintro hr st φ st' ⟨x, -, hk⟩
    exact hr (kick_ok hk).1

/-- **C154, what holds** The vector added to the states at the end of a control period has mean zero and covariance `T² S` for the
symmetric matrix `S` given by the user and the clock period `T`; vectors added in different periods are uncorrelated.  The
claim is that the covariance is `S`: see `C154_covariance_false`. -/
theorem C154_covariance_partial {μ : Measure Ω} [IsProbabilityMeasure μ] {z : Ω → ℕ → ℕ → ℝ} (hz : Spec.White μ z) (cfg : Cfg M)
    (S : ℕ → ℕ → ℝ) (hS : ∀ i j, S i j = S j i) (r c : ℕ) (dev : Deviation) (hdev : deviation (some ⟨r, c, S⟩) = .ok dev)
    (st : Ω → ℕ → St M) (φ : Ω → ℕ → ℝ → ℕ → ℝ) (hrun : ∀ ω, NRun cfg dev (z ω) (st ω) (φ ω)) :
    (∀ k, Spec.HasCovariance μ cfg.sys.N (fun ω n => (st ω (k + 1)).x n - φ ω k cfg.dc.T n) fun i j => cfg.dc.T ^ 2 * S i j) ∧
    ∀ k l, k ≠ l → ∀ i < cfg.sys.N, ∀ j < cfg.sys.N, cov[fun ω => (st ω (k + 1)).x i - φ ω k cfg.dc.T i,
      fun ω => (st ω (l + 1)).x j - φ ω l cfg.dc.T j; μ] = 0 := by
  obtain ⟨-, L, rfl, -, -, hL⟩ := ((C154_accepts r c S).2 dev).1 hdev
  have hne : Nonempty Ω := by
    by_contra hcon
    rw [not_nonempty_iff] at hcon
    have : μ Set.univ = 0 := by rw [Set.univ_eq_empty_iff.2 hcon]; exact measure_empty
    rw [measure_univ] at this
    exact one_ne_zero this
  have hr : r = cfg.sys.N := by
    obtain ⟨x, -, hk⟩ := hrun hne.some 0
    exact (kick_ok hk).1
  have hjump : ∀ ω k i (hi : i < r), (st ω (k + 1)).x i - φ ω k cfg.dc.T i = (∑ c, L ⟨i, hi⟩ c * z ω k c) * cfg.dc.T := by
    intro ω k i hi
    obtain ⟨x, hp, hk⟩ := hrun ω k
    rw [(kick_ok hk).2 i hi, ← hp.stop i (hr ▸ hi)]
    show x i + _ - x i = _
    ring
  have hprod : ∀ i j : Fin r, ∑ c, L i c * L j c = S i j := by
    intro i j
    have e : (L * Lᵀ) i j = ∑ c, L i c * L j c := by simp only [mul_apply, transpose_apply]
    rw [← e]
    rcases le_total j i with h | h
    · exact hL i j h
    · rw [hS, ← hL j i h, ← Matrix.transpose_apply (L * Lᵀ), Matrix.transpose_mul, Matrix.transpose_transpose]
  have hcov : ∀ k l i (hi : i < r) j (hj : j < r), cov[fun ω => (st ω (k + 1)).x i - φ ω k cfg.dc.T i,
      fun ω => (st ω (l + 1)).x j - φ ω l cfg.dc.T j; μ] = if k = l then cfg.dc.T ^ 2 * S i j else 0 := by
    intro k l i hi j hj
    simp only [hjump _ _ i hi, hjump _ _ j hj]
    rw [covariance_mul_const_left, covariance_mul_const_right, white_cov hz, hprod]
    split_ifs <;> ring
  refine ⟨fun k => ⟨fun i hi => ?_, fun i hi j hj => ?_⟩, fun k l hkl i hi j hj => ?_⟩
  · simp only [hjump _ _ i (hr ▸ hi)]
    rw [integral_mul_const, white_mean hz, zero_mul]
  · rw [hcov k k i (hr ▸ hi) j (hr ▸ hj), if_pos rfl]
  · rw [hcov k l i (hr ▸ hi) j (hr ▸ hj), if_neg hkl]

/-- **C154, what the matrix means** Over `K` periods, which last `K T`, the added vectors sum up to a vector with covariance
`K T · (T S)`: the simulated noise has the power spectral density `T S`.  So the matrix `S = D / T` simulates noise with the
density `D` (for example with the powers of `white_noise_sensitivities()`). -/
theorem C154_density {μ : Measure Ω} [IsProbabilityMeasure μ] {z : Ω → ℕ → ℕ → ℝ} (hz : Spec.White μ z) (cfg : Cfg M)
    (hT : cfg.dc.T ≠ 0) (D : ℕ → ℕ → ℝ) (hD : ∀ i j, D i j = D j i) (r c : ℕ) (dev : Deviation)
    (hdev : deviation (some ⟨r, c, fun i j => D i j / cfg.dc.T⟩) = .ok dev)
    (st : Ω → ℕ → St M) (φ : Ω → ℕ → ℝ → ℕ → ℝ) (hrun : ∀ ω, NRun cfg dev (z ω) (st ω) (φ ω)) (K : ℕ) :
    Spec.HasCovariance μ cfg.sys.N (fun ω n => ∑ k ∈ Finset.range K, ((st ω (k + 1)).x n - φ ω k cfg.dc.T n))
      fun i j => K * cfg.dc.T * D i j := by
  have hs : ∀ i j, (fun i j => D i j / cfg.dc.T) i j = (fun i j => D i j / cfg.dc.T) j i := fun i j => by
    beta_reduce
    rw [hD]
  obtain ⟨h1, h2⟩ := C154_covariance_partial hz cfg (fun i j => D i j / cfg.dc.T) hs r c dev hdev st φ hrun
  obtain ⟨-, L, rfl, -⟩ := ((C154_accepts r c _).2 dev).1 hdev
  have hL2 : ∀ k i, i < cfg.sys.N → MemLp (fun ω => (st ω (k + 1)).x i - φ ω k cfg.dc.T i) 2 μ := by
    intro k i hi
    by_cases hr : r = cfg.sys.N
    · have : (fun ω => (st ω (k + 1)).x i - φ ω k cfg.dc.T i) =
          fun ω => (∑ c, L ⟨i, hr ▸ hi⟩ c * z ω k c) * cfg.dc.T := by
        funext ω
        obtain ⟨x, hp, hk⟩ := hrun ω k
        rw [(kick_ok hk).2 i (hr ▸ hi), ← hp.stop i hi]
        show x i + _ - x i = _
        ring
      rw [this]
      simp only [mul_comm _ cfg.dc.T]
      exact (memLp_finsetSum _ fun (c : Fin r) _ => (hz.sq k c).const_mul _).const_mul _
    · have : ∀ ω : Ω, False := fun ω => by
        obtain ⟨x, -, hk⟩ := hrun ω k
        exact hr (kick_ok hk).1
      have he : IsEmpty Ω := ⟨this⟩
      rw [show (fun ω => (st ω (k + 1)).x i - φ ω k cfg.dc.T i) = fun ω => z ω k i from funext fun ω => (this ω).elim]
      exact hz.sq k i
  refine ⟨fun i hi => ?_, fun i hi j hj => ?_⟩
  · rw [integral_finsetSum _ fun k _ => (hL2 k i hi).integrable one_le_two]
    exact Finset.sum_eq_zero fun k _ => (h1 k).mean i hi
  · rw [covariance_fun_sum_fun_sum' (fun k _ => hL2 k i hi) (fun k _ => hL2 k j hj)]
    have : ∀ k ∈ Finset.range K, ∑ l ∈ Finset.range K, cov[fun ω => (st ω (k + 1)).x i - φ ω k cfg.dc.T i,
        fun ω => (st ω (l + 1)).x j - φ ω l cfg.dc.T j; μ] = cfg.dc.T * D i j := by
      intro k hk
      rw [Finset.sum_eq_single k (fun l _ hl => h2 k l hl.symm i hi j hj) (fun h => absurd hk h), (h1 k).cov i hi j hj]
      field_simp
    rw [Finset.sum_congr rfl this, Finset.sum_const, Finset.card_range, nsmul_eq_mul]
    ring

/-- **C154** Both simulators add the same noise: under the conditions of C29 and with the same seed they have the same states and
decisions at the end of every period. -/
theorem C154_same_partial (cfg : PCfg M) (hcheck : cfg.check = .ok ()) (hsig : 0 < cfg.sig.length)
    (hT : 0 < cfg.dc.T) (htt : 0 ≤ cfg.dc.tt2) (hdelay : cfg.dc.tDelay = 0)
    (hpos : ∀ m, 0 ≤ (cfg.dc.ir m).t0)
    (G : ℕ → ℕ → ℝ) (hG : cfg.sys.Gamma = some G) (hM : cfg.sys.M = M)
    (hNt : cfg.sys.Nt = cfg.sys.N)
    (hC : ∀ r < cfg.sys.N, ∀ c < cfg.sys.N, cfg.sys.CT r c = if r = c then 1 else 0)
    (hD : ∀ r < cfg.sys.N, ∀ c < cfg.sys.L, cfg.sys.D r c = 0)
    (hreg : ∀ l < cfg.sig.length, ∀ a ω p o, cfg.sigAt l = .sine a ω p o →
      Analog.Spec.Regular cfg.sys.N (fun r c => (cfg.sys.A r c : ℂ)) (Complex.I * ω))
    (ctrl pw : ℕ → ℕ → ℝ) (hpre : Pre cfg G ctrl pw) (pst st : ℕ → St M) (φ : ℕ → ℝ → ℕ → ℝ)
    (hpw : ∀ l < cfg.sig.length, ∀ f, cfg.sigAt l = .pw f → ∀ k : ℕ,
      ∀ s ∈ Set.Ico ((st 0).t + k * cfg.dc.T) ((st 0).t + (k + 1) * cfg.dc.T), f s = f ((st 0).t + (k + 1) * cfg.dc.T))
    (arg : Option CovArg) (dev : Deviation) (hdev : deviation arg = .ok dev) (draw : ℕ → ℕ → ℝ)
    (hnext : ∀ k, cfg.noisyNext ctrl pw dev (draw k) (pst k) = .ok (pst (k + 1))) (hrun : NRun cfg.full dev draw st φ)
    (h0 : (∀ n < cfg.sys.N, (st 0).x n = (pst 0).x n) ∧ (st 0).c = (pst 0).c ∧ (st 0).t = (pst 0).t) (k : ℕ) :
    (∀ n < cfg.sys.N, (st k).x n = (pst k).x n) ∧ (st k).c = (pst k).c ∧ (st k).t = (pst k).t := by
  have hin : cfg.full.hasInput = true := by
    show decide (0 < cfg.sig.length) = true
    rw [decide_eq_true hsig]
  have htime : ∀ k : ℕ, (st k).t = (st 0).t + k * cfg.dc.T := by
    intro k
    induction k with
    | zero => simp
    | succ k ih =>
      obtain ⟨x, hp, -⟩ := hrun k
      have := hp.time
      change (st (k + 1)).t = (st k).t + cfg.dc.T at this
      rw [this, ih]
      push_cast
      ring
  induction k with
  | zero => exact h0
  | succ k ih =>
    obtain ⟨hx, hc, ht⟩ := ih
    obtain ⟨x, hp0, hk⟩ := hrun k
    have hp := period_congr cfg hin G hG hM _ _ _ _ hx hc ht hp0
    have he : (pst k).t + cfg.dc.T = (st 0).t + (k + 1) * cfg.dc.T := by rw [← ht, htime]; ring
    have hn := hnext k
    unfold PCfg.noisyNext at hn
    cases hq : cfg.next ctrl pw (pst k) with
    | error e => rw [hq] at hn; cases hn
    | ok q =>
      rw [hq] at hn
      dsimp only at hn
      cases hkk : kick cfg.sys.N cfg.dc.T dev (draw k) q.x with
      | error e => rw [hkk] at hn; cases hn
      | ok x' =>
        rw [hkk, Except.ok.injEq] at hn
        obtain ⟨e1, e2, e3⟩ := (C29_exact_partial cfg hcheck hsig hT htt hdelay hpos G hG hM
          (fun _ _ _ _ _ _ _ => ⟨hNt, hC, hD⟩) hreg ctrl pw hpre (pst k) q (by
          intro l hl f hf s hs
          rw [he] at hs ⊢
          exact hpw l hl f hf k s (by rwa [← htime, ht])) hq).2 _ _ hp
        dsimp only at e1 e2 e3
        rw [← hn]
        refine ⟨fun n hn' => ?_, e2, e3⟩
        cases dev with
        | none =>
          cases hk
          cases hkk
          exact e1 n hn'
        | some d =>
          obtain ⟨P, L⟩ := d
          obtain ⟨rfl, k1⟩ := kick_ok hkk
          have k2 := (kick_ok hk).2 n hn'
          dsimp only
          rw [k1 n hn', k2, e1 n hn']
          rfl

/-- **C154** Noise that adds at most `δ_n` to the state `n` in every period leaves the states of a chain or a leap-frog in their range
for ever if the controls have that much strength left: `(|beta_n| + |alpha_n|) T + δ_n ≤ |kappa_n| T` and
`2 |kappa_n| T + δ_n ≤ 1`. -/
theorem C154_bounded {N : ℕ} (cfg : Cfg N) (beta alpha rho kappa : ℕ → ℝ) (hg : IsNetwork cfg.sys N beta alpha rho kappa)
    (T tt2 : ℝ) (hT : 0 < T) (h2 : 0 ≤ tt2) (hdc : DC.new T tt2 N none 0 none = .ok cfg.dc) (hin : cfg.hasInput = true)
    (hu : ∀ k t, |cfg.input k t 0| ≤ 1) (hκ : ∀ n < N, kappa n ≠ 0) (hrho : ∀ n < N, rho n ≤ 0) (δ : ℕ → ℝ)
    (hδ : ∀ n < N, 0 ≤ δ n) (hdom : ∀ n < N, (|beta n| + |alpha n|) * T + δ n ≤ |kappa n| * T)
    (hκT : ∀ n < N, 2 * |kappa n| * T + δ n ≤ 1) (dev : Deviation) (draw : ℕ → ℕ → ℝ) (st : ℕ → St N) (φ : ℕ → ℝ → ℕ → ℝ)
    (hrun : NRun cfg dev draw st φ) (hnoise : ∀ k, ∀ n < N, |(st (k + 1)).x n - φ k T n| ≤ δ n) (h0 : InBox N (st 0).x) (k : ℕ) :
    InBox N (st k).x ∧ ∀ τ ∈ Set.Icc 0 T, InBox N (φ k τ) := by
  have hTeq := plain_T T tt2 cfg.dc hdc
  have hdom' : ∀ n < N, |beta n| + |alpha n| ≤ |kappa n| := fun n hn => by
    have h1 := hdom n hn
    have h2 := hδ n hn
    by_contra hcon
    have := mul_lt_mul_of_pos_right (not_le.1 hcon) hT
    linarith
  have hκT' : ∀ n < N, 2 * |kappa n| * T ≤ 1 := fun n hn => by linarith [hκT n hn, hδ n hn]
  have hper : ∀ k, InBox N (st k).x → ∀ τ ∈ Set.Icc 0 T, InBox N (φ k τ) := fun k hk => by
    obtain ⟨x, hp, -⟩ := hrun k
    exact period_bounded cfg beta alpha rho kappa hg T tt2 hT h2 hdc hin hu hκ hrho hdom' hκT' _ _ _ hp hk
  have hb : ∀ k, InBox N (st k).x := by
    intro k
    induction k with
    | zero => exact h0
    | succ k ih =>
      intro n hn
      obtain ⟨x, hp, -⟩ := hrun k
      have hbox := hper k ih
      obtain ⟨s, σ, hode, hσ, hκσ, hside⟩ := period_push cfg beta alpha rho kappa hg T tt2 h2 hdc hin hκ _ _ _ hp
      have hσabs : |σ n| = 1 := by rcases hσ n hn with h | h <;> rw [h] <;> norm_num
      have hm := margin (fun τ => φ k τ n) _ T |kappa n| (rho n) (σ n) (δ n) hT (hδ n hn) (abs_nonneg _) (hκT n hn) (hrho n hn)
        (hσ n hn) (by have := hp.cont n (by rw [hg.n]; exact hn); rwa [hTeq] at this) (fun τ hτ => hode τ hτ n hn)
        (by
          rw [hp.start n (by rw [hg.n]; exact hn)]
          exact hside n hn)
        (by
          rw [hp.start n (by rw [hg.n]; exact hn)]
          refine (le_abs_self _).trans ?_
          rw [abs_mul, hσabs, one_mul]
          exact ih n hn)
        (by
          intro τ hτ
          obtain ⟨p, hpdef⟩ : ∃ p, p = previous (cfg.input ((st k).ticks + 1) (τ + (st k).t) 0) (φ k τ) n := ⟨_, rfl⟩
          obtain ⟨q, hqdef⟩ : ∃ q, q = following N (φ k τ) n := ⟨_, rfl⟩
          have hbx := hbox τ (Set.Ico_subset_Icc_self hτ)
          have hpb : |p| ≤ 1 := by
            rw [hpdef]
            unfold previous
            split_ifs with h
            · exact hu _ _
            · exact hbx _ (by omega)
          have hqb : |q| ≤ 1 := by
            rw [hqdef]
            unfold following
            split_ifs with h
            · exact hbx _ h
            · simp
          have hc : |σ n * (beta n * p + alpha n * q)| ≤ |beta n| + |alpha n| := by
            rw [abs_mul, hσabs, one_mul]
            refine (abs_add_le _ _).trans (add_le_add ?_ ?_)
            · rw [abs_mul]
              exact (mul_le_mul_of_nonneg_left hpb (abs_nonneg _)).trans (mul_one _).le
            · rw [abs_mul]
              exact (mul_le_mul_of_nonneg_left hqb (abs_nonneg _)).trans (mul_one _).le
          rw [abs_le] at hc
          refine ⟨σ n * (beta n * p + alpha n * q) - |kappa n|, ?_, ?_, by linarith [hc.1, hdom' n hn]⟩
          · rw [← hpdef, ← hqdef]
            have := hκσ n hn
            calc _ = rho n * (σ n * φ k τ n) + σ n * (beta n * p + alpha n * q) + σ n * (kappa n * s n) := by ring
              _ = _ := by rw [this]; ring
          · have := mul_le_mul_of_nonneg_right hc.2 hT.le
            have := hdom n hn
            rw [sub_mul]
            linarith)
      have h3 := hnoise k n hn
      calc |(st (k + 1)).x n| = |φ k T n + ((st (k + 1)).x n - φ k T n)| := by congr 1; ring
        _ ≤ |φ k T n| + |(st (k + 1)).x n - φ k T n| := abs_add_le _ _
        _ ≤ 1 := by linarith
  exact ⟨hb k, hper k (hb k)⟩

/-- one integrator with input gain `b` and control gain 1, the default control with period `T` and a constant input can be
simulated with noise of variance 1, whatever values are drawn -/
theorem ex_noisy (b T : ℝ) (hT : 0 < T) : ∃ (cfg : Cfg 1) (dev : Deviation),
    chainOfIntegrators [b] [0] (.mat 1 1 fun _ _ => 1) = .ok cfg.sys ∧ DC.new T 0 1 none 0 none = .ok cfg.dc ∧
    cfg.hasInput = true ∧ cfg.input = (fun _ _ _ => 1 / 2) ∧ deviation (some ⟨1, 1, fun _ _ => 1⟩) = .ok dev ∧
    dev = some ⟨1, fun _ _ => 1⟩ ∧
    ∀ draw, ∃ st φ, (st 0 = ⟨0, 0, fun _ => 1 / 4, State.init⟩) ∧ NRun cfg dev draw st φ := by
  obtain ⟨g, hg, hnet⟩ := C60_chain [b] [0] (fun _ _ => 1) (by simp) rfl
  have hdev : deviation (some ⟨1, 1, fun _ _ => 1⟩) = .ok (some ⟨1, Matrix.of fun _ _ => 1⟩) :=
    ((C154_accepts 1 1 _).2 _).2 ⟨rfl, _, rfl, fun i j h => by omega, fun i => one_pos, fun i j _ => by simp [mul_apply]⟩
  refine ⟨⟨g, ⟨T, 0, 0, fun _ => stepResponse 0, fun _ => 0⟩, fun _ _ _ => 1 / 2, true⟩, _, hg,
    by simp [DC.new, initIR, initOffsets], rfl, rfl, hdev, rfl, fun draw => ?_⟩
  exact (C154_run _ hT.le (fun m => ⟨.step 0 1, rfl⟩) (fun _ _ => continuous_const)
    (Cbadc.EndToEnd.C148_structures [b] [] [0] (fun _ _ => 1) (by simp) rfl rfl _ (.inl hg)) _ _ hdev draw _).1 hnet.n.symm

/-- **C154 is false of the code** One integrator with clock period 1/2, noise of variance 1 and standard normal draws: the variance
of what is added in a control period is 1/4. -/
theorem C154_covariance_false : ∃ (Ω : Type) (_ : MeasurableSpace Ω) (μ : Measure Ω) (_ : IsProbabilityMeasure μ)
    (z : Ω → ℕ → ℕ → ℝ) (cfg : Cfg 1) (dev : Deviation) (st : Ω → ℕ → St 1) (φ : Ω → ℕ → ℝ → ℕ → ℝ),
    (∀ k i, HasLaw (fun ω => z ω k i) (gaussianReal 0 1) μ) ∧ Spec.White μ z ∧
    chainOfIntegrators [1] [0] (.mat 1 1 fun _ _ => 1) = .ok cfg.sys ∧ DC.new (1 / 2) 0 1 none 0 none = .ok cfg.dc ∧
    deviation (some ⟨1, 1, fun _ _ => 1⟩) = .ok dev ∧ (∀ ω, NRun cfg dev (z ω) (st ω) (φ ω)) ∧
    ∀ k, ¬ Spec.HasCovariance μ cfg.sys.N (fun ω n => (st ω (k + 1)).x n - φ ω k cfg.dc.T n) fun _ _ => 1 := by
  obtain ⟨Ω, m, μ, hp, z, hl, hz⟩ := white_exists
  obtain ⟨cfg, dev, hs, hd, -, -, hdev, -, hr⟩ := ex_noisy 1 (1 / 2) (by norm_num)
  choose st φ h0 hrun using fun ω => hr (z ω)
  refine ⟨Ω, m, μ, hp, z, cfg, dev, st, φ, hl, hz, hs, hd, hdev, hrun, fun k hcon => ?_⟩
  have hN : cfg.sys.N = 1 := by
    obtain ⟨g, hg, hnet⟩ := C60_chain [1] [0] (fun _ _ => 1) (by simp) rfl
    have e : g = cfg.sys := Except.ok.inj (hg.symm.trans hs)
    rw [← e]
    exact hnet.n
  have h1 := ((C154_covariance_partial hz cfg (fun _ _ => 1) (fun _ _ => rfl) 1 1 dev hdev st φ hrun).1 k).cov 0 (by omega) 0 (by omega)
  rw [hcon.cov 0 (by omega) 0 (by omega), plain_T _ _ _ hd] at h1
  norm_num at h1

/-- **C154 is false of the code** Noise at the first of two states only is a possible covariance matrix but the simulator refuses it. -/
theorem C154_singular_false : (∃ (Ω : Type) (_ : MeasurableSpace Ω) (μ : Measure Ω) (X : Ω → ℕ → ℝ), IsProbabilityMeasure μ ∧
      Spec.HasCovariance μ 2 X fun i j => if i = 0 ∧ j = 0 then 1 else 0) ∧
    deviation (some ⟨2, 2, fun i j => if i = 0 ∧ j = 0 then 1 else 0⟩) = .error .valueError := by
  constructor
  · obtain ⟨Ω, m, μ, hp, z, -, hz⟩ := white_exists
    refine ⟨Ω, m, μ, fun ω i => if i = 0 then z ω 0 0 else 0, hp, fun i hi => ?_, fun i hi j hj => ?_⟩
    · by_cases h : i = 0
      · simp only [h, if_true]
        exact hz.mean 0 0
      · simp [h]
    · by_cases h : i = 0
      · by_cases h' : j = 0
        · simp only [h, h', if_true]
          rw [hz.cov]
          simp
        · simp [h, h']
      · simp [h]
  · cases h : deviation (some ⟨2, 2, fun i j => if i = 0 ∧ j = 0 then 1 else 0⟩) with
    | error e =>
      unfold deviation at h
      dsimp only at h
      rw [if_neg (by simp)] at h
      unfold cholesky at h
      split_ifs at h
      cases h
      rfl
    | ok dev =>
      have := ((C154_accepts 2 2 fun i j => if i = 0 ∧ j = 0 then 1 else 0).1.1 ⟨dev, h⟩).2.diag_pos (i := 1)
      simp at this

/-- the hypotheses of `C154_covariance_partial` and `C154_density` are met -/
example : ∃ (Ω : Type) (_ : MeasurableSpace Ω) (μ : Measure Ω) (_ : IsProbabilityMeasure μ)
    (z : Ω → ℕ → ℕ → ℝ) (cfg : Cfg 1) (dev : Deviation) (st : Ω → ℕ → St 1) (φ : Ω → ℕ → ℝ → ℕ → ℝ),
    Spec.White μ z ∧ cfg.dc.T ≠ 0 ∧ deviation (some ⟨1, 1, fun i j => (fun _ _ => cfg.dc.T) i j / cfg.dc.T⟩) = .ok dev ∧
    ∀ ω, NRun cfg dev (z ω) (st ω) (φ ω) := by
  obtain ⟨Ω, m, μ, hp, z, cfg, dev, st, φ, -, hz, -, hd, hdev, hrun, -⟩ := C154_covariance_false
  have hT : cfg.dc.T ≠ 0 := by
    rw [plain_T _ _ _ hd]
    norm_num
  exact ⟨Ω, m, μ, hp, z, cfg, dev, st, φ, hz, hT, by simpa only [div_self hT] using hdev, hrun⟩

/-- the hypotheses of `C154_bounded` are met with noise that uses up the whole margin -/
example : ∃ (cfg : Cfg 1) (dev : Deviation) (st : ℕ → St 1) (φ : ℕ → ℝ → ℕ → ℝ),
    IsNetwork cfg.sys 1 (fun _ => 1 / 2) (fun _ => 0) (fun _ => 0) (fun _ => 1) ∧ DC.new (1 / 4) 0 1 none 0 none = .ok cfg.dc ∧
    NRun cfg dev (fun k _ => (-1) ^ k / 2) st φ ∧ InBox 1 (st 0).x ∧
    ∀ k, ∀ n < 1, |(st (k + 1)).x n - φ k (1 / 4) n| = 1 / 8 := by
  obtain ⟨cfg, dev, hs, hd, -, -, -, rfl, hr⟩ := ex_noisy (1 / 2) (1 / 4) (by norm_num)
  obtain ⟨st, φ, h0, hrun⟩ := hr fun k _ => (-1) ^ k / 2
  obtain ⟨g, hg, hnet⟩ := C60_chain [1 / 2] [0] (fun _ _ => 1) (by simp) rfl
  have e : g = cfg.sys := Except.ok.inj (hg.symm.trans hs)
  subst e
  have hT := plain_T _ _ _ hd
  refine ⟨cfg, _, st, φ, ?_, hd, hrun, ?_, fun k n hn => ?_⟩
  · have : ∀ n, n < 1 → ([1 / 2] : List ℝ).getD n 0 = 1 / 2 ∧ ([0] : List ℝ).getD n 0 = 0 := fun n hn => by
      interval_cases n
      simp
    refine ⟨hnet.n, hnet.l, hnet.m, hnet.mt, hnet.nt, fun x u s => ?_, hnet.obs, hnet.out⟩
    obtain ⟨d, h1, h2⟩ := hnet.deriv x u s
    refine ⟨d, h1, fun n hn => ?_⟩
    rw [h2 n hn, (this n hn).1, (this n hn).2]
    rfl
  · rw [h0]
    intro n _
    norm_num [abs_of_pos]
  · obtain ⟨x, hp, hk⟩ := hrun k
    rw [(kick_ok hk).2 n hn, ← hT, ← hp.stop n (by rw [hnet.n]; exact hn), hT]
    show |x n + _ - x n| = _
    rw [add_sub_cancel_left]
    simp [abs_mul, abs_div]
    norm_num

/-- `C154_same_partial`: both simulators run with noise on a set-up that meets the conditions of C29 -/
example : ∃ dev, deviation (some ⟨1, 1, fun _ _ => 1⟩) = .ok dev ∧
    (PCfg.mk (exSys 1) exDC [.sine 1 Real.pi 0 0] : PCfg 1).check = .ok () ∧
    ∀ draw s0, (∃ pst : ℕ → St 1, pst 0 = s0 ∧ ∀ k, (PCfg.mk (exSys 1) exDC [.sine 1 Real.pi 0 0] : PCfg 1).noisyNext (fun _ _ => 1)
        (fun _ _ => 1) dev (draw k) (pst k) = .ok (pst (k + 1))) ∧
      ∃ st φ, st 0 = s0 ∧ NRun (PCfg.mk (exSys 1) exDC [.sine 1 Real.pi 0 0] : PCfg 1).full dev draw st φ := by
  obtain ⟨cfg0, dev, -, -, -, -, hdev, rfl, -⟩ := ex_noisy 1 1 one_pos
  refine ⟨_, hdev, ?_, fun draw s0 => ⟨?_, ?_⟩⟩
  · unfold PCfg.check
    rw [if_neg (by simp [exSys]), if_neg (by simp [exDC, stepResponse]), if_neg (by simp [Sig.hasOffset])]
  · have hn : ∀ d st, ∃ st', (PCfg.mk (exSys 1) exDC [.sine 1 Real.pi 0 0] : PCfg 1).noisyNext (fun _ _ => 1) (fun _ _ => 1)
        (some ⟨1, fun _ _ => 1⟩) d st = .ok st' := by
      intro d st
      obtain ⟨y, hy1, hy2, hy3⟩ := (C27_observation_partial (exSys 1) _ rfl ⟨1, st.x⟩
        ((PCfg.mk (exSys 1) exDC [.sine 1 Real.pi 0 0] : PCfg 1).full.u0 st) (asVec (contribution exDC st.c 0)) rfl rfl rfl).1
      have hdec : (PCfg.mk (exSys 1) exDC [.sine 1 Real.pi 0 0] : PCfg 1).full.decide st = .ok (update exDC st.c 0 fun m => y.v m) := by
        rw [decide_ok]
        exact ⟨y, hy1, hy2.ge, rfl⟩
      unfold PCfg.noisyNext PCfg.next
      rw [if_neg (by simp [exSys]), hdec]
      dsimp only
      unfold kick
      dsimp only
      rw [if_neg (by simp [exSys])]
      exact ⟨_, rfl⟩
    choose nx hnx using hn
    exact ⟨fun k => Nat.rec s0 (fun k s => nx (draw k) s) k, rfl, fun k => hnx _ _⟩
  · refine (C154_run _ (by simp [PCfg.full, exDC]) (fun m => ⟨.step 0 1, rfl⟩) (fun k l => ?_) ⟨by simp [PCfg.full, exSys], rfl,
      by simp [PCfg.full, exSys], le_refl _⟩ _ _ hdev draw s0).1 rfl
    show Continuous fun t => (PCfg.sigAt _ l).eval t
    unfold PCfg.sigAt
    cases l with
    | zero =>
      simp only [List.getD_cons_zero, Sig.eval]
      fun_prop
    | succ l =>
      simp only [List.getD_cons_succ, List.getD_nil, Sig.eval]
      fun_prop

end Cbadc.Simulate
