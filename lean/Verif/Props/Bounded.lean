import Verif.Lemmas.Bounded
import Verif.Model.Simulator
import Verif.Props.Structures

/-! # C20, C62: boundedness of simulated chain-of-integrators and leap-frog converters -/

namespace Cbadc.Simulate
open Cbadc.Analog Cbadc.Analog.Spec Cbadc.Control Set

/-- all states of the vector are in `[-1, 1]` (specification) -/
def InBox (N : ℕ) (x : ℕ → ℝ) : Prop := ∀ n < N, |x n| ≤ 1

/-- the default control: no impulse response, no delay, no offsets given -/
theorem plain_contribution {N : ℕ} (T tt2 : ℝ) (dc : DC ℝ N) (h : DC.new T tt2 N none 0 none = .ok dc)
    (c : State ℝ N) (τ : ℝ) (hτ : 0 ≤ τ) (m : Fin N) : contribution dc c τ m = c.cur m := by
  have hd : dc = ⟨T, tt2, 0, fun _ => stepResponse 0, fun _ => 0⟩ := by
    simp only [DC.new, initIR, initOffsets, lt_self_iff_false, if_false, Except.ok.injEq] at h
    exact h.symm
  subst hd
  simp only [contribution, stepResponse, if_neg (not_lt.mpr hτ), if_pos hτ, one_mul]

theorem plain_update {N : ℕ} (T tt2 : ℝ) (h2 : 0 ≤ tt2) (dc : DC ℝ N)
    (h : DC.new T tt2 N none 0 none = .ok dc) (c : State ℝ N) (y : Fin N → ℝ) (m : Fin N) :
    (update dc c 0 y).cur m = if 0 ≤ y m then 1 else -1 := by
  have hd : dc = ⟨T, tt2, 0, fun _ => stepResponse 0, fun _ => 0⟩ := by
    simp only [DC.new, initIR, initOffsets, lt_self_iff_false, if_false, Except.ok.injEq] at h
    exact h.symm
  subst hd
  have ha : allclose (0 : ℝ) 0 tt2 := by simp [allclose, h2]
  show (if allclose (0 : ℝ) 0 tt2 then 2 * (if (0 : ℝ) ≤ y m then (1 : ℝ) else 0) - 1 else c.cur m) = _
  rw [if_pos ha]
  split_ifs <;> norm_num

theorem plain_T {N : ℕ} (T tt2 : ℝ) (dc : DC ℝ N) (h : DC.new T tt2 N none 0 none = .ok dc) : dc.T = T := by
  simp only [DC.new, initIR, initOffsets, lt_self_iff_false, if_false, Except.ok.injEq] at h
  rw [← h]

/-- one period of any integrator network: what drives the states, and that each control pushes its state towards
the other side of zero -/
theorem period_push {N : ℕ} (cfg : Cfg N) (beta alpha rho kappa : ℕ → ℝ)
    (hg : IsNetwork cfg.sys N beta alpha rho kappa) (T tt2 : ℝ) (h2 : 0 ≤ tt2)
    (hdc : DC.new T tt2 N none 0 none = .ok cfg.dc) (hin : cfg.hasInput = true) (hκ : ∀ n < N, kappa n ≠ 0)
    (st st' : St N) (φ : ℝ → ℕ → ℝ) (hp : Period cfg st φ st') :
    ∃ s σ : ℕ → ℝ, (∀ τ ∈ Ico 0 T, ∀ n < N, HasDerivWithinAt (fun τ => φ τ n)
        (rho n * φ τ n + beta n * previous (cfg.input (st.ticks + 1) (τ + st.t) 0) (φ τ) n +
          alpha n * following N (φ τ) n + kappa n * s n) (Ici τ) τ) ∧
      (∀ n < N, σ n = 1 ∨ σ n = -1) ∧ (∀ n < N, σ n * (kappa n * s n) = -|kappa n|) ∧
      ∀ n < N, 0 ≤ σ n * st.x n := by
  have hTeq := plain_T T tt2 cfg.dc hdc
  have hN := hg.n
  -- the decisions
  obtain ⟨y, hy1, hy2, hy3⟩ := hg.obs st.x (cfg.u0 st).v (asVec (contribution cfg.dc st.c 0)).v
  have hu0 : cfg.u0 st = ⟨1, (cfg.u0 st).v⟩ := by
    show Vec.mk cfg.sys.L _ = Vec.mk 1 _; rw [hg.l]; rfl
  have hcur : ∀ m : Fin N, st'.c.cur m = if 0 ≤ y.v m then 1 else -1 := by
    intro m
    have hd := hp.dec
    unfold Cfg.decide at hd
    rw [hu0] at hd
    rw [hN] at hd
    change (match cfg.sys.controlObservation ⟨N, st.x⟩ (some ⟨1, (cfg.u0 st).v⟩)
      (some ⟨N, (asVec (contribution cfg.dc st.c 0)).v⟩) with
      | .error e => Except.error e
      | .ok y => if y.len < N then Except.error Exc.indexError
        else Except.ok (update cfg.dc st.c 0 fun m => y.v m)) = _ at hd
    rw [hy1] at hd
    dsimp only at hd
    rw [if_neg (by omega), Except.ok.injEq] at hd
    rw [← hd]
    exact plain_update T tt2 h2 cfg.dc hdc st.c _ m
  -- the differential equation of each state
  have hode : ∀ τ ∈ Ico 0 T, ∀ n < N, HasDerivWithinAt (fun τ => φ τ n)
      (rho n * φ τ n + beta n * previous (cfg.input (st.ticks + 1) (τ + st.t) 0) (φ τ) n +
        alpha n * following N (φ τ) n + kappa n * (if 0 ≤ y.v n then 1 else -1)) (Ici τ) τ := by
    intro τ hτ n hn
    obtain ⟨d, hd1, hd2⟩ := hp.ode τ (by rw [hTeq]; exact hτ)
    obtain ⟨d', h1, h3⟩ := hg.deriv (φ τ) (fun l => cfg.input (st.ticks + 1) (τ + st.t) l)
      (asVec (contribution cfg.dc st'.c τ)).v
    unfold Cfg.rhs at hd1
    rw [hin, if_pos rfl, hN, hg.l] at hd1
    change cfg.sys.derivative ⟨N, φ τ⟩ ⟨1, _⟩ ⟨N, (asVec (contribution cfg.dc st'.c τ)).v⟩ = _ at hd1
    rw [h1, Except.ok.injEq] at hd1
    subst hd1
    have := hd2 n (by omega)
    rw [h3 n hn] at this
    have hs : (asVec (contribution cfg.dc st'.c τ)).v n = if 0 ≤ y.v n then 1 else -1 := by
      show (if h : n < N then contribution cfg.dc st'.c τ ⟨n, h⟩ else 0) = _
      rw [dif_pos hn, plain_contribution T tt2 cfg.dc hdc _ _ hτ.1, hcur]
    rw [hs] at this
    exact this
  -- signs
  obtain ⟨σ, hσdef⟩ : ∃ σ : ℕ → ℝ, ∀ n, σ n =
      if 0 < kappa n then -(if 0 ≤ y.v n then 1 else -1) else (if 0 ≤ y.v n then 1 else -1) := ⟨_, fun _ => rfl⟩
  have hσ : ∀ n < N, σ n = 1 ∨ σ n = -1 := by
    intro n _
    rw [hσdef]
    split_ifs <;> norm_num
  have hκσ : ∀ n < N, σ n * (kappa n * (if 0 ≤ y.v n then 1 else -1)) = -|kappa n| := by
    intro n hn
    rw [hσdef]
    rcases lt_or_gt_of_ne (hκ n hn) with h | h
    · rw [if_neg (not_lt.mpr h.le), abs_of_neg h]; split_ifs <;> ring
    · rw [if_pos h, abs_of_pos h]; split_ifs <;> ring
  have hside : ∀ n < N, 0 ≤ σ n * st.x n := by
    intro n hn
    rw [hσdef]
    rcases lt_or_gt_of_ne (hκ n hn) with h | h
    · rw [if_neg (not_lt.mpr h.le)]
      have e := (hy3 n hn).2 h
      split_ifs with hc <;> linarith
    · rw [if_pos h]
      have e := (hy3 n hn).1 h
      split_ifs with hc <;> linarith
  exact ⟨fun n => if 0 ≤ y.v n then 1 else -1, σ, hode, hσ, hκσ, hside⟩

/-- one period of any integrator network under strong enough control -/
theorem period_bounded {N : ℕ} (cfg : Cfg N) (beta alpha rho kappa : ℕ → ℝ)
    (hg : IsNetwork cfg.sys N beta alpha rho kappa) (T tt2 : ℝ) (hT : 0 < T) (h2 : 0 ≤ tt2)
    (hdc : DC.new T tt2 N none 0 none = .ok cfg.dc) (hin : cfg.hasInput = true)
    (hu : ∀ k t, |cfg.input k t 0| ≤ 1)
    (hκ : ∀ n < N, kappa n ≠ 0) (hrho : ∀ n < N, rho n ≤ 0)
    (hdom : ∀ n < N, |beta n| + |alpha n| ≤ |kappa n|) (hκT : ∀ n < N, 2 * |kappa n| * T ≤ 1)
    (st st' : St N) (φ : ℝ → ℕ → ℝ) (hp : Period cfg st φ st') (h0 : InBox N st.x) :
    ∀ τ ∈ Icc 0 T, InBox N (φ τ) := by
  have hTeq := plain_T T tt2 cfg.dc hdc
  have hN := hg.n
  obtain ⟨s, σ, hode, hσ, hκσ, hside⟩ := period_push cfg beta alpha rho kappa hg T tt2 h2 hdc hin hκ st st' φ hp
  have hσabs : ∀ n < N, |σ n| = 1 := by
    intro n hn
    rcases hσ n hn with h | h <;> rw [h] <;> norm_num
  have key := Bounded.period_box N T hT (fun n τ => φ τ n)
    (fun n τ => rho n * φ τ n + beta n * previous (cfg.input (st.ticks + 1) (τ + st.t) 0) (φ τ) n +
        alpha n * following N (φ τ) n + kappa n * s n)
    (fun n => |kappa n|) σ rho
    (fun n hn => by have := hp.cont n (by omega); rwa [hTeq] at this)
    (fun n hn τ hτ => hode τ hτ n hn) (fun n _ => abs_nonneg _) hκT hrho hσ
    (by
      intro n hn
      rw [hp.start n (by omega)]
      refine ⟨hside n hn, ?_⟩
      have : σ n * st.x n ≤ |σ n * st.x n| := le_abs_self _
      rw [abs_mul, hσabs n hn, one_mul] at this
      exact this.trans (h0 n hn))
    (by
      intro n hn τ hτ δ hδ hbox
      obtain ⟨p, hpdef⟩ : ∃ p, p = previous (cfg.input (st.ticks + 1) (τ + st.t) 0) (φ τ) n := ⟨_, rfl⟩
      obtain ⟨q, hqdef⟩ : ∃ q, q = following N (φ τ) n := ⟨_, rfl⟩
      have hpb : |p| ≤ 1 + δ := by
        rw [hpdef]
        unfold previous
        split_ifs with h
        · have := hu (st.ticks + 1) (τ + st.t); linarith
        · exact hbox _ (by omega)
      have hqb : |q| ≤ 1 + δ := by
        rw [hqdef]
        unfold following
        split_ifs with h
        · exact hbox _ h
        · simp; linarith
      have hc : |beta n * p + alpha n * q| ≤ |kappa n| * (1 + δ) := by
        calc |beta n * p + alpha n * q| ≤ |beta n * p| + |alpha n * q| := abs_add_le _ _
          _ = |beta n| * |p| + |alpha n| * |q| := by rw [abs_mul, abs_mul]
          _ ≤ |beta n| * (1 + δ) + |alpha n| * (1 + δ) :=
            add_le_add (mul_le_mul_of_nonneg_left hpb (abs_nonneg _))
              (mul_le_mul_of_nonneg_left hqb (abs_nonneg _))
          _ = (|beta n| + |alpha n|) * (1 + δ) := by ring
          _ ≤ |kappa n| * (1 + δ) := mul_le_mul_of_nonneg_right (hdom n hn) (by linarith)
      have hc' : |σ n * (beta n * p + alpha n * q)| ≤ |kappa n| * (1 + δ) := by
        rw [abs_mul, hσabs n hn, one_mul]; exact hc
      rw [abs_le] at hc'
      refine ⟨σ n * (beta n * p + alpha n * q) - |kappa n|, ?_, by linarith [hc'.2], by linarith [hc'.1]⟩
      rw [← hpdef, ← hqdef]
      have := hκσ n hn
      calc _ = rho n * (σ n * φ τ n) + σ n * (beta n * p + alpha n * q) +
            σ n * (kappa n * s n) := by ring
        _ = _ := by rw [this]; ring)
  exact fun τ hτ n hn => key n hn τ hτ

/-- a whole simulation of any integrator network under strong enough control -/
theorem run_bounded {N : ℕ} (cfg : Cfg N) (beta alpha rho kappa : ℕ → ℝ)
    (hg : IsNetwork cfg.sys N beta alpha rho kappa) (T tt2 : ℝ) (hT : 0 < T) (h2 : 0 ≤ tt2)
    (hdc : DC.new T tt2 N none 0 none = .ok cfg.dc) (hin : cfg.hasInput = true)
    (hu : ∀ k t, |cfg.input k t 0| ≤ 1)
    (hκ : ∀ n < N, kappa n ≠ 0) (hrho : ∀ n < N, rho n ≤ 0)
    (hdom : ∀ n < N, |beta n| + |alpha n| ≤ |kappa n|) (hκT : ∀ n < N, 2 * |kappa n| * T ≤ 1)
    (st : ℕ → St N) (φ : ℕ → ℝ → ℕ → ℝ) (hr : Run cfg st φ) (h0 : InBox N (st 0).x) (k : ℕ) :
    InBox N (st k).x ∧ ∀ τ ∈ Icc 0 T, InBox N (φ k τ) := by
  have hb : ∀ k, InBox N (st k).x := by
    intro k
    induction k with
    | zero => exact h0
    | succ k ih =>
      have := period_bounded cfg beta alpha rho kappa hg T tt2 hT h2 hdc hin hu hκ hrho hdom hκT
        _ _ _ (hr k) ih T ⟨hT.le, le_refl _⟩
      intro n hn
      rw [(hr k).stop n (by rw [hg.n]; exact hn), plain_T T tt2 cfg.dc hdc]
      exact this n hn
  exact ⟨hb k, period_bounded cfg beta alpha rho kappa hg T tt2 hT h2 hdc hin hu hκ hrho hdom hκT
    _ _ _ (hr k) (hb k)⟩

/-- C20: take `ChainOfIntegrators(beta, rho, kappa)` with `rho_n ≤ 0`, `0 < |beta_n| ≤ |kappa_n|` and
`|kappa_n| T ≤ 1/2` (the synthesis helper uses `kappa = beta` and `T = 1 / (2 |beta|)`), and the default
`DigitalControl`.  In every simulation with any input bounded by 1 that starts with all states in `[-1, 1]`, all
states are in `[-1, 1]` at the end of every period and at all times in between. -/
theorem C20_bounded (beta rho : List ℝ) (kappa : ℕ → ℕ → ℝ) (hb : beta ≠ []) (hr : rho.length = beta.length)
    (cfg : Cfg beta.length)
    (hsys : chainOfIntegrators beta rho (.mat beta.length 1 kappa) = .ok cfg.sys)
    (T tt2 : ℝ) (hT : 0 < T) (h2 : 0 ≤ tt2)
    (hdc : DC.new T tt2 beta.length none 0 none = .ok cfg.dc) (hin : cfg.hasInput = true)
    (hu : ∀ k t, |cfg.input k t 0| ≤ 1)
    (hκ : ∀ n < beta.length, kappa n 0 ≠ 0) (hrho : ∀ n < beta.length, rho.getD n 0 ≤ 0)
    (hdom : ∀ n < beta.length, |beta.getD n 0| ≤ |kappa n 0|)
    (hκT : ∀ n < beta.length, |kappa n 0| * T ≤ 1 / 2)
    (st : ℕ → St beta.length) (φ : ℕ → ℝ → ℕ → ℝ) (hrun : Run cfg st φ) (h0 : InBox beta.length (st 0).x)
    (k : ℕ) : InBox beta.length (st k).x ∧ ∀ τ ∈ Icc 0 T, InBox beta.length (φ k τ) := by
  obtain ⟨g, hg1, hg2⟩ := C60_chain beta rho kappa hb hr
  rw [hg1, Except.ok.injEq] at hsys
  subst hsys
  exact run_bounded cfg _ _ _ _ hg2 T tt2 hT h2 hdc hin hu hκ hrho
    (fun n hn => by simpa using hdom n hn) (fun n hn => by have := hκT n hn; linarith) st φ hrun h0 k

/-- C62: the same for `LeapFrog(beta, alpha, rho, kappa)` when each control dominates the two couplings of its
integrator, `|beta_n| + |alpha_n| ≤ |kappa_n|`. -/
theorem C62_leap_frog_bounded (beta alpha rho : List ℝ) (kappa : ℕ → ℕ → ℝ) (hb : beta ≠ [])
    (ha : alpha.length + 1 = beta.length) (hr : rho.length = beta.length) (cfg : Cfg beta.length)
    (hsys : leapFrog beta alpha rho (.mat beta.length 1 kappa) = .ok cfg.sys)
    (T tt2 : ℝ) (hT : 0 < T) (h2 : 0 ≤ tt2)
    (hdc : DC.new T tt2 beta.length none 0 none = .ok cfg.dc) (hin : cfg.hasInput = true)
    (hu : ∀ k t, |cfg.input k t 0| ≤ 1)
    (hκ : ∀ n < beta.length, kappa n 0 ≠ 0) (hrho : ∀ n < beta.length, rho.getD n 0 ≤ 0)
    (hdom : ∀ n < beta.length, |beta.getD n 0| + |alpha.getD n 0| ≤ |kappa n 0|)
    (hκT : ∀ n < beta.length, |kappa n 0| * T ≤ 1 / 2)
    (st : ℕ → St beta.length) (φ : ℕ → ℝ → ℕ → ℝ) (hrun : Run cfg st φ) (h0 : InBox beta.length (st 0).x)
    (k : ℕ) : InBox beta.length (st k).x ∧ ∀ τ ∈ Icc 0 T, InBox beta.length (φ k τ) := by
  obtain ⟨g, hg1, hg2⟩ := C61_leap_frog beta alpha rho kappa hb ha hr
  rw [hg1, Except.ok.injEq] at hsys
  subst hsys
  exact run_bounded cfg _ _ _ _ hg2 T tt2 hT h2 hdc hin hu hκ hrho hdom
    (fun n hn => by have := hκT n hn; linarith) st φ hrun h0 k

/-- the single-integrator example below: state after one period for input `1/2` -/
noncomputable def exNext (g : Sys ℝ) (dc : DC ℝ 1) (st : St 1) : St 1 :=
  match (Cfg.mk g dc (fun _ _ _ => 1 / 2) true).decide st with
  | .error _ => st
  | .ok c => ⟨st.ticks + 1, st.t + 1 / 2, fun n => st.x n + (1 / 2) * (1 / 2 + c.cur 0), c⟩

/-- The hypotheses of `C20_bounded` are met by a simulation: one integrator with `beta = kappa = 1`, clock period
`1/2`, constant input `1/2`, starting at `-3/4` -/
theorem ex_simulation : ∃ (cfg : Cfg 1) (st : ℕ → St 1) (φ : ℕ → ℝ → ℕ → ℝ),
    chainOfIntegrators [1] [0] (.mat 1 1 fun _ _ => 1) = .ok cfg.sys ∧
    DC.new (1 / 2) 0 1 none 0 none = .ok cfg.dc ∧ cfg.hasInput = true ∧ cfg.input = (fun _ _ _ => 1 / 2) ∧
    Run cfg st φ ∧ InBox 1 (st 0).x ∧ (st 0).x 0 = -(3 / 4) := by
  obtain ⟨g, hg, hnet⟩ := C60_chain [1] [0] (fun _ _ => 1) (by simp) rfl
  obtain ⟨dc, hdc⟩ : ∃ dc, DC.new (1 / 2 : ℝ) 0 1 none 0 none = .ok dc := by
    simp [DC.new, initIR, initOffsets]
  obtain ⟨st, hst0, hst⟩ : ∃ st : ℕ → St 1, st 0 = ⟨0, 0, fun _ => -(3 / 4), State.init⟩ ∧
      ∀ k, st (k + 1) = exNext g dc (st k) :=
    ⟨fun k => Nat.rec ⟨0, 0, fun _ => -(3 / 4), State.init⟩ (fun _ s => exNext g dc s) k, rfl, fun _ => rfl⟩
  refine ⟨⟨g, dc, fun _ _ _ => 1 / 2, true⟩, st,
    fun k τ n => (st k).x n + τ * (1 / 2 + (st (k + 1)).c.cur 0), hg, hdc, rfl, rfl, ?_, ?_, by rw [hst0]⟩
  · intro k
    have hN : g.N = 1 := hnet.n
    have hL : g.L = 1 := hnet.l
    have hT : dc.T = 1 / 2 := plain_T _ _ _ hdc
    have hdec : (Cfg.mk g dc (fun _ _ _ => 1 / 2) true).decide (st k) = .ok (st (k + 1)).c := by
      obtain ⟨y, h1, h2, -⟩ := hnet.obs (st k).x (fun _ => 1 / 2) (asVec (contribution dc (st k).c 0)).v
      have : ∃ c, (Cfg.mk g dc (fun _ _ _ => 1 / 2) true).decide (st k) = .ok c := by
        unfold Cfg.decide Cfg.u0
        dsimp only
        rw [hN, hL]
        change ∃ c, (match g.controlObservation ⟨1, (st k).x⟩ (some ⟨1, fun _ => 1 / 2⟩)
          (some ⟨1, (asVec (contribution dc (st k).c 0)).v⟩) with
          | .error e => Except.error e
          | .ok y => if y.len < 1 then Except.error Exc.indexError
            else Except.ok (update dc (st k).c 0 fun m => y.v m)) = _
        rw [show g.controlObservation ⟨1, (st k).x⟩ (some ⟨1, fun _ => 1 / 2⟩)
          (some ⟨1, (asVec (contribution dc (st k).c 0)).v⟩) = .ok y from h1]
        have h2' : y.len = 1 := h2
        dsimp only
        rw [h2', if_neg (by omega)]
        exact ⟨_, rfl⟩
      obtain ⟨c, hc⟩ := this
      rw [hst k]
      unfold exNext
      rw [hc]
    have hnext : st (k + 1) = ⟨(st k).ticks + 1, (st k).t + 1 / 2,
        fun n => (st k).x n + (1 / 2) * (1 / 2 + (st (k + 1)).c.cur 0), (st (k + 1)).c⟩ := by
      have := hst k
      unfold exNext at this
      rw [hdec] at this
      exact this
    refine ⟨hdec, fun n _ => by simp, fun n _ => by fun_prop, ?_, ?_, ?_, ?_⟩
    · intro τ hτ
      obtain ⟨d, h1, h2⟩ := hnet.deriv (fun n => (st k).x n + τ * (1 / 2 + (st (k + 1)).c.cur 0))
        (fun _ => 1 / 2) (asVec (contribution dc (st (k + 1)).c τ)).v
      refine ⟨d, ?_, ?_⟩
      · unfold Cfg.rhs
        dsimp only
        rw [if_pos rfl, hN, hL]
        exact h1
      · intro n hn
        have hn0 : n = 0 := by have : n < g.N := hn; omega
        subst hn0
        rw [h2 0 (by simp)]
        have hs : (asVec (contribution dc (st (k + 1)).c τ)).v 0 = (st (k + 1)).c.cur 0 := by
          show (if h : 0 < 1 then contribution dc (st (k + 1)).c τ ⟨0, h⟩ else 0) = _
          rw [dif_pos (by omega), plain_contribution _ _ dc hdc _ _ hτ.1]
          rfl
        rw [hs]
        have hder : HasDerivAt (fun τ : ℝ => (st k).x 0 + τ * (1 / 2 + (st (k + 1)).c.cur 0))
            (1 * (1 / 2 + (st (k + 1)).c.cur 0)) τ := ((hasDerivAt_id τ).mul_const _).const_add _
        refine HasDerivAt.hasDerivWithinAt ?_
        refine hder.congr_deriv ?_
        simp [previous]
    · intro n _
      rw [hnext]
      show _ = (st k).x n + dc.T * _
      rw [hT]
    · rw [hnext]; rfl
    · rw [hnext]
      show _ = (st k).t + dc.T
      rw [hT]
  · rw [hst0]
    intro n _
    show |(-(3 / 4) : ℝ)| ≤ 1
    rw [abs_neg, abs_of_pos] <;> norm_num

/-- its input is bounded -/
example : |(fun _ _ _ => 1 / 2 : ℕ → ℝ → ℕ → ℝ) 3 7 0| ≤ 1 := by norm_num [abs_of_pos]

end Cbadc.Simulate
