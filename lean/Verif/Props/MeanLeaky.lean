import Verif.Props.Mean
import Verif.Props.FilterBackends

/-! # A leaky integrator makes a DC error (C149) -/

namespace Cbadc.EndToEnd

open Matrix Set Filter.Spec Cbadc.Analog Cbadc.Analog.Spec Cbadc.Control Cbadc.Estimator Cbadc.Simulate Cbadc.Filter Cbadc.Streams

/-- The chain of one leaky integrator (`src/cbadc/analog_system/chain_of_integrators.py:72-106` for `beta = [1]`, `rho = kappa = [-1]`). -/
noncomputable abbrev exLeaky : Sys ℝ := ⟨1, 1, 1, 1, 1, fun r c => (if r = c then [(-1 : ℝ)].getD r 0 else 0) + (if r = c + 1 then
  [(1 : ℝ)].tail.getD c 0 else 0), fun i _ => if i = 0 then [(1 : ℝ)].getD 0 0 else 0, fun i j => if i = j then 1 else 0,
  some (fun i j => if i = j then -1 else 0), some (gammaTOf 1 fun i j => if i = j then -1 else 0), fun _ _ => 0, fun _ _ => 0, fun _ _ => 0⟩

theorem leaky_eq : chainOfIntegrators [1] [-1] (.mat 1 1 fun _ _ => -1) = .ok exLeaky := chain_eq [1] [-1] (by simp) rfl fun _ _ => -1

theorem leaky_A : toM exLeaky.N exLeaky.N exLeaky.A = -1 := mat1_ext (by simp [toM])

theorem leaky_cct : cct exLeaky (1 / 8) = (8 : ℝ) • 1 := by
  rw [cct_eq (by norm_num)]
  exact mat1_ext (by simp [Matrix.mul_apply, toM])

theorem mat1_vec (X : Matrix (Fin 1) (Fin 1) ℝ) (v : Fin 1 → ℝ) : X *ᵥ v = fun _ => X 0 0 * v 0 := by
  funext i
  obtain rfl : i = 0 := Subsingleton.elim _ _
  simp [Matrix.mulVec, dotProduct]

/-- with input 1 the state stays positive and all control signals are 1 -/
theorem leaky_run {cfg : Cfg 1} (hs : cfg.sys = exLeaky) (hdc : cfg.dc = exControl) (hin : cfg.hasInput = true)
    (hu : ∀ k t l, cfg.input k t l = 1) {st : ℕ → St 1} {φ : ℕ → ℝ → ℕ → ℝ} (hr : Run cfg st φ) (h0 : 0 ≤ (st 0).x 0) (k : ℕ) :
    0 ≤ (st k).x 0 ∧ signal (st (k + 1)).c = fun _ => 1 := by
  obtain ⟨sys, dc, input, b⟩ := cfg
  dsimp only at hs hdc hin hu
  subst hs hdc hin
  obtain ⟨g, hg1, hnet⟩ := C60_chain [1] [-1] (fun _ _ => -1) (by simp) rfl
  change chainOfIntegrators [1] [-1] (.mat 1 1 fun _ _ => -1) = .ok g at hg1
  rw [leaky_eq, Except.ok.injEq] at hg1
  subst hg1
  have hsig : ∀ k, 0 ≤ (st k).x 0 → signal (st (k + 1)).c = fun _ => 1 := by
    intro k hk
    obtain ⟨y, hy, -, hc⟩ := (decide_ok _ (st k) _).1 (hr k).dec
    obtain ⟨y', hy', -, hv⟩ := hnet.obs (st k).x (fun l => if true = true then input (st k).ticks (0 + (st k).t) l else 0)
      (asVec (contribution exControl (st k).c 0)).v
    have e : y = y' := Except.ok.inj (hy.symm.trans hy')
    have hy0 : y.v 0 = (st k).x 0 := by
      rw [e]
      exact (hv 0 (by simp)).2 (by norm_num)
    rw [hc]
    funext m
    show (if allclose (0 : ℝ) 0 0 then (if (0 : ℝ) ≤ y.v m then (1 : ℝ) else 0) else _) = 1
    have ha : allclose (0 : ℝ) 0 0 := by unfold allclose; simp
    rw [if_pos ha, show (m : ℕ) = 0 by omega, hy0, if_pos hk]
  have hpos : ∀ k, 0 ≤ (st k).x 0 := by
    intro k
    induction k with
    | zero => exact h0
    | succ k ih =>
      have hx := (run_explains (cfg := ⟨exLeaky, exControl, input, true⟩) rfl rfl hr (k + 1)).flow k (Nat.lt_succ_self k)
      have hv := run_valued (cfg := ⟨exLeaky, exControl, input, true⟩) (fun _ => rfl) le_rfl hr k
      rw [hsig k ih] at hv
      have hx' : Flow (-1) (fun _ _ => 0) 0 (1 / 2) fun t (n : Fin 1) => φ k t n := by
        refine ⟨hx.cont, fun t ht => (hx.ode t ht).congr_deriv ?_⟩
        have hcon : contribution exControl (st (k + 1)).c t = fun _ => 1 := by
          funext m
          unfold contribution
          show (if t < 0 then _ else (if (0 : ℝ) ≤ t then (1 : ℝ) else 0)) * (if t < 0 then _ else (st (k + 1)).c.cur m) = 1
          rw [if_neg (not_lt.2 ht.1), if_pos ht.1, if_neg (not_lt.2 ht.1), hv]
          show 1 * (2 * (1 : ℝ) - 1) = 1
          norm_num
        refine congrArg₂ (· + ·) (congrFun (congrArg _ leaky_A) _) ?_
        change toM 1 1 exLeaky.B *ᵥ (fun l : Fin 1 => input ((st k).ticks + 1) (t + (st k).t) l) +
          toM 1 1 (fun i j => if i = j then (-1 : ℝ) else 0) *ᵥ contribution exControl (st (k + 1)).c t = _
        rw [hcon, mat1_vec, mat1_vec, hu]
        funext i
        simp [toM]
      have hd := flow_decay (X := -1) rfl 0 ((st k).x 0) 0 (1 / 2)
      have hend := flow_unique hx' hd (by
        funext n
        have := (hr k).start n (by have := n.2; exact this)
        rw [this, show (n : ℕ) = 0 by omega]
        simp) (1 / 2) ⟨by norm_num, le_rfl⟩
      have h1 := congrFun hend 0
      have h2 : (st (k + 1)).x 0 = φ k (1 / 2) 0 := (hr k).stop 0 (by norm_num)
      rw [h2]
      change φ k (1 / 2) 0 = _ at h1
      rw [h1]
      have := Real.exp_pos (-(1 / 2 : ℝ))
      nlinarith
  exact ⟨hpos k, hsig k (hpos k)⟩

/-- sampled means under a constant control -/
theorem fSum_const {N M L : ℕ} (c : Coeffs ℝ N M L) (v : Fin M → ℝ) {m : Fin N → ℝ} (h : m = c.Af *ᵥ m + c.Bf *ᵥ v) (k : ℕ) :
    fSum c (fun _ => v) k = m - c.Af ^ k *ᵥ m := by
  induction k with
  | zero => simp [fSum]
  | succ k ih =>
    rw [fSum_succ, ih, mulVec_sub, pow_succ', ← mulVec_mulVec]
    linear_combination (exp := 1) -h

theorem bSum_const {N M L : ℕ} (c : Coeffs ℝ N M L) (v : Fin M → ℝ) {m : Fin N → ℝ} (h : m = c.Ab *ᵥ m + c.Bb *ᵥ v) (K d : ℕ) (hd : d ≤ K) :
    bSum c K (fun _ => v) (K - d) = m - c.Ab ^ d *ᵥ m := by
  induction d with
  | zero => rw [Nat.sub_zero, bSum_end, pow_zero, one_mulVec, sub_self]
  | succ d ih =>
    rw [bSum_succ c K _ (by omega), show K - (d + 1) + 1 = K - d by omega, ih (by omega), mulVec_sub, pow_succ', ← mulVec_mulVec]
    linear_combination (exp := 1) -h

theorem pow_mat1 (a : ℝ) (X : Matrix (Fin 1) (Fin 1) ℝ) (hX : X = Matrix.of fun _ _ => a) (k : ℕ) : (X ^ k) 0 0 = a ^ k := by
  induction k with
  | zero => simp
  | succ k ih => rw [pow_succ, Matrix.mul_apply, Fin.sum_univ_one, ih, pow_succ, hX]; rfl

/-- **C149** False for a first integrator that leaks: the chain of one integrator with `rho = -1` under the conditions of C20, with the
exact filter coefficients for `eta2 = 1/8`, simulated with the constant input 1 from any non-negative state, gives estimates with a mean
of at most 8/9, over every horizon. -/
theorem C149_leaky_false :
    ∃ Vf Vb, ∃ c : Coeffs ℝ exLeaky.N 1 exLeaky.L, Numerical exLeaky (fun i j => if i = j then -1 else 0) exControl (1 / 8) Vf Vb c ∧
      IsStabilising (careA exLeaky) (careB exLeaky) (careQ exLeaky) (careR exLeaky (1 / 8)) Vf ∧
      IsStabilising (-careA exLeaky) (careB exLeaky) (careQ exLeaky) (careR exLeaky (1 / 8)) Vb ∧
      ∀ s0 : St 1, 0 ≤ s0.x 0 → ∃ st φ, st 0 = s0 ∧ Run ⟨exLeaky, exControl, fun _ _ _ => 1, true⟩ st φ ∧ ∀ K : ℕ,
        (∑ k ∈ Finset.range K, (Cbadc.Spec.future c.WT c.Ab c.Bb (Cbadc.Spec.ext fun k => signal (st (k + 1)).c) k (K - k) -
          Cbadc.Spec.past c.WT c.Af c.Bf (Cbadc.Spec.ext fun k => signal (st (k + 1)).c) k k)) 0 ≤ K * (8 / 9) := by
  have hro := C144_chain [1] [-1] (fun _ _ => -1) (by simp) rfl exLeaky leaky_eq
  have hreach := hro.1.2 (by simp)
  obtain ⟨Vf, Vb, c, ⟨hf, hb, hn⟩, -⟩ := C147_coefficients (eta2 := 1 / 8) (by norm_num) hreach hro.2 (fun i j => if i = j then -1 else 0) exControl
    (show (0 : ℝ) ≤ 1 / 2 by norm_num) fun _ => default_waveform (1 / 2)
  refine ⟨Vf, Vb, c, hn, hf, hb, fun s0 h0 => ?_⟩
  obtain ⟨st, φ, hst, hr⟩ := C148_run ⟨exLeaky, exControl, fun _ _ _ => 1, true⟩ (show (0 : ℝ) ≤ 1 / 2 by norm_num) (fun _ => ⟨.step 0 1, rfl⟩)
    (fun _ _ => continuous_const) ⟨by simp, rfl, by simp, le_rfl⟩ s0
  refine ⟨st, φ, hst, hr, fun K => ?_⟩
  obtain ⟨-, pf, pb, -, -, -⟩ := C144_filters (c := c) hf hb (by norm_num) hreach
  -- the solutions of the Riccati equations
  have hric := hn.cares.riccati
  have hBB : toM exLeaky.N exLeaky.L exLeaky.B * (toM exLeaky.N exLeaky.L exLeaky.B)ᵀ = 1 := mat1_ext (by simp [Matrix.mul_apply, toM])
  rw [hBB, leaky_A, leaky_cct] at hric
  have f0 : 0 < Vf 0 0 := pf.diag_pos
  have b0 : 0 < Vb 0 0 := pb.diag_pos
  have r1 : -1 * Vf 0 0 + Vf 0 0 * -1 - 8 * (Vf 0 0 * Vf 0 0) + 1 = 0 := by
    have := congrFun₂ hric.1 0 0
    simpa [Matrix.mul_apply] using this
  have r2 : 1 * Vb 0 0 + Vb 0 0 - 8 * (Vb 0 0 * Vb 0 0) + 1 = 0 := by
    have := congrFun₂ hric.2 0 0
    simpa [Matrix.mul_apply] using this
  have v1 : Vf 0 0 = 1 / 4 := by
    have : (Vf 0 0 - 1 / 4) * (8 * Vf 0 0 + 4) = 0 := by linear_combination -r1
    rcases mul_eq_zero.1 this with h | h <;> linarith
  have v2 : Vb 0 0 = 1 / 2 := by
    have : (Vb 0 0 - 1 / 2) * (8 * Vb 0 0 + 2) = 0 := by linear_combination -r2
    rcases mul_eq_zero.1 this with h | h <;> linarith
  have hV : IsUnit (Vf + Vb).det := (pf.add pb).det_pos.ne'.isUnit
  have tf : tempAf exLeaky (1 / 8) Vf = (-3 : ℝ) • 1 := by
    rw [tempAf, leaky_A, leaky_cct]
    refine mat1_ext ?_
    have : (-1 : Matrix (Fin 1) (Fin 1) ℝ) 0 0 - (Vf * ((8 : ℝ) • 1)) 0 0 = ((-3 : ℝ) • (1 : Matrix (Fin 1) (Fin 1) ℝ)) 0 0 := by
      rw [Matrix.mul_smul, Matrix.mul_one]
      simp [v1]
      norm_num
    exact this
  have tb : tempAb exLeaky (1 / 8) Vb = (3 : ℝ) • 1 := by
    rw [tempAb, leaky_A, leaky_cct]
    refine mat1_ext ?_
    have : (-1 : Matrix (Fin 1) (Fin 1) ℝ) 0 0 + (Vb * ((8 : ℝ) • 1)) 0 0 = ((3 : ℝ) • (1 : Matrix (Fin 1) (Fin 1) ℝ)) 0 0 := by
      rw [Matrix.mul_smul, Matrix.mul_one]
      simp [v2]
      norm_num
    exact this
  have hW : c.WT 0 0 = 4 / 3 := by
    have h1 := hn.common.WT
    have h2 : (Vf + Vb)ᵀ * ((Vf + Vb) * c.WTᵀ - toM exLeaky.N exLeaky.L exLeaky.B) = 0 := h1
    have h3 := congrFun₂ h2 0 0
    have h4 : (Vf 0 0 + Vb 0 0) * ((Vf 0 0 + Vb 0 0) * c.WT 0 0 - 1) = 0 := by
      have e : toM exLeaky.N exLeaky.L exLeaky.B 0 0 = 1 := by simp [toM]
      rw [Matrix.mul_apply] at h3
      change ∑ j : Fin 1, _ = (0 : ℝ) at h3
      rw [Fin.sum_univ_one, Matrix.sub_apply, Matrix.mul_apply] at h3
      change _ * ((∑ j : Fin 1, _) - _) = (0 : ℝ) at h3
      rw [Fin.sum_univ_one] at h3
      change (Vf 0 0 + Vb 0 0) * ((Vf 0 0 + Vb 0 0) * c.WT 0 0 - toM exLeaky.N exLeaky.L exLeaky.B 0 0) = 0 at h3
      rwa [e] at h3
    rw [v1, v2] at h4
    linarith
  have hAf : c.Af = Matrix.of fun _ _ => Real.exp (-(3 / 2)) := by
    have := hn.common.Af
    rw [this, tf, smul_smul]
    change NormedSpace.exp ((1 / 2 * -3 : ℝ) • (1 : Matrix (Fin 1) (Fin 1) ℝ)) = _
    rw [exp_mat1]
    norm_num
  have hAb : c.Ab = Matrix.of fun _ _ => Real.exp (-(3 / 2)) := by
    have := hn.common.Ab
    rw [this, tb, ← neg_smul, smul_smul]
    change NormedSpace.exp ((1 / 2 * -3 : ℝ) • (1 : Matrix (Fin 1) (Fin 1) ℝ)) = _
    rw [exp_mat1]
    norm_num
  -- the settled filters
  obtain ⟨sf, sb⟩ := C96_numpy hn (show (0 : ℝ) ≤ 1 / 2 by norm_num)
  have hdrive : ∀ t ∈ Ico (0 : ℝ) (1 / 2), (fun _ => -1 : Fin exLeaky.N → ℝ) =
      toM exLeaky.N 1 (fun i j => if i = j then (-1 : ℝ) else 0) *ᵥ fun m : Fin 1 => (exControl.ir m).f t * (fun _ => 1 : Fin 1 → ℝ) m := by
    intro t ht
    change _ = toM 1 1 (fun i j => if i = j then (-1 : ℝ) else 0) *ᵥ fun m : Fin 1 => (if (0 : ℝ) ≤ t then (1 : ℝ) else 0) * 1
    rw [mat1_vec, if_pos ht.1]
    funext i
    simp [toM]
  have mf : (fun _ => -(1 / 3) : Fin 1 → ℝ) = c.Af *ᵥ (fun _ => -(1 / 3)) + c.Bf *ᵥ fun _ => 1 :=
    sf (fun _ => 1) (fun _ _ => -(1 / 3)) ((flow_const (q := fun _ => -1) (by
      rw [tf, smul_mulVec, one_mulVec]
      funext i
      show -3 * -(1 / 3) + -1 = (0 : ℝ)
      norm_num) _).congr hdrive)
  have mb : (fun _ => 1 / 3 : Fin 1 → ℝ) = c.Ab *ᵥ (fun _ => 1 / 3) + c.Bb *ᵥ fun _ => 1 :=
    sb (fun _ => 1) (fun _ _ => 1 / 3) ((flow_const (q := fun _ => -1) (by
      rw [tb, smul_mulVec, one_mulVec]
      funext i
      show 3 * (1 / 3) + -1 = (0 : ℝ)
      norm_num) _).congr hdrive)
  have hsig : (fun k => signal (st (k + 1)).c) = fun _ _ => (1 : ℝ) :=
    funext fun k => (leaky_run rfl rfl rfl (fun _ _ _ => rfl) hr (hst ▸ h0) k).2
  have hval : (fun _ : ℕ => valued (fun _ => (1 : ℝ) : Fin 1 → ℝ)) = fun _ _ => 1 := by
    funext _ m
    show 2 * (1 : ℝ) - 1 = 1
    norm_num
  rw [hsig, Finset.sum_apply]
  refine (Finset.sum_le_sum fun k hk => show _ ≤ (8 / 9 : ℝ) from ?_).trans (by rw [Finset.sum_const, Finset.card_range, nsmul_eq_mul])
  have hk := Finset.mem_range.1 hk
  have e1 := fSum_past c (fun _ _ => (1 : ℝ)) k
  have e2 := bSum_future c K (fun _ _ => (1 : ℝ)) k
  have e3 := bSum_const c (fun _ => 1) mb K (K - k) (Nat.sub_le _ _)
  rw [show K - (K - k) = k by omega] at e3
  rw [hval, fSum_const c (fun _ => 1) mf] at e1
  rw [hval, e3] at e2
  rw [Pi.sub_apply, ← e1, ← e2]
  change (c.WT *ᵥ ((fun _ : Fin 1 => (1 / 3 : ℝ)) - c.Ab ^ (K - k) *ᵥ fun _ => 1 / 3)) (0 : Fin 1) -
    (c.WT *ᵥ ((fun _ : Fin 1 => (-(1 / 3) : ℝ)) - c.Af ^ k *ᵥ fun _ => -(1 / 3))) (0 : Fin 1) ≤ 8 / 9
  have g1 := pow_mat1 _ c.Af hAf k
  have g2 := pow_mat1 _ c.Ab hAb (K - k)
  rw [mat1_vec c.WT, mat1_vec c.WT, mat1_vec (c.Ab ^ (K - k)), mat1_vec (c.Af ^ k), Pi.sub_apply, Pi.sub_apply, g1, g2]
  change c.WT 0 0 * (1 / 3 - _ * (1 / 3)) - c.WT 0 0 * (-(1 / 3) - _ * -(1 / 3)) ≤ 8 / 9
  rw [hW]
  have p1 := pow_pos (Real.exp_pos (-(3 / 2))) k
  have p2 := pow_pos (Real.exp_pos (-(3 / 2))) (K - k)
  nlinarith

/-- the chain meets the other conditions of `C149_chain`, and the input has mean 1 -/
example : |([1] : List ℝ).getD 0 0| ≤ |(-1 : ℝ)| ∧ |(-1 : ℝ)| * (1 / 2) ≤ 1 / 2 ∧ ([-1] : List ℝ).getD 0 0 ≤ 0 := by norm_num

end Cbadc.EndToEnd
