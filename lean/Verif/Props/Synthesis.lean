import Mathlib.Analysis.SpecialFunctions.Integrals.Basic
import Verif.Lemmas.Synthesis
import Verif.Spec.Synthesis
import Verif.Props.Bounded
import Verif.Props.Fom

/-! # C48, C49, C80: chain-of-integrators synthesis -/

namespace Cbadc.Synthesis
open Analog Control Signal Simulate Finset
open Analog.Spec Spec

/-! ### C48: from the oversampling ratio -/

theorem coiOsr_ok (k : Kw) (N : ℕ) (hN : N ≠ 0) (BW OSR : ℝ) (hB : 0 < BW) (hO : 0 < OSR) :
    (2 / 10 ^ 14 ≤ 1 / (2 * BW * OSR) → ∃ g dc, coiOsr k N BW OSR = .ok ⟨N, g, dc⟩ ∧
      IsNetwork g N (fun _ => BW * OSR) (fun _ => 0) (fun _ => k.rho.getD 0) (fun _ => BW * OSR) ∧
      DC.new (1 / (2 * BW * OSR)) (1 / 10 ^ 14 / 2) N none 0 none = .ok dc ∧ dc.T = 1 / (2 * BW * OSR)) ∧
    (1 / (2 * BW * OSR) < 2 / 10 ^ 14 → coiOsr k N BW OSR = .error .exception) := by
  have h1 : pyDiv 1 (2 * BW * OSR) = .ok (1 / (2 * BW * OSR)) := if_neg (by positivity)
  have h2 : pyDiv 1 (2 * (1 / (2 * BW * OSR))) = .ok (BW * OSR) := by
    unfold pyDiv
    rw [if_neg (by positivity)]
    congr 1
    field_simp
  obtain ⟨g, hg1, hg2, -⟩ := chain_eye N hN (BW * OSR) (k.rho.getD 0) (BW * OSR)
  constructor
  · intro hT
    obtain ⟨dc, h3, h4, h5⟩ := (clocked_none (1 / (2 * BW * OSR)) N).1 hT
    refine ⟨g, dc, ?_, hg2, h4, h5⟩
    unfold coiOsr
    rw [h1]
    dsimp only
    rw [h2]
    dsimp only
    rw [hg1]
    dsimp only
    rw [h3]
  · intro hT
    unfold coiOsr
    rw [h1]
    dsimp only
    rw [h2]
    dsimp only
    rw [hg1]
    dsimp only
    rw [(clocked_none (1 / (2 * BW * OSR)) N).2 hT none]

/-- **C48** `get_chain_of_integrator(N, OSR, BW)`: the clock runs at the requested oversampling ratio, all integrators
have `beta = kappa` with `beta T = 1/2`; a clock period below the `2e-14` which the clock needs raises. -/
theorem C48_osr (k : Kw) (N : ℕ) (hN : N ≠ 0) (BW OSR : ℝ) (hB : 0 < BW) (hO : 0 < OSR) (hkN : k.N = some N)
    (hkB : k.BW = some BW) (hkO : k.OSR = some OSR) (hkE : k.ENOB = none) (hkS : k.SNR = none) :
    (2 / 10 ^ 14 ≤ 1 / (2 * BW * OSR) → ∃ g dc beta T, chainSynthesis k = .ok ⟨N, g, dc⟩ ∧
      IsNetwork g N (fun _ => beta) (fun _ => 0) (fun _ => k.rho.getD 0) (fun _ => beta) ∧
      DC.new T (1 / 10 ^ 14 / 2) N none 0 none = .ok dc ∧ dc.T = T ∧ 0 < T ∧ Fom.osr (1 / T) BW = OSR ∧
      beta * T = 1 / 2) ∧
    (1 / (2 * BW * OSR) < 2 / 10 ^ 14 → chainSynthesis k = .error .exception) := by
  have e : chainSynthesis k = coiOsr k N BW OSR := by
    unfold chainSynthesis
    rw [hkN, hkB, hkO, hkE, hkS]
  rw [e]
  obtain ⟨h1, h2⟩ := coiOsr_ok k N hN BW OSR hB hO
  refine ⟨fun hT => ?_, h2⟩
  obtain ⟨g, dc, a1, a2, a3, a4⟩ := h1 hT
  refine ⟨g, dc, BW * OSR, 1 / (2 * BW * OSR), a1, a2, a3, a4, by positivity, ?_, ?_⟩
  · unfold Fom.osr Fom.nyquistFrequency
    field_simp
  · field_simp

/-- **C48** the specification by `OSR` and `T` gives the same frontend as the one by `OSR` and `BW = 1 / (2 T OSR)`, with
exactly the requested clock period. -/
theorem C48_period (N : ℕ) (hN : N ≠ 0) (T OSR : ℝ) (rho : Option ℝ) (hT : 2 / 10 ^ 14 ≤ T) (hO : 0 < OSR) :
    ∃ f, chainSynthesis { N := some N, OSR := some OSR, T := some T, rho := rho } = .ok f ∧
      chainSynthesis { N := some N, OSR := some OSR, BW := some (1 / (2 * T * OSR)), rho := rho } = .ok f ∧
      f.dc.T = T := by
  have hT0 : 0 < T := lt_of_lt_of_le (by positivity) hT
  have hper : 1 / (2 * (1 / (2 * T * OSR)) * OSR) = T := by field_simp
  have e0 : pyDiv 1 (2 * T * OSR) = .ok (1 / (2 * T * OSR)) := if_neg (by positivity)
  obtain ⟨g, dc, a1, a2, a3, a4⟩ := (coiOsr_ok { N := some N, OSR := some OSR, BW := some (1 / (2 * T * OSR)), rho := rho }
    N hN (1 / (2 * T * OSR)) OSR (by positivity) hO).1 (by rw [hper]; exact hT)
  refine ⟨⟨N, g, dc⟩, ?_, a1, by rw [← hper]; exact a4⟩
  have e : chainSynthesis { N := some N, OSR := some OSR, T := some T, rho := rho } =
      coiOsr { rho := some (rho.getD 0) } N (1 / (2 * T * OSR)) OSR := by
    unfold chainSynthesis
    dsimp only
    rw [e0]
  rw [e]
  exact a1

/-- **C48** without one of the four complete combinations of arguments, `NotImplementedError` is raised. -/
theorem C48_unsupported (k : Kw)
    (h : k.N = none ∨ (k.BW = none ∧ (k.OSR = none ∨ k.T = none)) ∨ (k.ENOB = none ∧ k.SNR = none ∧ k.OSR = none)) :
    chainSynthesis k = .error .notImplemented := by
  obtain ⟨kN, kB, kE, kS, kO, kT, _, _, _, _, _, _, _⟩ := k
  dsimp only at h
  unfold chainSynthesis
  rcases h with rfl | ⟨rfl, rfl | rfl⟩ | ⟨rfl, rfl, rfl⟩
  · rfl
  · cases kN <;> cases kE <;> cases kS <;> cases kT <;> rfl
  · cases kN <;> cases kE <;> cases kS <;> cases kO <;> rfl
  · cases kN <;> cases kB <;> cases kT <;> rfl

/-- every frontend from an oversampling specification with such numbers -/
example : ∃ f, chainSynthesis { N := some 4, OSR := some 32, BW := some 1000000 } = .ok f := by
  obtain ⟨g, dc, beta, T, h, -⟩ := (C48_osr { N := some 4, OSR := some 32, BW := some 1000000 } 4 (by norm_num) 1000000 32
    (by norm_num) (by norm_num) rfl rfl rfl rfl rfl).1 (by norm_num)
  exact ⟨_, h⟩

example : ∃ f, chainSynthesis { N := some 4, OSR := some 32, T := some (1 / 64000000) } = .ok f :=
  (C48_period 4 (by norm_num) (1 / 64000000) 32 none (by norm_num) (by norm_num)).imp fun _ h => h.1

/-! ### C80: from the number of effective bits -/

theorem coiGamma_pos (N : ℕ) (xi e : ℝ) (hx : 0 < xi) : 0 < coiGamma N xi e := by
  unfold coiGamma
  apply Real.rpow_pos_of_pos
  have h1 : 0 < gi N := by unfold gi; positivity
  have h2 := Fom.C46_dB_inverse.2.2.1 (Fom.enobToSnr e)
  positivity

theorem coiGamma_pow (N : ℕ) (hN : N ≠ 0) (xi e : ℝ) (hx : 0 < xi) :
    coiGamma N xi e ^ (2 * N) = xi / gi N * Fom.snrFromDB (Fom.enobToSnr e) := by
  have h1 : 0 < gi N := by unfold gi; positivity
  have h2 := Fom.C46_dB_inverse.2.2.1 (Fom.enobToSnr e)
  unfold coiGamma
  rw [← Real.rpow_natCast, ← Real.rpow_mul (by positivity)]
  have : 1 / (2 * (N : ℝ)) * ((2 * N : ℕ) : ℝ) = 1 := by
    have : (N : ℝ) ≠ 0 := Nat.cast_ne_zero.2 hN
    push_cast
    field_simp
  rw [this, Real.rpow_one]

/-- the leak of every integrator in an `ENOB` design -/
noncomputable def enobLeak (k : Kw) (N : ℕ) (BW gamma : ℝ) : ℝ :=
  (if k.localFeedback then -(2 * Real.pi * BW) / gamma else k.rho.getD 0) +
    (if k.finiteGain then -(2 * Real.pi * BW) / gamma ^ (2 * N) else 0)

theorem coiEnob_ok (k : Kw) (N : ℕ) (hN : N ≠ 0) (BW e xi : ℝ) (hB : 0 < BW) (hx : k.xi.getD (23 / 10000) = xi) (hx0 : 0 < xi)
    (hsw : k.switchCap = false) (hd : 0 ≤ k.excessDelay.getD 0 ∧ k.excessDelay.getD 0 ≤ 1)
    (hT : 2 / 10 ^ 14 ≤ 1 / (2 * (coiGamma N xi e * (2 * Real.pi * BW)))) :
    ∃ g dc, coiEnob k N BW e = .ok ⟨N, g, dc⟩ ∧
      IsNetwork g N (fun _ => -coiGamma N xi e * (2 * Real.pi * BW)) (fun _ => 0)
        (fun _ => enobLeak k N BW (coiGamma N xi e)) (fun _ => -coiGamma N xi e * (2 * Real.pi * BW)) ∧
      DC.new (1 / (2 * (coiGamma N xi e * (2 * Real.pi * BW)))) (1 / 10 ^ 14 / 2) N none 0 none = .ok dc ∧
      dc.T = 1 / (2 * (coiGamma N xi e * (2 * Real.pi * BW))) ∧
      (∀ r < N, ∀ c < N, g.A r c = if r = c then enobLeak k N BW (coiGamma N xi e)
        else if r = c + 1 then -coiGamma N xi e * (2 * Real.pi * BW) else 0) ∧
      (∀ r c, g.B r c = if r = 0 then -coiGamma N xi e * (2 * Real.pi * BW) else 0) ∧
      (∀ r c, g.CT r c = if r = c then 1 else 0) ∧ (∀ r c, g.D r c = 0) := by
  have hγ := coiGamma_pos N xi e hx0
  obtain ⟨γ, hγe⟩ : ∃ γ, γ = coiGamma N xi e := ⟨_, rfl⟩
  rw [← hγe] at hγ hT ⊢
  have hπ := Real.pi_pos
  obtain ⟨ω, hω⟩ : ∃ ω, ω = 2 * Real.pi * BW := ⟨_, rfl⟩
  have hω0 : 0 < ω := by rw [hω]; positivity
  obtain ⟨T, hTe⟩ : ∃ T, T = 1 / (2 * (γ * ω)) := ⟨_, rfl⟩
  have hT0 : 0 < T := by rw [hTe]; positivity
  rw [← hω, ← hTe] at hT
  rw [← hω, ← hTe]
  have habs : 1 / |2 * (-γ * ω)| = T := by
    rw [hTe]
    congr 1
    rw [abs_of_neg (by nlinarith [mul_pos hγ hω0])]
    ring
  obtain ⟨rho, hrho⟩ : ∃ rho, rho = if k.localFeedback then -ω / γ else k.rho.getD 0 := ⟨_, rfl⟩
  obtain ⟨g, hg1, hg2, hg3, hgA, hgB, hgC, hgD⟩ := chain_eye N hN (-γ * ω) rho (-γ * ω)
  obtain ⟨dc, h3, h4, h5⟩ := (clocked_none T N).1 hT
  obtain ⟨dc', hdc', -⟩ := (clocked_some T N hN hT (stepResponse (T * k.excessDelay.getD 0))).1
    ⟨by show 0 ≤ T * _; exact mul_nonneg hT0.le hd.1, by
      show T * _ ≤ T
      have := mul_le_mul_of_nonneg_left hd.2 hT0.le
      linarith⟩
  have hstep : coiEnob k N BW e = if k.finiteGain then
      .ok ⟨N, { g with A := fun r c => g.A r c + (if r = c then -ω / γ ^ (2 * N) else 0) }, dc⟩ else .ok ⟨N, g, dc⟩ := by
    unfold coiEnob
    rw [if_neg hN, hx, ← hγe, ← hω]
    dsimp only
    rw [← hrho, hg1]
    dsimp only
    rw [hsw, habs]
    simp only [Bool.false_eq_true, if_false]
    rw [hdc']
    dsimp only
    rw [h3]
    dsimp only
    rw [hg1]
  have hleak : enobLeak k N BW γ = rho + (if k.finiteGain then -ω / γ ^ (2 * N) else 0) := by
    unfold enobLeak
    rw [hrho, ← hω]
  rw [hstep, hleak]
  by_cases hf : k.finiteGain = true
  · rw [if_pos hf, if_pos hf]
    refine ⟨_, dc, rfl, hg3 _, h4, h5, ?_, hgB, hgC, hgD⟩
    intro r hr c hc
    dsimp only
    rw [hgA r hr c hc]
    by_cases h : r = c
    · rw [if_pos h, if_pos h, if_pos h]
    · rw [if_neg h, if_neg h, if_neg h, add_zero]
  · rw [if_neg hf, if_neg hf, add_zero]
    exact ⟨g, dc, rfl, hg2, h4, h5, hgA, hgB, hgC, hgD⟩

/-- **C80** `get_chain_of_integrator(ENOB, N, BW)`: the clock period is `1 / (2 |beta|)` and the control as strong as the
coupling, with `|beta| = gamma 2 pi BW` and `gamma^(2N) (2N+1) = xi * SNR`. -/
theorem C80_design (k : Kw) (N : ℕ) (hN : N ≠ 0) (BW e xi : ℝ) (hB : 0 < BW) (hkN : k.N = some N) (hkB : k.BW = some BW)
    (hkE : k.ENOB = some e) (hx : k.xi.getD (23 / 10000) = xi) (hx0 : 0 < xi) (hsw : k.switchCap = false)
    (hd : 0 ≤ k.excessDelay.getD 0 ∧ k.excessDelay.getD 0 ≤ 1)
    (hT : 2 / 10 ^ 14 ≤ 1 / (2 * (coiGamma N xi e * (2 * Real.pi * BW)))) :
    ∃ g dc beta gamma, chainSynthesis k = .ok ⟨N, g, dc⟩ ∧
      IsNetwork g N (fun _ => beta) (fun _ => 0) (fun _ => enobLeak k N BW gamma) (fun _ => beta) ∧
      DC.new dc.T (1 / 10 ^ 14 / 2) N none 0 none = .ok dc ∧ |beta| * dc.T = 1 / 2 ∧ 0 < gamma ∧
      |beta| = gamma * (2 * Real.pi * BW) ∧
      gamma ^ (2 * N) * (2 * N + 1) = xi * Fom.snrFromDB (Fom.enobToSnr e) := by
  have e0 : chainSynthesis k = coiEnob k N BW e := by
    unfold chainSynthesis
    rw [hkN, hkB, hkE]
  obtain ⟨g, dc, h1, h2, h3, h4, -⟩ := coiEnob_ok k N hN BW e xi hB hx hx0 hsw hd hT
  have hγ := coiGamma_pos N xi e hx0
  have hπ := Real.pi_pos
  have hb : |-coiGamma N xi e * (2 * Real.pi * BW)| = coiGamma N xi e * (2 * Real.pi * BW) := by
    rw [neg_mul, abs_neg, abs_of_pos (by positivity)]
  refine ⟨g, dc, _, coiGamma N xi e, e0.trans h1, h2, by rw [h4]; exact h3, ?_, hγ, hb, ?_⟩
  · rw [hb, h4]
    field_simp
  · rw [coiGamma_pow N hN xi e hx0]
    unfold gi
    field_simp

/-- **C80** an SNR in decibel and the corresponding number of bits give the same frontend. -/
theorem C80_snr (k : Kw) (s : ℝ) (hE : k.ENOB = none) (hB : k.BW ≠ none) (hS : k.SNR = some s) :
    chainSynthesis k = chainSynthesis { k with ENOB := some (Fom.snrToEnob s) } := by
  obtain ⟨kN, kB, kE, kS, kO, kT, _, _, _, _, _, _, _⟩ := k
  dsimp only at hE hB hS
  subst hE hS
  cases kB with
  | none => exact absurd rfl hB
  | some BW =>
    unfold chainSynthesis
    dsimp only
    cases kN <;> rfl

/-- **C80** more bits need a faster clock. -/
theorem C80_faster (k : Kw) (N : ℕ) (hN : N ≠ 0) (BW e e' xi : ℝ) (hB : 0 < BW) (hkN : k.N = some N) (hkB : k.BW = some BW)
    (hx : k.xi.getD (23 / 10000) = xi) (hx0 : 0 < xi) (hsw : k.switchCap = false)
    (hd : 0 ≤ k.excessDelay.getD 0 ∧ k.excessDelay.getD 0 ≤ 1) (hee : e < e')
    (hT : 2 / 10 ^ 14 ≤ 1 / (2 * (coiGamma N xi e' * (2 * Real.pi * BW)))) :
    ∃ f f', chainSynthesis { k with ENOB := some e } = .ok f ∧ chainSynthesis { k with ENOB := some e' } = .ok f' ∧
      f'.dc.T < f.dc.T := by
  have hγ := coiGamma_pos N xi e hx0
  have hπ := Real.pi_pos
  have hlt : coiGamma N xi e < coiGamma N xi e' := by
    unfold coiGamma
    have h1 : 0 < gi N := by unfold gi; positivity
    have h2 := Fom.C46_dB_inverse.2.2.1 (Fom.enobToSnr e)
    have h3 : Fom.snrFromDB (Fom.enobToSnr e) < Fom.snrFromDB (Fom.enobToSnr e') :=
      Fom.C46_dB_inverse.2.2.2.1 (Fom.C46_enob_inverse.2.2.1 hee)
    have hN0 : (0 : ℝ) < N := Nat.cast_pos.2 (Nat.pos_of_ne_zero hN)
    apply Real.rpow_lt_rpow (by positivity) _ (by positivity)
    exact mul_lt_mul_of_pos_left h3 (by positivity)
  have hTlt : 1 / (2 * (coiGamma N xi e' * (2 * Real.pi * BW))) < 1 / (2 * (coiGamma N xi e * (2 * Real.pi * BW))) := by
    apply one_div_lt_one_div_of_lt (by positivity)
    have := mul_lt_mul_of_pos_right hlt (show 0 < 2 * Real.pi * BW by positivity)
    linarith
  have e0 : ∀ x, chainSynthesis { k with ENOB := some x } = coiEnob { k with ENOB := some x } N BW x := by
    intro x
    unfold chainSynthesis
    dsimp only
    rw [hkN, hkB]
  obtain ⟨g, dc, h1, -, -, h4, -⟩ := coiEnob_ok { k with ENOB := some e } N hN BW e xi hB hx hx0 hsw hd (hT.trans hTlt.le)
  obtain ⟨g', dc', h1', -, -, h4', -⟩ := coiEnob_ok { k with ENOB := some e' } N hN BW e' xi hB hx hx0 hsw hd hT
  refine ⟨_, _, (e0 e).trans h1, (e0 e').trans h1', ?_⟩
  show dc'.T < dc.T
  rw [h4, h4']
  exact hTlt

/-- amplitudes along a chain of lossless integrators -/
theorem chain_amplitude (g : Sys ℝ) (N : ℕ) (beta : ℝ) (hgN : g.N = N) (hgL : g.L = 1) (hgNt : g.Nt = N)
    (hA : ∀ r < N, ∀ c < N, g.A r c = if r = c then 0 else if r = c + 1 then beta else 0)
    (hB : ∀ r c, g.B r c = if r = 0 then beta else 0) (hC : ∀ r c, g.CT r c = if r = c then 1 else 0)
    (hD : ∀ r c, g.D r c = 0) (s : ℂ) (hs : s ≠ 0) (u y : ℕ → ℂ) :
    Transfers (cplx g) s u y ↔ ∀ n < N, y n = ((beta : ℂ) / s) ^ (n + 1) * u 0 := by
  have rowA : ∀ (x : ℕ → ℂ) r, r < N → ∑ c ∈ range N, (cplx g).A r c * x c = if r = 0 then 0 else beta * x (r - 1) := by
    intro x r hr
    by_cases h0 : r = 0
    · rw [if_pos h0]
      apply Finset.sum_eq_zero
      intro c hc
      rw [mem_range] at hc
      show ((g.A r c : ℝ) : ℂ) * x c = 0
      rw [hA r hr c hc]
      by_cases h1 : r = c
      · rw [if_pos h1]; simp
      · rw [if_neg h1, if_neg (by omega)]; simp
    · rw [if_neg h0, Finset.sum_eq_single (r - 1)]
      · show ((g.A r (r - 1) : ℝ) : ℂ) * x (r - 1) = _
        rw [hA r hr _ (by omega), if_neg (by omega), if_pos (by omega)]
      · intro c hc hne
        rw [mem_range] at hc
        show ((g.A r c : ℝ) : ℂ) * x c = 0
        rw [hA r hr c hc]
        by_cases h1 : r = c
        · rw [if_pos h1]; simp
        · rw [if_neg h1, if_neg (by omega)]; simp
      · intro h
        exact absurd (mem_range.2 (by omega)) h
  have rowB : ∀ r, ∑ c ∈ range 1, (cplx g).B r c * u c = if r = 0 then beta * u 0 else 0 := by
    intro r
    rw [Finset.sum_range_one]
    show ((g.B r 0 : ℝ) : ℂ) * u 0 = _
    rw [hB]
    split_ifs <;> simp
  have out : ∀ (x : ℕ → ℂ) r, r < N → (∑ c ∈ range N, (cplx g).CT r c * x c) + ∑ c ∈ range 1, (cplx g).D r c * u c = x r := by
    intro x r hr
    rw [Finset.sum_range_one]
    have e1 : (cplx g).D r 0 = 0 := by
      show ((g.D r 0 : ℝ) : ℂ) = 0
      rw [hD]
      simp
    rw [e1, zero_mul, add_zero, Finset.sum_eq_single r]
    · show ((g.CT r r : ℝ) : ℂ) * x r = _
      rw [hC, if_pos rfl]
      simp
    · intro c _ hne
      show ((g.CT r c : ℝ) : ℂ) * x c = 0
      rw [hC, if_neg (Ne.symm hne)]
      simp
    · intro h
      exact absurd (mem_range.2 hr) h
  have eN : (cplx g).N = N := hgN
  have eL : (cplx g).L = 1 := hgL
  have eNt : (cplx g).Nt = N := hgNt
  unfold Transfers StateEq OutEq
  rw [eN, eL, eNt]
  constructor
  · rintro ⟨x, h1, h2⟩
    have hx : ∀ n < N, x n = ((beta : ℂ) / s) ^ (n + 1) * u 0 := by
      intro n
      induction n with
      | zero =>
        intro hn
        have := h1 0 hn
        rw [rowA x 0 hn, rowB, if_pos rfl, if_pos rfl, zero_add] at this
        have h3 : x 0 = beta * u 0 / s := by
          rw [eq_div_iff hs]
          linear_combination this
        rw [h3]
        ring
      | succ n ih =>
        intro hn
        have := h1 (n + 1) hn
        rw [rowA x _ hn, rowB, if_neg (by omega), if_neg (by omega), add_zero, Nat.add_sub_cancel, ih (by omega)] at this
        have h3 : x (n + 1) = beta * ((beta / s) ^ (n + 1) * u 0) / s := by
          rw [eq_div_iff hs]
          linear_combination this
        rw [h3]
        ring
    intro n hn
    rw [h2 n hn, out x n hn, hx n hn]
  · intro h
    refine ⟨fun n => ((beta : ℂ) / s) ^ (n + 1) * u 0, ?_, ?_⟩
    · intro r hr
      rw [rowA _ r hr, rowB]
      by_cases h0 : r = 0
      · rw [if_pos h0, if_pos h0, h0]
        have h4 : s * (beta / s) = beta := mul_div_cancel₀ _ hs
        linear_combination u 0 * h4
      · rw [if_neg h0, if_neg h0, add_zero]
        obtain ⟨q, rfl⟩ : ∃ q, r = q + 1 := ⟨r - 1, by omega⟩
        rw [Nat.add_sub_cancel]
        dsimp only
        rw [pow_succ _ (q + 1)]
        have h4 : s * (beta / s) = beta := mul_div_cancel₀ _ hs
        linear_combination u 0 * ((beta : ℂ) / s) ^ (q + 1) * h4
    · intro r hr
      rw [out _ r hr, h r hr]

/-- **C80** the design equation is the in-band noise of the linear model: for lossless integrators, a disturbance of the
last integrator's output that corresponds to an input amplitude `H(w)` times smaller (`H` the gain from the input to the
last integrator) has the mean power `1 / (xi SNR)` over the band. -/
theorem C80_in_band (k : Kw) (N : ℕ) (hN : N ≠ 0) (BW e xi : ℝ) (hB : 0 < BW) (hkN : k.N = some N) (hkB : k.BW = some BW)
    (hkE : k.ENOB = some e) (hx : k.xi.getD (23 / 10000) = xi) (hx0 : 0 < xi) (hsw : k.switchCap = false)
    (hd : 0 ≤ k.excessDelay.getD 0 ∧ k.excessDelay.getD 0 ≤ 1) (hr : k.rho.getD 0 = 0) (hlf : k.localFeedback = false)
    (hfg : k.finiteGain = false) (hT : 2 / 10 ^ 14 ≤ 1 / (2 * (coiGamma N xi e * (2 * Real.pi * BW)))) :
    ∃ f, chainSynthesis k = .ok f ∧ ∀ H : ℝ → ℝ,
      (∀ w : ℝ, 0 < w → ∀ u y, Transfers (cplx f.sys) (Complex.I * w) u y → ‖y (N - 1)‖ = H w * ‖u 0‖) →
      (∫ w in (0 : ℝ)..(2 * Real.pi * BW), (1 / H w) ^ 2) / (2 * Real.pi * BW) =
        1 / (xi * Fom.snrFromDB (Fom.enobToSnr e)) := by
  have e0 : chainSynthesis k = coiEnob k N BW e := by
    unfold chainSynthesis
    rw [hkN, hkB, hkE]
  obtain ⟨g, dc, h1, h2, -, -, hA, hgB, hgC, hgD⟩ := coiEnob_ok k N hN BW e xi hB hx hx0 hsw hd hT
  refine ⟨_, e0.trans h1, fun H hH => ?_⟩
  have hγ := coiGamma_pos N xi e hx0
  have hpow := coiGamma_pow N hN xi e hx0
  obtain ⟨γ, hγe⟩ : ∃ γ, γ = coiGamma N xi e := ⟨_, rfl⟩
  have hπ := Real.pi_pos
  obtain ⟨ω, hω⟩ : ∃ ω, ω = 2 * Real.pi * BW := ⟨_, rfl⟩
  have hω0 : 0 < ω := by rw [hω]; positivity
  rw [← hγe] at hγ hpow hA hgB
  rw [← hω] at hA hgB ⊢
  have hleak : enobLeak k N BW γ = 0 := by
    unfold enobLeak
    rw [hlf, hfg]
    simp only [Bool.false_eq_true, if_false]
    rw [hr, add_zero]
  rw [hleak] at hA
  have hHw : ∀ w : ℝ, 0 < w → H w = (γ * ω / w) ^ N := by
    intro w hw
    have hs : Complex.I * (w : ℂ) ≠ 0 := mul_ne_zero Complex.I_ne_zero (Complex.ofReal_ne_zero.2 hw.ne')
    have hT' := (chain_amplitude g N (-γ * ω) h2.n h2.l h2.nt hA hgB hgC hgD (Complex.I * w) hs (fun _ => 1)
      (fun n => (((-γ * ω : ℝ) : ℂ) / (Complex.I * w)) ^ (n + 1) * 1)).2 (fun _ _ => rfl)
    have := hH w hw _ _ hT'
    rw [norm_one, mul_one, mul_one, Nat.sub_add_cancel (Nat.one_le_iff_ne_zero.2 hN), norm_pow, norm_div, norm_mul,
      Complex.norm_I, one_mul, Complex.norm_real, Complex.norm_real, Real.norm_eq_abs, Real.norm_eq_abs, abs_of_pos hw,
      neg_mul, abs_neg, abs_of_pos (mul_pos hγ hω0)] at this
    exact this.symm
  have hint : ∫ w in (0 : ℝ)..ω, (1 / H w) ^ 2 = ∫ w in (0 : ℝ)..ω, w ^ (2 * N) * (1 / (γ * ω) ^ (2 * N)) := by
    apply intervalIntegral.integral_congr_ae
    apply Filter.Eventually.of_forall
    intro w hw
    rw [Set.uIoc_of_le hω0.le] at hw
    rw [hHw w hw.1]
    have hw0 := hw.1.ne'
    rw [one_div, ← inv_pow, inv_div, ← pow_mul, mul_comm N 2, div_pow]
    ring
  rw [hint, intervalIntegral.integral_mul_const, integral_pow]
  have h1' : 0 < gi N := by unfold gi; positivity
  have h2' := Fom.C46_dB_inverse.2.2.1 (Fom.enobToSnr e)
  have hz : (0 : ℝ) ^ (2 * N + 1) = 0 := zero_pow (by omega)
  rw [hz, mul_pow, hpow]
  unfold gi
  push_cast
  have hne : ω ^ (2 * N) ≠ 0 := pow_ne_zero _ hω0.ne'
  rw [pow_succ]
  field_simp
  ring

/-- a design of five integrators with 12 bits in 1 Hz meets all hypotheses -/
theorem exT : 2 / 10 ^ 14 ≤ 1 / (2 * (coiGamma 1 (1 / 100) 1 * (2 * Real.pi * 1))) := by
  have hγ : coiGamma 1 (1 / 100) 1 ≤ 1 := by
    unfold coiGamma
    apply Real.rpow_le_one
    · have := Fom.C46_dB_inverse.2.2.1 (Fom.enobToSnr 1)
      unfold gi
      positivity
    · rw [(Fom.C46_ideal_quantiser 1).1]
      unfold gi
      norm_num
    · norm_num
  have h0 := coiGamma_pos 1 (1 / 100) 1 (by norm_num)
  have hπ := Real.pi_pos
  have hπ4 := Real.pi_le_four
  rw [le_div_iff₀ (by positivity)]
  have : coiGamma 1 (1 / 100) 1 * (2 * Real.pi * 1) ≤ 1 * 8 := by
    apply mul_le_mul hγ (by linarith) (by positivity) (by norm_num)
  nlinarith

/-- the keyword arguments of the example -/
noncomputable def exKw : Kw := { N := some 1, BW := some 1, ENOB := some 1, xi := some (1 / 100) }

example : ∃ g dc beta gamma, chainSynthesis exKw = .ok ⟨1, g, dc⟩ ∧
    IsNetwork g 1 (fun _ => beta) (fun _ => 0) (fun _ => enobLeak exKw 1 1 gamma) (fun _ => beta) ∧
      DC.new dc.T (1 / 10 ^ 14 / 2) 1 none 0 none = .ok dc ∧ |beta| * dc.T = 1 / 2 ∧ 0 < gamma ∧
      |beta| = gamma * (2 * Real.pi * 1) ∧
      gamma ^ (2 * 1) * (2 * (1 : ℕ) + 1) = 1 / 100 * Fom.snrFromDB (Fom.enobToSnr 1) :=
  C80_design exKw 1 one_ne_zero 1 1 (1 / 100) one_pos rfl rfl rfl rfl (by norm_num) rfl ⟨le_rfl, zero_le_one⟩ exT

/-! ### C48, C80: boundedness -/

/-- a chain of equal, not positively fed back integrators with the default control of half the strength `1 / T` -/
def IsHalf (N : ℕ) (g : Sys ℝ) (dc : DC ℝ N) : Prop :=
  ∃ beta rho T, beta ≠ 0 ∧ rho ≤ 0 ∧ 0 < T ∧ |beta| * T = 1 / 2 ∧ dc.T = T ∧
    IsNetwork g N (fun _ => beta) (fun _ => 0) (fun _ => rho) (fun _ => beta) ∧
    DC.new T (1 / 10 ^ 14 / 2) N none 0 none = .ok dc

/-- **C48** every frontend synthesised with positive specifications, without positive feedback and with the default
digital control is bounded: in every simulation with an input within `[-1, 1]` that starts with all states in `[-1, 1]`,
all states stay in `[-1, 1]` at all times. -/
theorem C48_bounded (k : Kw) (N : ℕ) (hN : N ≠ 0) (g : Sys ℝ) (dc : DC ℝ N) (hkN : k.N = some N)
    (hB : ∀ b, k.BW = some b → 0 < b) (hO : ∀ o, k.OSR = some o → 0 < o) (hT : ∀ t, k.T = some t → 0 < t)
    (hx : 0 < k.xi.getD (23 / 10000)) (hrho : k.rho.getD 0 ≤ 0) (hsw : k.switchCap = false)
    (hd : 0 ≤ k.excessDelay.getD 0 ∧ k.excessDelay.getD 0 ≤ 1)
    (h : chainSynthesis k = .ok ⟨N, g, dc⟩) (cfg : Cfg N) (hcs : cfg.sys = g) (hcd : cfg.dc = dc)
    (hin : cfg.hasInput = true) (hu : ∀ k t, |cfg.input k t 0| ≤ 1) (st : ℕ → St N) (φ : ℕ → ℝ → ℕ → ℝ)
    (hrun : Run cfg st φ) (h0 : InBox N (st 0).x) (j : ℕ) :
    InBox N (st j).x ∧ ∀ τ ∈ Set.Icc 0 dc.T, InBox N (φ j τ) := by
  have main : IsHalf N g dc := by
    have fromOsr : ∀ (k' : Kw) (b o : ℝ), 0 < b → 0 < o → k'.rho.getD 0 ≤ 0 → coiOsr k' N b o = .ok ⟨N, g, dc⟩ → IsHalf N g dc := by
      intro k' b o hb ho hr hok
      obtain ⟨p1, p2⟩ := coiOsr_ok k' N hN b o hb ho
      by_cases hc : 2 / 10 ^ 14 ≤ 1 / (2 * b * o)
      · obtain ⟨g', dc', q1, q2, q3, q4⟩ := p1 hc
        rw [q1] at hok
        cases hok
        refine ⟨b * o, k'.rho.getD 0, 1 / (2 * b * o), by positivity, hr, by positivity, ?_, q4, q2, q3⟩
        rw [abs_of_pos (by positivity)]
        field_simp
      · rw [p2 (not_le.1 hc)] at hok
        cases hok
    have fromEnob : ∀ (b e : ℝ), 0 < b → coiEnob k N b e = .ok ⟨N, g, dc⟩ → IsHalf N g dc := by
      intro b e hb hok
      have hπ := Real.pi_pos
      have hγ := coiGamma_pos N _ e hx
      by_cases hc : 2 / 10 ^ 14 ≤ 1 / (2 * (coiGamma N (k.xi.getD (23 / 10000)) e * (2 * Real.pi * b)))
      · obtain ⟨g', dc', q1, q2, q3, q4, -⟩ := coiEnob_ok k N hN b e _ hb rfl hx hsw hd hc
        rw [q1] at hok
        cases hok
        refine ⟨_, _, _, ?_, ?_, ?_, ?_, q4, q2, q3⟩
        · rw [neg_mul]
          exact neg_ne_zero.2 (by positivity)
        · unfold enobLeak
          have hp : (0 : ℝ) < 2 * Real.pi * b := by positivity
          have h1 : (if k.localFeedback then -(2 * Real.pi * b) / coiGamma N (k.xi.getD (23 / 10000)) e else k.rho.getD 0) ≤ 0 := by
            split_ifs
            · exact div_nonpos_of_nonpos_of_nonneg (by linarith) hγ.le
            · exact hrho
          have h2 : (if k.finiteGain then -(2 * Real.pi * b) / coiGamma N (k.xi.getD (23 / 10000)) e ^ (2 * N) else 0) ≤ 0 := by
            split_ifs
            · exact div_nonpos_of_nonpos_of_nonneg (by linarith) (by positivity)
            · exact le_rfl
          linarith
        · positivity
        · rw [neg_mul, abs_neg, abs_of_pos (by positivity)]
          field_simp
      · exfalso
        have hbad := (clocked_none (1 / |2 * (-coiGamma N (k.xi.getD (23 / 10000)) e * (2 * Real.pi * b))|) N).2 (by
          rw [abs_of_neg (by nlinarith [mul_pos hγ (show 0 < 2 * Real.pi * b by positivity)])]
          have : -(2 * (-coiGamma N (k.xi.getD (23 / 10000)) e * (2 * Real.pi * b))) =
              2 * (coiGamma N (k.xi.getD (23 / 10000)) e * (2 * Real.pi * b)) := by ring
          rw [this]
          exact not_le.1 hc)
        unfold coiEnob at hok
        rw [if_neg hN] at hok
        dsimp only at hok
        split at hok
        · cases hok
        · rw [hsw] at hok
          simp only [Bool.false_eq_true, if_false] at hok
          rw [hbad] at hok
          cases hok
    unfold chainSynthesis at h
    rw [hkN] at h
    dsimp only at h
    cases hkB : k.BW with
    | some b =>
      have hb := hB b hkB
      rw [hkB] at h
      cases hkE : k.ENOB with
      | some e =>
        rw [hkE] at h
        refine fromEnob b e hb ?_
        rw [← h]
      | none =>
        rw [hkE] at h
        cases hkS : k.SNR with
        | some s =>
          rw [hkS] at h
          refine fromEnob b (Fom.snrToEnob s) hb ?_
          rw [← h]
        | none =>
          rw [hkS] at h
          cases hkO : k.OSR with
          | some o =>
            rw [hkO] at h
            refine fromOsr k b o hb (hO o hkO) hrho ?_
            rw [← h]
          | none =>
            rw [hkO] at h
            cases hkT : k.T <;> rw [hkT] at h <;> cases h
    | none =>
      rw [hkB] at h
      cases hkO : k.OSR with
      | none =>
        rw [hkO] at h
        cases hkE : k.ENOB <;> cases hkS : k.SNR <;> cases hkT : k.T <;> rw [hkE, hkS, hkT] at h <;> cases h
      | some o =>
        rw [hkO] at h
        cases hkT : k.T with
        | none =>
          rw [hkT] at h
          cases hkE : k.ENOB <;> cases hkS : k.SNR <;> rw [hkE, hkS] at h <;> cases h
        | some t =>
          rw [hkT] at h
          have ho := hO o hkO
          have ht := hT t hkT
          have hd1 : pyDiv 1 (2 * t * o) = .ok (1 / (2 * t * o)) := if_neg (by positivity)
          refine fromOsr { rho := some (k.rho.getD 0) } (1 / (2 * t * o)) o (by positivity) ho hrho ?_
          rw [← h]
          cases k.ENOB <;> cases k.SNR <;> (dsimp only; rw [hd1])
  obtain ⟨beta, rho, T, b0, r0, T0, bT, dT, hnet, hdc⟩ := main
  subst hcs hcd
  rw [dT]
  exact run_bounded cfg _ _ _ _ hnet T _ T0 (by positivity) hdc hin hu (fun _ _ => b0) (fun _ _ => r0)
    (fun n _ => by rw [abs_zero, add_zero]) (fun n _ => by linarith) st φ hrun h0 j

/-! ### C49: excess delay -/

/-- **C49 is false**: the frontend synthesised with half a period of excess delay has decisions which take effect at once;
it is the one synthesised without. -/
theorem C49_false :
    ∃ f, chainSynthesis { exKw with excessDelay := some (1 / 2) } = .ok f ∧ chainSynthesis exKw = .ok f ∧
      f.M = 1 ∧ 0 < f.dc.T ∧ ∀ m, (f.dc.ir m).t0 = 0 := by
  have hπ := Real.pi_pos
  have hγ := coiGamma_pos 1 (1 / 100) 1 (by norm_num)
  obtain ⟨g, dc, h1, -, h3, h4, -⟩ := coiEnob_ok exKw 1 one_ne_zero 1 1 (1 / 100) one_pos rfl (by norm_num) rfl
    ⟨le_rfl, zero_le_one⟩ exT
  have hdc : ∀ m, (dc.ir m).t0 = 0 := by
    intro m
    have : DC.new (1 / (2 * (coiGamma 1 (1 / 100) 1 * (2 * Real.pi * 1)))) (1 / 10 ^ 14 / 2) 1 none 0 none =
        .ok ⟨1 / (2 * (coiGamma 1 (1 / 100) 1 * (2 * Real.pi * 1))), 1 / 10 ^ 14 / 2, 0, fun _ => stepResponse 0,
          fun _ => 0⟩ := by
      unfold DC.new
      rw [if_neg (lt_irrefl _)]
      rfl
    rw [this] at h3
    cases h3
    rfl
  have hsame : coiEnob { exKw with excessDelay := some (1 / 2) } 1 1 1 = coiEnob exKw 1 1 1 := by
    have hT := exT
    have hTe : 1 / |2 * (-coiGamma 1 (1 / 100) 1 * (2 * Real.pi * 1))| =
        1 / (2 * (coiGamma 1 (1 / 100) 1 * (2 * Real.pi * 1))) := by
      congr 1
      rw [abs_of_neg (by nlinarith [mul_pos hγ (show 0 < 2 * Real.pi * 1 by positivity)])]
      ring
    obtain ⟨T, hTd⟩ : ∃ T, T = 1 / (2 * (coiGamma 1 (1 / 100) 1 * (2 * Real.pi * 1))) := ⟨_, rfl⟩
    have hT0 : 0 < T := by rw [hTd]; positivity
    rw [← hTd] at hT hTe
    obtain ⟨d1, e1, -⟩ := (clocked_some T 1 one_ne_zero hT (stepResponse (T * (1 / 2)))).1
      ⟨by show 0 ≤ T * (1 / 2); positivity, by show T * (1 / 2) ≤ T; linarith⟩
    obtain ⟨d2, e2, -⟩ := (clocked_some T 1 one_ne_zero hT (stepResponse (T * 0))).1
      ⟨by show 0 ≤ T * 0; rw [mul_zero], by show T * 0 ≤ T; rw [mul_zero]; exact hT0.le⟩
    unfold coiEnob
    simp only [exKw, Option.getD_some, Option.getD_none, Bool.false_eq_true, if_false, one_ne_zero]
    rw [hTe, e1, e2]
  refine ⟨⟨1, g, dc⟩, ?_, h1, rfl, ?_, hdc⟩
  · show coiEnob { exKw with excessDelay := some (1 / 2) } 1 1 1 = _
    rw [hsame]
    exact h1
  · show 0 < dc.T
    rw [h4]
    positivity

/-- **C49 (part that holds)** with the switched-capacitor digital control every decision takes effect `excess_delay`
periods after the clock edge; a delay outside the period raises. -/
theorem C49_switch_cap_partial (k : Kw) (N : ℕ) (hN : N ≠ 0) (BW e xi d : ℝ) (hB : 0 < BW) (hkN : k.N = some N)
    (hkB : k.BW = some BW) (hkE : k.ENOB = some e) (hx : k.xi.getD (23 / 10000) = xi) (hx0 : 0 < xi)
    (hsw : k.switchCap = true) (hd : k.excessDelay.getD 0 = d)
    (hT : 2 / 10 ^ 14 ≤ 1 / (2 * (coiGamma N xi e * (2 * Real.pi * BW)))) :
    (0 ≤ d ∧ d ≤ 1 → ∃ g dc, chainSynthesis k = .ok ⟨N, g, dc⟩ ∧ 0 < dc.T ∧ dc.tDelay = 0 ∧
      ∀ m, (dc.ir m).t0 = d * dc.T ∧ (∀ t < d * dc.T, (dc.ir m).f t = 0) ∧ (dc.ir m).f (d * dc.T) = 1) ∧
    (¬ (0 ≤ d ∧ d ≤ 1) → chainSynthesis k = .error .exception) := by
  have e0 : chainSynthesis k = coiEnob k N BW e := by
    unfold chainSynthesis
    rw [hkN, hkB, hkE]
  have hγ := coiGamma_pos N xi e hx0
  have hπ := Real.pi_pos
  obtain ⟨γ, hγe⟩ : ∃ γ, γ = coiGamma N xi e := ⟨_, rfl⟩
  rw [← hγe] at hγ hT
  obtain ⟨ω, hω⟩ : ∃ ω, ω = 2 * Real.pi * BW := ⟨_, rfl⟩
  have hω0 : 0 < ω := by rw [hω]; positivity
  obtain ⟨T, hTe⟩ : ∃ T, T = 1 / (2 * (γ * ω)) := ⟨_, rfl⟩
  have hT0 : 0 < T := by rw [hTe]; positivity
  rw [← hω, ← hTe] at hT
  have habs : 1 / |2 * (-γ * ω)| = T := by
    rw [hTe]
    congr 1
    rw [abs_of_neg (by nlinarith [mul_pos hγ hω0])]
    ring
  obtain ⟨rho, hrho⟩ : ∃ rho, rho = if k.localFeedback then -ω / γ else k.rho.getD 0 := ⟨_, rfl⟩
  obtain ⟨g, hg1, -⟩ := chain_eye N hN (-γ * ω) rho (-γ * ω)
  obtain ⟨g', hg1', -⟩ := chain_eye N hN (-γ * ω) rho (1 / 2 * (-γ * ω) * 50)
  obtain ⟨c1, c2⟩ := clocked_some T N hN hT (rcResponse (1 / (|-γ * ω| * 50)) (T * d))
  have hin : (0 ≤ T * d ∧ T * d ≤ T) ↔ (0 ≤ d ∧ d ≤ 1) := by
    constructor
    · rintro ⟨h1, h2⟩
      refine ⟨nonneg_of_mul_nonneg_right h1 hT0, ?_⟩
      by_contra hc
      have := mul_lt_mul_of_pos_left (not_le.1 hc) hT0
      linarith
    · rintro ⟨h1, h2⟩
      have := mul_le_mul_of_nonneg_left h2 hT0.le
      exact ⟨mul_nonneg hT0.le h1, by linarith⟩
  rw [e0]
  constructor
  · intro h
    obtain ⟨dc, q1, q2, q3, q4, -⟩ := c1 (hin.2 h)
    have hfin : ∀ m, (dc.ir m).t0 = d * dc.T ∧ (∀ t < d * dc.T, (dc.ir m).f t = 0) ∧ (dc.ir m).f (d * dc.T) = 1 := by
      intro m
      rw [q4 m, q2, mul_comm d T]
      refine ⟨rfl, fun t ht => if_pos ht, ?_⟩
      show (if T * d < T * d then (0 : ℝ) else Real.exp ((T * d - T * d) / _)) = 1
      rw [if_neg (lt_irrefl _), sub_self, zero_div, Real.exp_zero]
    have hpos : 0 < dc.T := by rw [q2]; exact hT0
    have hstep : coiEnob k N BW e = if k.finiteGain then
        .ok ⟨N, { g' with A := fun r c => g'.A r c + (if r = c then -ω / γ ^ (2 * N) else 0) }, dc⟩ else .ok ⟨N, g', dc⟩ := by
      unfold coiEnob
      rw [if_neg hN, hx, ← hγe, ← hω]
      dsimp only
      rw [← hrho, hg1]
      dsimp only
      rw [hsw, habs, hd]
      simp only [if_true]
      rw [q1]
      dsimp only
      rw [hg1']
    rw [hstep]
    by_cases hf : k.finiteGain = true
    · rw [if_pos hf]
      exact ⟨_, dc, rfl, hpos, q3, hfin⟩
    · rw [if_neg hf]
      exact ⟨_, dc, rfl, hpos, q3, hfin⟩
  · intro h
    have q := c2 (fun hc => h (hin.1 hc))
    unfold coiEnob
    rw [if_neg hN, hx, ← hγe, ← hω]
    dsimp only
    rw [← hrho, hg1]
    dsimp only
    rw [hsw, habs, hd]
    simp only [if_true]
    rw [q]

example : ∃ g dc, chainSynthesis { exKw with excessDelay := some (1 / 2), switchCap := true } = .ok ⟨1, g, dc⟩ := by
  obtain ⟨g, dc, h, -⟩ := (C49_switch_cap_partial { exKw with excessDelay := some (1 / 2), switchCap := true } 1 one_ne_zero
    1 1 (1 / 100) (1 / 2) one_pos rfl rfl rfl rfl (by norm_num) rfl rfl exT).1 ⟨by norm_num, by norm_num⟩
  exact ⟨g, dc, h⟩

/-- `C80_snr`, `C80_faster`: a specification by a signal-to-noise ratio, and one with half a bit less. -/
example : (∃ k' : Kw, chainSynthesis { N := some 1, BW := some 1, SNR := some 60 } = chainSynthesis k' ∧ k'.ENOB ≠ none) ∧
    ∃ f f', chainSynthesis { exKw with ENOB := some (1 / 2) } = .ok f ∧ chainSynthesis { exKw with ENOB := some 1 } = .ok f' ∧
      f'.dc.T < f.dc.T :=
  ⟨⟨_, C80_snr { N := some 1, BW := some 1, SNR := some 60 } 60 rfl (by simp) rfl, by simp⟩,
    C80_faster exKw 1 one_ne_zero 1 (1 / 2) 1 (1 / 100) one_pos rfl rfl rfl (by norm_num) rfl ⟨le_rfl, zero_le_one⟩ (by norm_num)
      exT⟩


end Cbadc.Synthesis
