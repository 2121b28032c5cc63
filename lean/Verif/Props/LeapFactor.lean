import Verif.Lemmas.LeapFactor
import Verif.Props.LeapFrog

/-! # C177: the integration factor of the leap-frog synthesis -/

namespace Cbadc.Synthesis
open Analog Control Signal Simulate Finset
open Analog.Spec Spec

/-- the sum of the inverses of the first `N + 1` odd numbers (specification) -/
noncomputable def oddSum (N : ℕ) : ℝ := ∑ k ∈ range (N + 1), 1 / (2 * k + 1 : ℝ)

theorem oddSum_pos (N : ℕ) : 0 < oddSum N :=
  Finset.sum_pos (fun k _ => by positivity) ⟨0, mem_range.2 (Nat.succ_pos N)⟩

theorem cos_prod (N : ℕ) (v : ℝ) :
    ∏ j ∈ Icc 1 N, (v + Real.cos (j * Real.pi / (N + 1))) = (Polynomial.Chebyshev.U ℝ N).eval v / 2 ^ N := by
  rw [U_prod, mul_div_cancel_left₀ _ (by positivity)]
  refine Finset.prod_bij' (fun j _ => N - j) (fun k _ => N - k) ?_ ?_ ?_ ?_ ?_
  · intro j hj; rw [Finset.mem_Icc] at hj; rw [mem_range]; omega
  · intro k hk; rw [mem_range] at hk; rw [Finset.mem_Icc]; omega
  · intro j hj; rw [Finset.mem_Icc] at hj; omega
  · intro k hk; rw [mem_range] at hk; omega
  · intro j hj
    rw [Finset.mem_Icc] at hj
    have : (((N - j : ℕ) : ℝ) + 1) * Real.pi / (N + 1) = Real.pi - j * Real.pi / (N + 1) := by
      rw [Nat.cast_sub hj.2]
      have : (N : ℝ) + 1 ≠ 0 := by positivity
      field_simp
      ring
    rw [this, Real.cos_pi_sub]
    ring

theorem cos_integral (N : ℕ) :
    ∫ v in (0 : ℝ)..1, (∏ j ∈ Icc 1 N, (v + Real.cos (j * Real.pi / (N + 1)))) ^ 2 = oddSum N / 4 ^ N := by
  simp only [cos_prod, div_pow]
  rw [intervalIntegral.integral_div, integral_U_sq, ← pow_mul, mul_comm N 2, pow_mul]
  norm_num [oddSum]

/-- **C177** the integration factor: the expression integrated by `g_i(N)` depends neither on the symbol of the bandwidth
nor on the one of the gain, so that a number is returned, and this number is `4^N / (1 + 1/3 + ... + 1/(2N+1))`. -/
theorem C177_factor (N : ℕ) (omegaP gamma : ℝ) (ho : 0 < omegaP) (hg : 0 < gamma) :
    leapGExpr N omegaP gamma = leapG N ∧ leapG N = 4 ^ N / oddSum N := by
  have main : ∀ w g : ℝ, 0 < w → 0 < g → leapGExpr N w g = 4 ^ N / oddSum N := by
    intro w g hw hg
    have hn : ∀ x : ℝ, ‖leapH N w g x‖ ^ 2 =
        (fun v => (∏ j ∈ Icc 1 N, (v + Real.cos (j * Real.pi / (N + 1)))) ^ 2) (x / w) * (1 / g ^ (2 * N)) := by
      intro x
      have hscale : ∏ j ∈ Icc 1 N, (x + w * Real.cos (j * Real.pi / (N + 1))) =
          w ^ N * ∏ j ∈ Icc 1 N, (x / w + Real.cos (j * Real.pi / (N + 1))) := by
        have : w ^ N = ∏ j ∈ Icc 1 N, w := by simp
        rw [this, ← Finset.prod_mul_distrib]
        apply Finset.prod_congr rfl
        intro j _
        field_simp
      unfold leapH
      rw [norm_div, norm_prod, norm_pow, Complex.norm_real, Real.norm_eq_abs, abs_of_pos (mul_pos hg hw)]
      have ht : ∀ j ∈ Icc 1 N, ‖Complex.I * ((x + w * Real.cos (j * Real.pi / (N + 1)) : ℝ) : ℂ)‖ =
          |x + w * Real.cos (j * Real.pi / (N + 1))| := by
        intro j _
        rw [norm_mul, Complex.norm_I, one_mul, Complex.norm_real, Real.norm_eq_abs]
      rw [Finset.prod_congr rfl ht, ← Finset.abs_prod, div_pow, sq_abs, hscale]
      have := hw.ne'
      have := hg.ne'
      dsimp only
      generalize ∏ j ∈ Icc 1 N, (x / w + Real.cos (j * Real.pi / (N + 1))) = P
      field_simp
      ring
    unfold leapGExpr
    simp only [hn]
    rw [intervalIntegral.integral_mul_const,
      intervalIntegral.integral_comp_div (fun v => (∏ j ∈ Icc 1 N, (v + Real.cos (j * Real.pi / (N + 1)))) ^ 2) hw.ne',
      zero_div, div_self hw.ne', smul_eq_mul, cos_integral]
    have := (oddSum_pos N).ne'
    field_simp
  have h1 : leapG N = 4 ^ N / oddSum N := main 1 1 one_pos one_pos
  exact ⟨(main omegaP gamma ho hg).trans h1.symm, h1⟩

theorem leapG_pos (N : ℕ) : 0 < leapG N := by
  rw [(C177_factor N 1 1 one_pos one_pos).2]
  exact div_pos (by positivity) (oddSum_pos N)

example : leapG 1 = 3 ∧ leapG 2 = 240 / 23 := by
  constructor <;> rw [(C177_factor _ 1 1 one_pos one_pos).2] <;> norm_num [oddSum, Finset.sum_range_succ]

/-- **C177** `get_leap_frog(ENOB, N, BW)` with its own integration factor: the mean over the band of the squared inverse
gain from the input to the last integrator is `1 / (xi SNR)`, for every order. -/
theorem C177_in_band (k : Kw) (N : ℕ) (hN : N ≠ 0) (BW e xi : ℝ) (hB : 0 < BW) (hx : k.xi.getD (4 / 1000) = xi)
    (hx0 : 0 < xi) (hd : k.delta = none) (hkN : k.N = some N) (hkB : k.BW = some BW) (hkE : k.ENOB = some e) (T : ℝ)
    (hT0 : 2 / 10 ^ 14 ≤ T)
    (hT : (1 / (4 * Real.pi * BW * T)) ^ (2 * N) * (4 ^ N / oddSum N) = xi * Fom.snrFromDB (Fom.enobToSnr e)) :
    ∃ f, leapSynthesis k leapG = .ok f ∧ f.dc.T = T ∧ ∀ H : ℝ → ℝ,
      (∀ w : ℝ, 0 < w → ∀ u y, Transfers (cplx f.sys) (Complex.I * w) u y → ‖u 0‖ = H w * ‖y (N - 1)‖) →
      (∫ w in (0 : ℝ)..(2 * Real.pi * BW), H w ^ 2) / (2 * Real.pi * BW) =
        1 / (xi * Fom.snrFromDB (Fom.enobToSnr e)) := by
  have hπ := Real.pi_pos
  have hTp : 0 < T := lt_of_lt_of_le (by norm_num) hT0
  have hd1 : k.delta.getD 1 = 1 := by rw [hd]; rfl
  have hG := (C177_factor N 1 1 one_pos one_pos).2
  have uniq : ∀ T' : ℝ, 0 < T' →
      (1 / (2 * T' * (2 * Real.pi * BW))) ^ (2 * N) * leapG N = xi * Fom.snrFromDB (Fom.enobToSnr e) → T' = T := by
    intro T' h0 he
    rw [← hT, ← hG, mul_left_inj' (leapG_pos N).ne'] at he
    have := (pow_left_inj₀ (by positivity) (by positivity) (by omega : 2 * N ≠ 0)).1 he
    rw [div_eq_div_iff (by positivity) (by positivity), one_mul, one_mul] at this
    have h3 : 4 * Real.pi * BW ≠ 0 := by positivity
    apply mul_left_cancel₀ h3
    linarith
  have hTe : (leapEnob k (leapG N) N BW e).T = T := by
    obtain ⟨-, -, -, -, -, h7, h8⟩ := leapEnob_ok k (leapG N) (leapG_pos N) N hN BW e xi hB hx hx0 (by rw [hd1]; exact one_pos)
    exact uniq _ h7 h8
  have hint : leapG N * ∫ v in (0 : ℝ)..1, (∏ j ∈ Icc 1 N, (v + Real.cos (j * Real.pi / (N + 1)))) ^ 2 = 1 := by
    rw [cos_integral, hG]
    have := (oddSum_pos N).ne'
    field_simp
  obtain ⟨f, h1, h2⟩ := C81_in_band k leapG N hN BW e xi (leapG_pos N) hB hint hx hx0 hd hkN hkB hkE (by rw [hTe]; exact hT0)
  obtain ⟨g, dc, beta, alpha, T', r1, r2, r3, r4⟩ := C81_enob k leapG N hN BW e xi (leapG_pos N) hB hx hx0
    (by rw [hd1]; exact one_pos) hkN hkB hkE (by rw [hTe]; exact hT0)
  have hf : f = ⟨N, g, dc⟩ := by
    rw [h1] at r1
    cases r1
    rfl
  refine ⟨f, h1, ?_, h2⟩
  rw [hf]
  exact r2.per.trans (uniq T' r3 r4)

theorem oddSum_le (N : ℕ) : oddSum N ≤ 1 + N / 3 := by
  induction N with
  | zero => simp [oddSum]
  | succ n ih =>
    have h : oddSum (n + 1) = oddSum n + 1 / (2 * ((n + 1 : ℕ) : ℝ) + 1) := Finset.sum_range_succ _ (n + 1)
    have h2 : 1 / (2 * ((n + 1 : ℕ) : ℝ) + 1) ≤ 1 / 3 := by
      apply one_div_le_one_div_of_le (by norm_num)
      push_cast
      have : (0 : ℝ) ≤ n := by positivity
      linarith
    rw [h]
    push_cast at h2 ⊢
    linarith

theorem odd_bound (N : ℕ) (hN : N ≠ 0) :
    (2 * N + 1) * oddSum N ≤ 4 ^ N ∧ ((2 * N + 1) * oddSum N < 4 ^ N ↔ 2 ≤ N) := by
  have h1 : (2 * (1 : ℕ) + 1) * oddSum 1 = 4 ^ 1 := by norm_num [oddSum, Finset.sum_range_succ]
  have h2 : ∀ n : ℕ, 2 ≤ n → (2 * n + 1) * oddSum n < 4 ^ n := by
    intro n hn
    have hq : (2 * n + 1 : ℝ) * (1 + n / 3) < 4 ^ n := by
      induction n, hn using Nat.le_induction with
      | base => norm_num
      | succ m hm ih =>
        rw [pow_succ]
        push_cast
        have : (2 : ℝ) ≤ m := by exact_mod_cast hm
        nlinarith
    exact lt_of_le_of_lt (mul_le_mul_of_nonneg_left (oddSum_le n) (by positivity)) hq
  by_cases hc : 2 ≤ N
  · exact ⟨(h2 N hc).le, fun _ => hc, fun _ => h2 N hc⟩
  · have : N = 1 := by omega
    subst this
    exact ⟨h1.le, fun h => absurd h (not_lt.2 h1.ge), fun h => absurd h hc⟩

/-- **C177** for the same specification with the same `xi`, the leap-frog structure has the slower clock: the ratio of the
clock periods to the power `2N` is `4^N / ((2N+1) (1 + 1/3 + ... + 1/(2N+1)))`, which is one for one integrator and more
for two and more. -/
theorem C177_clock (k : Kw) (N : ℕ) (hN : N ≠ 0) (BW e xi : ℝ) (hB : 0 < BW) (hkN : k.N = some N) (hkB : k.BW = some BW)
    (hkE : k.ENOB = some e) (hx : k.xi = some xi) (hx0 : 0 < xi) (hsw : k.switchCap = false)
    (hd : 0 ≤ k.excessDelay.getD 0 ∧ k.excessDelay.getD 0 ≤ 1) (hdel : 0 < k.delta.getD 1) (Tc : ℝ) (hT0 : 2 / 10 ^ 14 ≤ Tc)
    (hT : (1 / (4 * Real.pi * BW * Tc)) ^ (2 * N) * (2 * N + 1) = xi * Fom.snrFromDB (Fom.enobToSnr e)) :
    ∃ f f', chainSynthesis k = .ok f ∧ leapSynthesis k leapG = .ok f' ∧ f.dc.T = Tc ∧ 0 < f'.dc.T ∧
      (f'.dc.T / f.dc.T) ^ (2 * N) = 4 ^ N / ((2 * N + 1) * oddSum N) ∧
      f.dc.T ≤ f'.dc.T ∧ (f.dc.T < f'.dc.T ↔ 2 ≤ N) := by
  have hπ := Real.pi_pos
  have hTc : 0 < Tc := lt_of_lt_of_le (by norm_num) hT0
  have hs : 0 < Fom.snrFromDB (Fom.enobToSnr e) := Fom.C46_dB_inverse.2.2.1 _
  have hgam : coiGamma N xi e = 1 / (4 * Real.pi * BW * Tc) := by
    have h1 := coiGamma_pow N hN xi e hx0
    refine (pow_left_inj₀ (coiGamma_pos N xi e hx0).le (by positivity) (by omega : 2 * N ≠ 0)).1 ?_
    rw [h1, eq_comm, ← mul_left_inj' (show (2 * N + 1 : ℝ) ≠ 0 by positivity), hT]
    unfold gi
    field_simp
  have hTe : 1 / (2 * (coiGamma N xi e * (2 * Real.pi * BW))) = Tc := by
    rw [hgam]
    field_simp
    ring
  obtain ⟨g, dc, beta, gamma, h1, -, -, h4, h5, h6, h7⟩ := C80_design k N hN BW e xi hB hkN hkB hkE (by rw [hx]; rfl) hx0 hsw hd
    (by rw [hTe]; exact hT0)
  have hdc : dc.T = Tc := by
    have hgg : gamma = 1 / (4 * Real.pi * BW * Tc) := by
      refine (pow_left_inj₀ h5.le (by positivity) (by omega : 2 * N ≠ 0)).1 ?_
      rw [← mul_left_inj' (show (2 * N + 1 : ℝ) ≠ 0 by positivity), hT, h7]
    rw [h6, hgg] at h4
    field_simp at h4
    linarith
  obtain ⟨-, -, -, -, -, hl0, hl⟩ := leapEnob_ok k (leapG N) (leapG_pos N) N hN BW e xi hB (by rw [hx]; rfl) hx0 hdel
  have hratio : ∀ T' : ℝ, 0 < T' →
      (1 / (2 * T' * (2 * Real.pi * BW))) ^ (2 * N) * leapG N = xi * Fom.snrFromDB (Fom.enobToSnr e) →
      (T' / Tc) ^ (2 * N) = 4 ^ N / ((2 * N + 1) * oddSum N) ∧ Tc ≤ T' ∧ (Tc < T' ↔ 2 ≤ N) := by
    intro T' h0 he
    have hG := (C177_factor N 1 1 one_pos one_pos).2
    have hr : (T' / Tc) ^ (2 * N) = 4 ^ N / ((2 * N + 1) * oddSum N) := by
      rw [← hT, hG] at he
      have ho := oddSum_pos N
      have e1 : (1 / (2 * T' * (2 * Real.pi * BW))) = (1 / (4 * Real.pi * BW * Tc)) / (T' / Tc) := by
        field_simp
        norm_num
      rw [e1, div_pow (1 / (4 * Real.pi * BW * Tc))] at he
      have hA : (1 / (4 * Real.pi * BW * Tc)) ^ (2 * N) ≠ 0 := by positivity
      have hB' : (T' / Tc) ^ (2 * N) ≠ 0 := by positivity
      generalize (1 / (4 * Real.pi * BW * Tc)) ^ (2 * N) = A at *
      generalize (T' / Tc) ^ (2 * N) = R at *
      rw [eq_div_iff (by positivity)]
      field_simp at he
      linarith
    have h1 : Tc ≤ T' ↔ (1 : ℝ) ≤ T' / Tc := by rw [le_div_iff₀ hTc, one_mul]
    have h2 : Tc < T' ↔ (1 : ℝ) < T' / Tc := by rw [lt_div_iff₀ hTc, one_mul]
    have ho := oddSum_pos N
    refine ⟨hr, ?_, ?_⟩
    · rw [h1, ← one_le_pow_iff_of_nonneg (by positivity) (by omega : 2 * N ≠ 0), hr, le_div_iff₀ (by positivity), one_mul]
      exact (odd_bound N hN).1
    · rw [h2, ← one_lt_pow_iff_of_nonneg (by positivity) (by omega : 2 * N ≠ 0), hr, lt_div_iff₀ (by positivity), one_mul]
      exact (odd_bound N hN).2
  obtain ⟨g', dc', beta', alpha', T', r1, r2, r3, r4⟩ := C81_enob k leapG N hN BW e xi (leapG_pos N) hB (by rw [hx]; rfl) hx0 hdel
    hkN hkB hkE (hT0.trans (hratio _ hl0 hl).2.1)
  have := hratio T' r3 r4
  refine ⟨_, _, h1, r1, hdc, ?_, ?_⟩
  · exact r2.per ▸ r3
  · dsimp only
    rw [hdc, r2.per]
    exact this

/-- the period of the examples -/
noncomputable def exFacT : ℝ := 1 / (8 * Real.pi)

/-- a second-order specification with one bit, bandwidth one hertz and an `xi` for which the gain is two -/
noncomputable def exFacKw (xi : ℝ) : Kw := { exKw with N := some 2, ENOB := some 1, BW := some 1, xi := some xi }

theorem exFacT_le : 2 / 10 ^ 14 ≤ exFacT := by
  unfold exFacT
  rw [div_le_div_iff₀ (by norm_num) (by positivity)]
  have := Real.pi_le_four
  linarith

theorem exFac_base : 1 / (4 * Real.pi * 1 * exFacT) = 2 := by
  unfold exFacT
  have := Real.pi_pos.ne'
  field_simp
  norm_num

example : ∃ xi, 0 < xi ∧ ∃ f, leapSynthesis (exFacKw xi) leapG = .ok f ∧ f.dc.T = exFacT := by
  have hs : 0 < Fom.snrFromDB (Fom.enobToSnr 1) := Fom.C46_dB_inverse.2.2.1 _
  have ho := oddSum_pos 2
  refine ⟨2 ^ (2 * 2) * (4 ^ 2 / oddSum 2) / Fom.snrFromDB (Fom.enobToSnr 1), by positivity, ?_⟩
  obtain ⟨f, h1, h2, -⟩ := C177_in_band (exFacKw _) 2 two_ne_zero 1 1
    (2 ^ (2 * 2) * (4 ^ 2 / oddSum 2) / Fom.snrFromDB (Fom.enobToSnr 1)) one_pos rfl (by positivity) rfl rfl rfl rfl exFacT
    exFacT_le (by rw [exFac_base, div_mul_cancel₀ _ hs.ne'])
  exact ⟨f, h1, h2⟩

example : ∃ xi, 0 < xi ∧ ∃ f f', chainSynthesis (exFacKw xi) = .ok f ∧ leapSynthesis (exFacKw xi) leapG = .ok f' ∧
    f.dc.T < f'.dc.T := by
  have hs : 0 < Fom.snrFromDB (Fom.enobToSnr 1) := Fom.C46_dB_inverse.2.2.1 _
  refine ⟨2 ^ (2 * 2) * (2 * (2 : ℕ) + 1) / Fom.snrFromDB (Fom.enobToSnr 1), by positivity, ?_⟩
  obtain ⟨f, f', h1, h2, -, -, -, -, h3⟩ := C177_clock (exFacKw _) 2 two_ne_zero 1 1
    (2 ^ (2 * 2) * (2 * (2 : ℕ) + 1) / Fom.snrFromDB (Fom.enobToSnr 1)) one_pos rfl rfl rfl rfl (by positivity) rfl
    ⟨le_rfl, zero_le_one⟩ (by show (0 : ℝ) < 1; exact one_pos) exFacT exFacT_le
    (by rw [exFac_base, div_mul_cancel₀ _ hs.ne'])
  exact ⟨f, f', h1, h2, h3.2 le_rfl⟩

end Cbadc.Synthesis
