import Verif.Lemmas.LeapFrog
import Verif.Props.Synthesis

/-! # C81, C82: leap-frog synthesis -/

namespace Cbadc.Synthesis
open Analog Control Signal Simulate Finset
open Analog.Spec Spec

/-- a leap-frog frontend with equal couplings for the bandwidth `BW` (specification) -/
structure IsLeap (N : ℕ) (BW delta T beta alpha : ℝ) (g : Sys ℝ) (dc : DC ℝ N) : Prop where
  net : IsNetwork g N (fun _ => beta) (fun _ => alpha) (fun _ => 0) (fun n => beta * delta ^ n)
  ctl : DC.new T (1 / 10 ^ 14 / 2) N none 0 none = .ok dc
  per : dc.T = T
  prod : beta * alpha = -(Real.pi * BW) ^ 2
  half : |beta| * T = delta / 2
  nz : beta ≠ 0
  a : ∀ r < N, ∀ c < N, g.A r c = if c = r + 1 then alpha else if r = c + 1 then beta else 0
  b : ∀ r c, g.B r c = if r = 0 then beta else 0
  c : ∀ r c, g.CT r c = if r = c then 1 else 0
  d : ∀ r c, g.D r c = 0

theorem leapEnd_ok (N : ℕ) (hN : N ≠ 0) (p : LeapPar) (hk : p.kappa = p.beta) (BW : ℝ)
    (hp : p.beta * p.alpha = -(Real.pi * BW) ^ 2) (hh : |p.beta| * p.T = p.delta / 2) (hz : p.beta ≠ 0) :
    (2 / 10 ^ 14 ≤ p.T → ∃ g dc, leapEnd N p = .ok ⟨N, g, dc⟩ ∧ IsLeap N BW p.delta p.T p.beta p.alpha g dc) ∧
    (p.T < 2 / 10 ^ 14 → leapEnd N p = .error .exception) := by
  obtain ⟨g, h1, h2, h3, h4, h5, h6⟩ := leap_sq N hN p.beta p.alpha fun n => p.kappa * p.delta ^ n
  constructor
  · intro hT
    obtain ⟨dc, c1, c2, c3⟩ := (clocked_none p.T N).1 hT
    refine ⟨g, dc, ?_, ?_⟩
    · unfold leapEnd
      rw [if_neg hN, h1]
      dsimp only
      rw [c1]
    · rw [hk] at h2
      exact ⟨h2, c2, c3, hp, hh, hz, h3, h4, h5, h6⟩
  · intro hT
    unfold leapEnd
    rw [if_neg hN, h1]
    dsimp only
    rw [(clocked_none p.T N).2 hT none]

theorem leapOsr_ok (k : Kw) (BW OSR : ℝ) (hB : 0 < BW) (hO : 0 < OSR) (hd : 0 < k.delta.getD 1) :
    ∃ p, leapOsr k BW OSR = .ok p ∧ p.kappa = p.beta ∧ p.beta * p.alpha = -(Real.pi * BW) ^ 2 ∧
      |p.beta| * p.T = p.delta / 2 ∧ p.beta ≠ 0 ∧ p.delta = k.delta.getD 1 ∧ p.T = 1 / (2 * OSR * BW) := by
  have hπ := Real.pi_pos
  have h1 : pyDiv 1 (2 * OSR * BW) = .ok (1 / (2 * OSR * BW)) := if_neg (by positivity)
  obtain ⟨δ, hδ⟩ : ∃ δ, δ = k.delta.getD 1 := ⟨_, rfl⟩
  rw [← hδ] at hd
  have hb : 0 < δ * OSR / (2 * Real.pi) * (2 * Real.pi * BW) := by positivity
  have h2 : pyDiv (-(2 * Real.pi * BW / 2) ^ 2) (δ * OSR / (2 * Real.pi) * (2 * Real.pi * BW)) =
      .ok (-(2 * Real.pi * BW / 2) ^ 2 / (δ * OSR / (2 * Real.pi) * (2 * Real.pi * BW))) := if_neg hb.ne'
  refine ⟨⟨δ * OSR / (2 * Real.pi) * (2 * Real.pi * BW),
    -(2 * Real.pi * BW / 2) ^ 2 / (δ * OSR / (2 * Real.pi) * (2 * Real.pi * BW)),
    δ * OSR / (2 * Real.pi) * (2 * Real.pi * BW), δ, 1 / (2 * OSR * BW)⟩, ?_, rfl, ?_, ?_, hb.ne', hδ, rfl⟩
  · unfold leapOsr
    rw [h1, ← hδ]
    dsimp only
    rw [h2]
  · dsimp only
    rw [mul_div_cancel₀ _ hb.ne']
    ring
  · dsimp only
    rw [abs_of_pos hb]
    field_simp

theorem leapEnob_ok (k : Kw) (gN : ℝ) (hg : 0 < gN) (N : ℕ) (hN : N ≠ 0) (BW e xi : ℝ) (hB : 0 < BW)
    (hx : k.xi.getD (4 / 1000) = xi) (hx0 : 0 < xi) (hd : 0 < k.delta.getD 1) :
    (leapEnob k gN N BW e).kappa = (leapEnob k gN N BW e).beta ∧
    (leapEnob k gN N BW e).beta * (leapEnob k gN N BW e).alpha = -(Real.pi * BW) ^ 2 ∧
    |(leapEnob k gN N BW e).beta| * (leapEnob k gN N BW e).T = (leapEnob k gN N BW e).delta / 2 ∧
    (leapEnob k gN N BW e).beta ≠ 0 ∧ (leapEnob k gN N BW e).delta = k.delta.getD 1 ∧ 0 < (leapEnob k gN N BW e).T ∧
    (1 / (2 * (leapEnob k gN N BW e).T * (2 * Real.pi * BW))) ^ (2 * N) * gN =
      xi * Fom.snrFromDB (Fom.enobToSnr e) := by
  have hπ := Real.pi_pos
  have h2 := Fom.C46_dB_inverse.2.2.1 (Fom.enobToSnr e)
  obtain ⟨q, hq⟩ : ∃ q, q = (xi / gN * Fom.snrFromDB (Fom.enobToSnr e)) ^ (1 / (2 * N : ℝ)) := ⟨_, rfl⟩
  have hq0 : 0 < q := by rw [hq]; exact Real.rpow_pos_of_pos (by positivity) _
  have hqN : q ^ (2 * N) = xi / gN * Fom.snrFromDB (Fom.enobToSnr e) := by
    rw [hq, ← Real.rpow_natCast, ← Real.rpow_mul (by positivity)]
    have : 1 / (2 * (N : ℝ)) * ((2 * N : ℕ) : ℝ) = 1 := by
      have : (N : ℝ) ≠ 0 := Nat.cast_ne_zero.2 hN
      push_cast
      field_simp
    rw [this, Real.rpow_one]
  obtain ⟨δ, hδ⟩ : ∃ δ, δ = k.delta.getD 1 := ⟨_, rfl⟩
  have e1 : leapEnob k gN N BW e = ⟨-(2 * Real.pi * BW / 2) * (2 * (q * δ)), 2 * Real.pi * BW / 2 / (2 * (q * δ)),
      -(2 * Real.pi * BW / 2) * (2 * (q * δ)), δ, 1 / |2 * (2 * Real.pi * BW) * (q * δ) / δ|⟩ := by
    unfold leapEnob
    rw [hx, ← hq, ← hδ]
  rw [← hδ] at hd
  rw [e1]
  have hT : 1 / |2 * (2 * Real.pi * BW) * (q * δ) / δ| = 1 / (2 * (2 * Real.pi * BW) * q) := by
    rw [abs_of_pos (by positivity)]
    congr 1
    field_simp
  dsimp only
  rw [hT]
  refine ⟨rfl, ?_, ?_, ?_, hδ, by positivity, ?_⟩
  · field_simp
  · rw [neg_mul, abs_neg, abs_of_pos (by positivity)]
    field_simp
  · rw [neg_mul]
    exact neg_ne_zero.2 (by positivity)
  · have : 1 / (2 * (1 / (2 * (2 * Real.pi * BW) * q)) * (2 * Real.pi * BW)) = q := by field_simp
    rw [this, hqN]
    field_simp

/-- **C81** `get_leap_frog(OSR, N, BW)`: the clock runs at the requested oversampling ratio, the couplings satisfy
`beta alpha = -(pi BW)^2` and `|beta| T = delta / 2`; a clock period below `2e-14` raises. -/
theorem C81_osr (k : Kw) (gg : ℕ → ℝ) (N : ℕ) (hN : N ≠ 0) (BW OSR : ℝ) (hB : 0 < BW) (hO : 0 < OSR)
    (hd : 0 < k.delta.getD 1) (hkN : k.N = some N) (hkB : k.BW = some BW) (hkO : k.OSR = some OSR) (hkE : k.ENOB = none) :
    (2 / 10 ^ 14 ≤ 1 / (2 * OSR * BW) → ∃ g dc beta alpha T, leapSynthesis k gg = .ok ⟨N, g, dc⟩ ∧
      IsLeap N BW (k.delta.getD 1) T beta alpha g dc ∧ 0 < T ∧ Fom.osr (1 / T) BW = OSR) ∧
    (1 / (2 * OSR * BW) < 2 / 10 ^ 14 → leapSynthesis k gg = .error .exception) := by
  obtain ⟨p, h1, h2, h3, h4, h5, h6, h7⟩ := leapOsr_ok k BW OSR hB hO hd
  have e : leapSynthesis k gg = leapEnd N p := by
    unfold leapSynthesis leapBW
    rw [hkN, hkB, hkO, hkE]
    dsimp only
    rw [h1]
  obtain ⟨q1, q2⟩ := leapEnd_ok N hN p h2 BW h3 h4 h5
  rw [e, ← h7]
  refine ⟨fun hT => ?_, q2⟩
  obtain ⟨g, dc, r1, r2⟩ := q1 hT
  refine ⟨g, dc, p.beta, p.alpha, p.T, r1, ?_, ?_, ?_⟩
  · rw [← h6]; exact r2
  · rw [h7]; positivity
  · rw [h7]
    unfold Fom.osr Fom.nyquistFrequency
    field_simp

/-- **C81** `get_leap_frog(ENOB, N, BW)`: the same, with the clock period `T` for which `gamma = 1 / (4 pi BW T)`
satisfies `gamma^(2N) g_i(N) = xi * SNR`. -/
theorem C81_enob (k : Kw) (gg : ℕ → ℝ) (N : ℕ) (hN : N ≠ 0) (BW e xi : ℝ) (hg : 0 < gg N) (hB : 0 < BW)
    (hx : k.xi.getD (4 / 1000) = xi) (hx0 : 0 < xi) (hd : 0 < k.delta.getD 1) (hkN : k.N = some N) (hkB : k.BW = some BW)
    (hkE : k.ENOB = some e) (hT : 2 / 10 ^ 14 ≤ (leapEnob k (gg N) N BW e).T) :
    ∃ g dc beta alpha T, leapSynthesis k gg = .ok ⟨N, g, dc⟩ ∧ IsLeap N BW (k.delta.getD 1) T beta alpha g dc ∧ 0 < T ∧
      (1 / (2 * T * (2 * Real.pi * BW))) ^ (2 * N) * gg N = xi * Fom.snrFromDB (Fom.enobToSnr e) := by
  obtain ⟨h2, h3, h4, h5, h6, h7, h8⟩ := leapEnob_ok k (gg N) hg N hN BW e xi hB hx hx0 hd
  obtain ⟨q1, -⟩ := leapEnd_ok N hN _ h2 BW h3 h4 h5
  obtain ⟨g, dc, r1, r2⟩ := q1 hT
  refine ⟨g, dc, _, _, _, ?_, h6 ▸ r2, h7, h8⟩
  unfold leapSynthesis leapBW
  rw [hkN, hkB, hkE]
  dsimp only
  rw [if_neg hN]
  exact r1

/-- **C81** the specification by `OSR` and `T` gives the frontend of `OSR` and `BW = 1 / (2 OSR T)`, with the requested
clock period. -/
theorem C81_period (gg : ℕ → ℝ) (N : ℕ) (hN : N ≠ 0) (T OSR : ℝ) (delta : Option ℝ) (hd : 0 < delta.getD 1)
    (hT : 2 / 10 ^ 14 ≤ T) (hO : 0 < OSR) :
    ∃ f, leapSynthesis { N := some N, OSR := some OSR, T := some T, delta := delta } gg = .ok f ∧
      leapSynthesis { N := some N, OSR := some OSR, BW := some (1 / (2 * OSR * T)), delta := delta } gg = .ok f ∧
      f.dc.T = T := by
  have hT0 : 0 < T := lt_of_lt_of_le (by positivity) hT
  have hper : 1 / (2 * OSR * (1 / (2 * OSR * T))) = T := by field_simp
  have e0 : pyDiv 1 (2 * OSR * T) = .ok (1 / (2 * OSR * T)) := if_neg (by positivity)
  obtain ⟨p, h1, h2, h3, h4, h5, h6, h7⟩ := leapOsr_ok
    { N := some N, OSR := some OSR, BW := some (1 / (2 * OSR * T)), delta := delta } (1 / (2 * OSR * T)) OSR (by positivity)
    hO hd
  rw [hper] at h7
  obtain ⟨g, dc, r1, r2⟩ := (leapEnd_ok N hN p h2 (1 / (2 * OSR * T)) h3 h4 h5).1 (by rw [h7]; exact hT)
  refine ⟨⟨N, g, dc⟩, ?_, ?_, ?_⟩
  · unfold leapSynthesis
    dsimp only
    rw [e0]
    unfold leapBW
    dsimp only
    have h1' : leapOsr { N := some N, OSR := some OSR, T := some T, delta := delta } (1 / (2 * OSR * T)) OSR = .ok p := h1
    rw [h1']
    exact r1
  · unfold leapSynthesis leapBW
    dsimp only
    rw [h1]
    exact r1
  · show dc.T = T
    rw [r2.per, h7]

example : ∃ f, leapSynthesis { N := some 5, OSR := some 32, T := some (1 / 64000000) } (fun _ => 1) = .ok f :=
  (C81_period (fun _ => 1) 5 (by norm_num) (1 / 64000000) 32 none (by simp) (by norm_num) (by norm_num)).imp
    fun _ h => h.1

/-- rows of the state matrix of a leap-frog frontend -/
theorem leap_row {N : ℕ} {BW delta T beta alpha : ℝ} {g : Sys ℝ} {dc : DC ℝ N} (h : IsLeap N BW delta T beta alpha g dc)
    (x : ℕ → ℂ) (r : ℕ) (hr : r < N) : ∑ c ∈ range N, cm g.A r c * x c =
      (if r + 1 < N then (alpha : ℂ) * x (r + 1) else 0) + if r = 0 then 0 else (beta : ℂ) * x (r - 1) := by
  have e : ∀ c ∈ range N, cm g.A r c * x c =
      (if c = r + 1 then (alpha : ℂ) * x c else 0) + (if c + 1 = r then (beta : ℂ) * x c else 0) := by
    intro c hc
    rw [mem_range] at hc
    unfold cm
    rw [h.a r hr c hc]
    by_cases h1 : c = r + 1
    · rw [if_pos h1, if_pos h1, if_neg (by omega), add_zero]
    · rw [if_neg h1, if_neg h1, zero_add]
      by_cases h2 : r = c + 1
      · rw [if_pos h2, if_pos h2.symm]
      · rw [if_neg h2, if_neg (Ne.symm h2)]
        simp
  rw [Finset.sum_congr rfl e, Finset.sum_add_distrib, Finset.sum_ite_eq' (range N) (r + 1)]
  congr 1
  · simp only [mem_range]
  · by_cases h0 : r = 0
    · rw [if_pos h0]
      apply Finset.sum_eq_zero
      intro c _
      rw [if_neg (by omega)]
    · rw [if_neg h0, Finset.sum_eq_single (r - 1)]
      · rw [if_pos (by omega)]
      · intro c _ hc
        rw [if_neg (by omega)]
      · intro hc
        exact absurd (mem_range.2 (by omega)) hc

/-- **C81** the resonances of every synthesised leap-frog frontend are all within the band, at the frequencies
`BW cos(j pi / (N + 1))`, `j = 1..N`, and there is no other pole. -/
theorem C81_resonances (k : Kw) (gg : ℕ → ℝ) (N : ℕ) (hN : N ≠ 0) (BW : ℝ) (g : Sys ℝ) (dc : DC ℝ N) (hkN : k.N = some N)
    (hkB : k.BW = some BW) (hB : 0 < BW) (hO : ∀ o, k.OSR = some o → 0 < o) (hg : 0 < gg N) (hx : 0 < k.xi.getD (4 / 1000))
    (hd : 0 < k.delta.getD 1) (h : leapSynthesis k gg = .ok ⟨N, g, dc⟩) (s : ℂ) :
    ¬ Regular N (cm g.A) s ↔ ∃ j, 1 ≤ j ∧ j ≤ N ∧ s = Complex.I * (2 * Real.pi * BW * Real.cos (j * Real.pi / (N + 1)) : ℝ) := by
  have hπ := Real.pi_pos
  have main : ∃ T beta alpha, IsLeap N BW (k.delta.getD 1) T beta alpha g dc := by
    have fin : ∀ p : LeapPar, p.kappa = p.beta → p.beta * p.alpha = -(Real.pi * BW) ^ 2 → |p.beta| * p.T = p.delta / 2 →
        p.beta ≠ 0 → p.delta = k.delta.getD 1 → leapEnd N p = .ok ⟨N, g, dc⟩ →
        ∃ T beta alpha, IsLeap N BW (k.delta.getD 1) T beta alpha g dc := by
      intro p h2 h3 h4 h5 h6 h7
      obtain ⟨q1, q2⟩ := leapEnd_ok N hN p h2 BW h3 h4 h5
      by_cases hc : 2 / 10 ^ 14 ≤ p.T
      · obtain ⟨g', dc', r1, r2⟩ := q1 hc
        rw [r1] at h7
        cases h7
        exact ⟨_, _, _, h6 ▸ r2⟩
      · rw [q2 (not_le.1 hc)] at h7
        cases h7
    unfold leapSynthesis leapBW at h
    rw [hkN, hkB] at h
    dsimp only at h
    cases hkE : k.ENOB with
    | some e =>
      rw [hkE] at h
      dsimp only at h
      rw [if_neg hN] at h
      obtain ⟨h2, h3, h4, h5, h6, -⟩ := leapEnob_ok k (gg N) hg N hN BW e _ hB rfl hx hd
      exact fin _ h2 h3 h4 h5 h6 h
    | none =>
      rw [hkE] at h
      cases hkO : k.OSR with
      | some o =>
        rw [hkO] at h
        dsimp only at h
        obtain ⟨p, h1, h2, h3, h4, h5, h6, h7⟩ := leapOsr_ok k BW o hB (hO o hkO) hd
        rw [h1] at h
        exact fin _ h2 h3 h4 h5 h6 h
      | none =>
        rw [hkO] at h
        cases hkS : k.SNR with
        | none =>
          rw [hkS] at h
          cases h
        | some z =>
          rw [hkS] at h
          dsimp only at h
          rw [if_neg hN] at h
          obtain ⟨h2, h3, h4, h5, h6, -⟩ := leapEnob_ok k (gg N) hg N hN BW (Fom.snrToEnob z) _ hB rfl hx hd
          exact fin _ h2 h3 h4 h5 h6 h
  obtain ⟨T, beta, alpha, hl⟩ := main
  have hbc : (beta : ℂ) ≠ 0 := Complex.ofReal_ne_zero.2 hl.nz
  have hab : (beta : ℂ) * alpha = -((Real.pi * BW : ℝ) : ℂ) ^ 2 := by
    rw [← Complex.ofReal_mul, hl.prod]
    push_cast
    ring
  have hwc : ((Real.pi * BW : ℝ) : ℂ) ≠ 0 := Complex.ofReal_ne_zero.2 (by positivity)
  have hroot : (cont ((Real.pi * BW : ℝ) : ℂ) N).eval s = 0 ↔
      ∃ j, 1 ≤ j ∧ j ≤ N ∧ s = Complex.I * (2 * Real.pi * BW * Real.cos (j * Real.pi / (N + 1)) : ℝ) := by
    rw [cont_prod _ hwc, Finset.prod_eq_zero_iff]
    constructor
    · rintro ⟨j, hj, hz⟩
      rw [Finset.mem_Icc] at hj
      refine ⟨j, hj.1, hj.2, ?_⟩
      rw [sub_eq_zero] at hz
      rw [hz]
      unfold angle
      push_cast
      ring
    · rintro ⟨j, h1, h2, rfl⟩
      refine ⟨j, Finset.mem_Icc.2 ⟨h1, h2⟩, ?_⟩
      unfold angle
      push_cast
      ring
  rw [← hroot]
  have eqv : ∀ x : ℕ → ℂ, (∀ r < N, s * x r = ∑ c ∈ range N, cm g.A r c * x c) ↔
      ((cont ((Real.pi * BW : ℝ) : ℂ) N).eval s * x (N - 1) = beta ^ N * 0 ∧
        ∀ m < N, x (N - 1 - m) * (beta : ℂ) ^ m = (cont ((Real.pi * BW : ℝ) : ℂ) m).eval s * x (N - 1)) := by
    intro x
    rw [← leap_solve N hN _ (beta : ℂ) alpha s 0 hbc hab x]
    apply forall_congr'
    intro r
    apply forall_congr'
    intro hr
    rw [leap_row hl x r hr, mul_zero]
  constructor
  · intro hreg
    by_contra hne
    apply hreg
    intro x hx
    obtain ⟨h1, h2⟩ := (eqv x).1 hx
    rw [mul_zero] at h1
    have hlast := (mul_eq_zero.1 h1).resolve_left hne
    intro r hr
    have := h2 (N - 1 - r) (by omega)
    rw [show N - 1 - (N - 1 - r) = r by omega, hlast, mul_zero] at this
    exact (mul_eq_zero.1 this).resolve_right (pow_ne_zero _ hbc)
  · intro hz hreg
    have hx := (eqv fun n => (cont ((Real.pi * BW : ℝ) : ℂ) (N - 1 - n)).eval s / (beta : ℂ) ^ (N - 1 - n)).2 ⟨by
      rw [hz, zero_mul, mul_zero], by
      intro m hm
      rw [show N - 1 - (N - 1 - m) = m by omega, div_mul_cancel₀ _ (pow_ne_zero m hbc), Nat.sub_self, cont_eval_zero,
        pow_zero]
      ring⟩
    have := hreg _ hx (N - 1) (by omega)
    rw [Nat.sub_self, cont_eval_zero, pow_zero] at this
    norm_num at this

/-- **C81** the design equation is the in-band noise of the linear model: with `g_i(N)` the value computed by the package
(the inverse of the integral over the normalised determinant), a disturbance of the last integrator's output, referred to
the input (`H` the ratio of the input amplitude to the amplitude of the last integrator), has the mean power
`1 / (xi SNR)` over the band. -/
theorem C81_in_band (k : Kw) (gg : ℕ → ℝ) (N : ℕ) (hN : N ≠ 0) (BW e xi : ℝ) (hg : 0 < gg N) (hB : 0 < BW)
    (hgi : gg N * ∫ v in (0 : ℝ)..1, (∏ j ∈ Icc 1 N, (v + Real.cos (j * Real.pi / (N + 1)))) ^ 2 = 1)
    (hx : k.xi.getD (4 / 1000) = xi) (hx0 : 0 < xi) (hd : k.delta = none) (hkN : k.N = some N) (hkB : k.BW = some BW)
    (hkE : k.ENOB = some e) (hT : 2 / 10 ^ 14 ≤ (leapEnob k (gg N) N BW e).T) :
    ∃ f, leapSynthesis k gg = .ok f ∧ ∀ H : ℝ → ℝ,
      (∀ w : ℝ, 0 < w → ∀ u y, Transfers (cplx f.sys) (Complex.I * w) u y → ‖u 0‖ = H w * ‖y (N - 1)‖) →
      (∫ w in (0 : ℝ)..(2 * Real.pi * BW), H w ^ 2) / (2 * Real.pi * BW) =
        1 / (xi * Fom.snrFromDB (Fom.enobToSnr e)) := by
  have hπ := Real.pi_pos
  have hd1 : k.delta.getD 1 = 1 := by rw [hd]; rfl
  obtain ⟨g, dc, beta, alpha, T, h1, hl, hT0, hdes⟩ := C81_enob k gg N hN BW e xi hg hB hx hx0 (by rw [hd1]; exact one_pos)
    hkN hkB hkE hT
  refine ⟨_, h1, fun H hH => ?_⟩
  have hbc : (beta : ℂ) ≠ 0 := Complex.ofReal_ne_zero.2 hl.nz
  have hab : (beta : ℂ) * alpha = -((Real.pi * BW : ℝ) : ℂ) ^ 2 := by
    rw [← Complex.ofReal_mul, hl.prod]
    push_cast
    ring
  have hwc : ((Real.pi * BW : ℝ) : ℂ) ≠ 0 := Complex.ofReal_ne_zero.2 (by positivity)
  obtain ⟨om, hom⟩ : ∃ om, om = 2 * Real.pi * BW := ⟨_, rfl⟩
  have hom0 : 0 < om := by rw [hom]; positivity
  obtain ⟨ga, hga⟩ : ∃ ga, ga = 1 / (2 * T * om) := ⟨_, rfl⟩
  have hga0 : 0 < ga := by rw [hga]; positivity
  have hbeta : |beta| = ga * om := by
    have := hl.half
    rw [hd1] at this
    rw [hga]
    field_simp
    linarith
  rw [← hom, ← hga] at hdes
  -- the inverse gain
  have hHw : ∀ w : ℝ, 0 < w → H w ^ 2 = (∏ j ∈ Icc 1 N, (w / om + Real.cos (j * Real.pi / (N + 1)))) ^ 2 / ga ^ (2 * N) := by
    intro w hw
    obtain ⟨x, hxdef⟩ : ∃ x : ℕ → ℂ, x = fun n => (cont ((Real.pi * BW : ℝ) : ℂ) (N - 1 - n)).eval (Complex.I * w) /
        (beta : ℂ) ^ (N - 1 - n) := ⟨_, rfl⟩
    obtain ⟨u0, hu0⟩ : ∃ u0, u0 = (cont ((Real.pi * BW : ℝ) : ℂ) N).eval (Complex.I * w) / (beta : ℂ) ^ N := ⟨_, rfl⟩
    have hlast : x (N - 1) = 1 := by
      rw [hxdef]
      dsimp only
      rw [Nat.sub_self, cont_eval_zero, pow_zero, div_one]
    have hst := (leap_solve N hN _ (beta : ℂ) alpha (Complex.I * w) u0 hbc hab x).2 ⟨by
      rw [hlast, hu0, mul_one, mul_div_cancel₀ _ (pow_ne_zero N hbc)], by
      intro m hm
      rw [hlast, mul_one, hxdef]
      dsimp only
      rw [show N - 1 - (N - 1 - m) = m by omega, div_mul_cancel₀ _ (pow_ne_zero m hbc)]⟩
    have htr : Transfers (cplx g) (Complex.I * w) (fun _ => u0) x := by
      have eN : (cplx g).N = N := hl.net.n
      have eL : (cplx g).L = 1 := hl.net.l
      have eNt : (cplx g).Nt = N := hl.net.nt
      refine ⟨x, ?_, ?_⟩
      · unfold StateEq
        rw [eN, eL]
        intro r hr
        rw [hst r hr]
        show _ = (∑ c ∈ range N, cm g.A r c * x c) + _
        rw [leap_row hl x r hr, Finset.sum_range_one]
        have eB : (cplx g).B r 0 = if r = 0 then (beta : ℂ) else 0 := by
          show ((g.B r 0 : ℝ) : ℂ) = _
          rw [hl.b]
          split_ifs <;> simp
        rw [eB]
        by_cases h0 : r = 0
        · rw [if_pos h0, if_pos h0, if_pos h0, add_zero]
        · rw [if_neg h0, if_neg h0, if_neg h0, zero_mul, add_zero]
      · unfold OutEq
        rw [eN, eL, eNt]
        intro r hr
        rw [Finset.sum_range_one]
        have e1 : (cplx g).D r 0 = 0 := by
          show ((g.D r 0 : ℝ) : ℂ) = 0
          rw [hl.d]
          simp
        rw [e1, zero_mul, add_zero, Finset.sum_eq_single r]
        · show _ = ((g.CT r r : ℝ) : ℂ) * x r
          rw [hl.c, if_pos rfl]
          simp
        · intro c _ hne
          show ((g.CT r c : ℝ) : ℂ) * x c = 0
          rw [hl.c, if_neg (Ne.symm hne)]
          simp
        · intro hc
          exact absurd (mem_range.2 hr) hc
    have hn := hH w hw _ _ htr
    rw [hlast, norm_one, mul_one] at hn
    rw [← hn, hu0, norm_div, norm_pow, Complex.norm_real, Real.norm_eq_abs, hbeta, cont_prod _ hwc, norm_prod]
    have hterm : ∀ j ∈ Icc 1 N, ‖Complex.I * (w : ℂ) - 2 * Complex.I * ((Real.pi * BW : ℝ) : ℂ) * (Real.cos (angle N j) : ℂ)‖ =
        |w - om * Real.cos (angle N j)| := by
      intro j _
      have : Complex.I * (w : ℂ) - 2 * Complex.I * ((Real.pi * BW : ℝ) : ℂ) * (Real.cos (angle N j) : ℂ) =
          Complex.I * ((w - om * Real.cos (angle N j) : ℝ) : ℂ) := by
        rw [hom]
        push_cast
        ring
      rw [this, norm_mul, Complex.norm_I, one_mul, Complex.norm_real, Real.norm_eq_abs]
    rw [Finset.prod_congr rfl hterm, ← Finset.abs_prod, div_pow, sq_abs]
    have hrefl : ∏ j ∈ Icc 1 N, (w - om * Real.cos (angle N j)) = ∏ j ∈ Icc 1 N, (w + om * Real.cos (angle N j)) := by
      apply Finset.prod_bij' (fun j _ => N + 1 - j) (fun j _ => N + 1 - j)
      · intro j hj; rw [Finset.mem_Icc] at hj ⊢; omega
      · intro j hj; rw [Finset.mem_Icc] at hj ⊢; omega
      · intro j hj; rw [Finset.mem_Icc] at hj; omega
      · intro j hj; rw [Finset.mem_Icc] at hj; omega
      · intro j hj
        rw [Finset.mem_Icc] at hj
        have : angle N (N + 1 - j) = Real.pi - angle N j := by
          unfold angle
          rw [Nat.cast_sub (by omega)]
          push_cast
          have : (N : ℝ) + 1 ≠ 0 := by positivity
          field_simp
        rw [this, Real.cos_pi_sub]
        ring
    have hscale : ∏ j ∈ Icc 1 N, (w + om * Real.cos (angle N j)) =
        om ^ N * ∏ j ∈ Icc 1 N, (w / om + Real.cos (j * Real.pi / (N + 1))) := by
      have : om ^ N = ∏ j ∈ Icc 1 N, om := by simp
      rw [this, ← Finset.prod_mul_distrib]
      apply Finset.prod_congr rfl
      intro j _
      unfold angle
      field_simp
    rw [hrefl, hscale, mul_pow, mul_pow ga om, mul_pow (ga ^ N), ← pow_mul, ← pow_mul, mul_comm N 2]
    rw [mul_comm (ga ^ (2 * N)), mul_div_mul_left _ _ (pow_ne_zero (2 * N) hom0.ne')]
  have hint : ∫ w in (0 : ℝ)..om, H w ^ 2 =
      ∫ w in (0 : ℝ)..om, (fun v => (∏ j ∈ Icc 1 N, (v + Real.cos (j * Real.pi / (N + 1)))) ^ 2) (w / om) *
        (1 / ga ^ (2 * N)) := by
    apply intervalIntegral.integral_congr_ae
    apply Filter.Eventually.of_forall
    intro w hw
    rw [Set.uIoc_of_le hom0.le] at hw
    rw [hHw w hw.1]
    dsimp only
    ring
  rw [← hom, hint, intervalIntegral.integral_mul_const,
    intervalIntegral.integral_comp_div (fun v => (∏ j ∈ Icc 1 N, (v + Real.cos (j * Real.pi / (N + 1)))) ^ 2) hom0.ne',
    zero_div, div_self hom0.ne', smul_eq_mul]
  have hgi' : ∫ v in (0 : ℝ)..1, (∏ j ∈ Icc 1 N, (v + Real.cos (j * Real.pi / (N + 1)))) ^ 2 = 1 / gg N := by
    rw [eq_div_iff hg.ne']
    linarith
  rw [hgi', ← hdes]
  have := pow_ne_zero (2 * N) hga0.ne'
  field_simp

/-- hypotheses met: one integrator, `g_i(1) = 3` -/
theorem exLeapT : 2 / 10 ^ 14 ≤ (leapEnob { exKw with xi := some (3 / 100) } 3 1 1 1).T := by
  have hπ := Real.pi_pos
  have hπ4 := Real.pi_le_four
  have h2 := Fom.C46_dB_inverse.2.2.1 (Fom.enobToSnr 1)
  obtain ⟨-, -, -, -, -, hT0, h8⟩ := leapEnob_ok { exKw with xi := some (3 / 100) } 3 (by norm_num) 1 one_ne_zero 1 1 (3 / 100)
    one_pos rfl (by norm_num) one_pos
  obtain ⟨T, hT⟩ : ∃ T, T = (leapEnob { exKw with xi := some (3 / 100) } 3 1 1 1).T := ⟨_, rfl⟩
  rw [← hT] at hT0 h8 ⊢
  rw [(Fom.C46_ideal_quantiser 1).1, Real.rpow_one] at h8
  by_contra hc
  have hlt := not_le.1 hc
  have h3 : T * (2 * Real.pi * 1) ≤ 1 / 4 := by nlinarith
  have h4 : 2 ≤ 1 / (2 * T * (2 * Real.pi * 1)) := by
    rw [le_div_iff₀ (by positivity)]
    linarith
  nlinarith

example : ∃ f, leapSynthesis { exKw with xi := some (3 / 100) } (fun _ => 3) = .ok f := by
  obtain ⟨f, h, -⟩ := C81_in_band { exKw with xi := some (3 / 100) } (fun _ => 3) 1 one_ne_zero 1 1 (3 / 100) (by norm_num) one_pos
    (by
      have : ∀ v : ℝ, (∏ j ∈ Icc 1 1, (v + Real.cos ((j : ℕ) * Real.pi / ((1 : ℕ) + 1)))) ^ 2 = v ^ 2 := by
        intro v
        rw [Finset.Icc_self, Finset.prod_singleton]
        have : ((1 : ℕ) : ℝ) * Real.pi / ((1 : ℕ) + 1) = Real.pi / 2 := by push_cast; ring
        rw [this, Real.cos_pi_div_two, add_zero]
      simp only [this]
      rw [integral_pow]
      norm_num) rfl (by norm_num) rfl rfl rfl rfl exLeapT
  exact ⟨f, h⟩

/-! ### C82: overload -/

/-- **C82 is false**: every second-order leap-frog frontend from `OSR` and `BW` (default `delta`) leaves the range: there is a
period of the simulation with all states in `[-1, 1]` at its start and the constant input 1 during which a state exceeds 1. -/
theorem C82_false (gg : ℕ → ℝ) (BW OSR : ℝ) (hB : 0 < BW) (hO : 0 < OSR) (hT : 2 / 10 ^ 14 ≤ 1 / (2 * OSR * BW)) :
    ∃ g dc, leapSynthesis { N := some 2, OSR := some OSR, BW := some BW } gg = .ok ⟨2, g, dc⟩ ∧
      ∃ st st' φ, Period ⟨g, dc, fun _ _ _ => 1, true⟩ st φ st' ∧ InBox 2 st.x ∧ ∃ τ ∈ Set.Icc 0 dc.T, 1 < φ τ 0 := by
  have hπ := Real.pi_pos
  obtain ⟨p, h1, h2, h3, h4, h5, h6, h7⟩ := leapOsr_ok { N := some 2, OSR := some OSR, BW := some BW } BW OSR hB hO one_pos
  have hbp : 0 < p.beta := by
    have : leapOsr { N := some 2, OSR := some OSR, BW := some BW } BW OSR = .ok p := h1
    unfold leapOsr pyDiv at this
    rw [if_neg (by positivity)] at this
    dsimp only [Option.getD] at this
    rw [if_neg (by positivity)] at this
    cases this
    positivity
  obtain ⟨g, dc, r1, hl⟩ := (leapEnd_ok 2 two_ne_zero p h2 BW h3 h4 h5).1 (by rw [h7]; exact hT)
  have hT0 : 0 < p.T := by rw [h7]; positivity
  have hd1 : p.delta = 1 := h6
  obtain ⟨w, hw⟩ : ∃ w, w = Real.pi * BW := ⟨_, rfl⟩
  have hw0 : 0 < w := by rw [hw]; positivity
  rw [← hw] at h3
  have ha : p.alpha < 0 := by
    by_contra hc
    have := mul_nonneg hbp.le (not_lt.1 hc)
    rw [h3] at this
    nlinarith [pow_pos hw0 2]
  refine ⟨g, dc, ?_, ?_⟩
  · unfold leapSynthesis leapBW
    dsimp only
    rw [h1]
    exact r1
  obtain ⟨x0, hx0⟩ : ∃ x0 : ℕ → ℝ, x0 = fun n => if n = 0 then 1 else -1 := ⟨_, rfl⟩
  obtain ⟨y, hy1, hy2, hy3⟩ := hl.net.obs x0 (fun _ => 1) (asVec (contribution dc ⟨fun _ => 0, fun _ => 0, fun _ => 0⟩ 0)).v
  have hk : ∀ n : ℕ, 0 < p.beta * p.delta ^ n := by
    intro n
    rw [hd1, one_pow, mul_one]
    exact hbp
  obtain ⟨φ, hφ⟩ : ∃ φ : ℝ → ℕ → ℝ, φ = fun τ n => if n = 0 then
      2 * Real.cos (w * τ) - p.alpha / w * Real.sin (w * τ) - 1
      else -Real.cos (w * τ) + 2 * p.beta / w * Real.sin (w * τ) := ⟨_, rfl⟩
  obtain ⟨c', hc'⟩ : ∃ c', c' = update dc ⟨fun _ => 0, fun _ => 0, fun _ => 0⟩ 0 fun m : Fin 2 => y.v m := ⟨_, rfl⟩
  have hcur : ∀ m : Fin 2, c'.cur m = if m.val = 0 then -1 else 1 := by
    intro m
    rw [hc', plain_update p.T _ (by positivity) dc hl.ctl]
    have := (hy3 m.val m.isLt).1 (hk _)
    rw [this, hx0]
    fin_cases m <;> norm_num
  have hder0 : ∀ τ, HasDerivAt (fun τ => φ τ 0) (p.alpha * φ τ 1) τ := by
    intro τ
    have e1 : (fun τ => φ τ 0) = fun τ => 2 * Real.cos (w * τ) - p.alpha / w * Real.sin (w * τ) - 1 := by
      rw [hφ]; rfl
    have hlin : HasDerivAt (fun τ : ℝ => w * τ) w τ := by simpa using (hasDerivAt_id τ).const_mul w
    have hc := hlin.cos
    have hs := hlin.sin
    rw [e1]
    refine (((hc.const_mul 2).sub (hs.const_mul (p.alpha / w))).sub_const 1).congr_deriv ?_
    have : φ τ 1 = -Real.cos (w * τ) + 2 * p.beta / w * Real.sin (w * τ) := by rw [hφ]; rfl
    rw [this]
    field_simp
    linear_combination (-2 * Real.sin (w * τ)) * h3
  have hder1 : ∀ τ, HasDerivAt (fun τ => φ τ 1) (p.beta * φ τ 0 + p.beta) τ := by
    intro τ
    have e1 : (fun τ => φ τ 1) = fun τ => -Real.cos (w * τ) + 2 * p.beta / w * Real.sin (w * τ) := by
      rw [hφ]; rfl
    have hlin : HasDerivAt (fun τ : ℝ => w * τ) w τ := by simpa using (hasDerivAt_id τ).const_mul w
    have hc := hlin.cos
    have hs := hlin.sin
    rw [e1]
    refine (hc.neg.add (hs.const_mul (2 * p.beta / w))).congr_deriv ?_
    have : φ τ 0 = 2 * Real.cos (w * τ) - p.alpha / w * Real.sin (w * τ) - 1 := by rw [hφ]; rfl
    rw [this]
    field_simp
    linear_combination (Real.sin (w * τ)) * h3
  refine ⟨⟨0, 0, x0, ⟨fun _ => 0, fun _ => 0, fun _ => 0⟩⟩, ⟨1, 0 + dc.T, fun n => φ dc.T n, c'⟩, φ, ?_, ?_, ?_⟩
  · constructor
    · unfold Cfg.decide
      dsimp only
      have hu0 : Cfg.u0 ⟨g, dc, fun _ _ _ => 1, true⟩ (⟨0, 0, x0, ⟨fun _ => 0, fun _ => 0, fun _ => 0⟩⟩ : St 2) = ⟨1, fun _ => 1⟩ := by
        unfold Cfg.u0
        dsimp only
        rw [hl.net.l]
        simp
      rw [hu0, hl.net.n]
      change (match g.controlObservation ⟨2, x0⟩ (some ⟨1, fun _ => 1⟩)
        (some ⟨2, (asVec (contribution dc ⟨fun _ => 0, fun _ => 0, fun _ => 0⟩ 0)).v⟩) with
        | .error e => Except.error e
        | .ok y => if y.len < 2 then Except.error Exc.indexError
          else Except.ok (update dc ⟨fun _ => 0, fun _ => 0, fun _ => 0⟩ 0 fun m => y.v m)) = _
      rw [hy1]
      dsimp only
      rw [if_neg (by omega), hc']
    · intro n hn
      have hn2 : n < 2 := by rw [← hl.net.n]; exact hn
      show φ 0 n = x0 n
      rw [hφ, hx0]
      interval_cases n <;> norm_num
    · intro n hn
      have hn2 : n < 2 := by rw [← hl.net.n]; exact hn
      interval_cases n
      · exact fun τ _ => (hder0 τ).continuousAt.continuousWithinAt
      · exact fun τ _ => (hder1 τ).continuousAt.continuousWithinAt
    · intro τ hτ
      obtain ⟨d, d1, d2⟩ := hl.net.deriv (φ τ) (fun _ => 1) (asVec (contribution dc c' τ)).v
      have hs : ∀ n < 2, (asVec (contribution dc c' τ)).v n = if n = 0 then -1 else 1 := by
        intro n hn
        show (if h : n < 2 then contribution dc c' τ ⟨n, h⟩ else 0) = _
        rw [dif_pos hn, plain_contribution p.T _ dc hl.ctl _ _ hτ.1, hcur]
      refine ⟨d, ?_, ?_⟩
      · unfold Cfg.rhs
        dsimp only
        rw [if_pos rfl, hl.net.n, hl.net.l]
        exact d1
      · intro n hn
        have hn2 : n < 2 := by rw [← hl.net.n]; exact hn
        rw [d2 n hn2, hs n hn2, hd1]
        interval_cases n
        · refine (hder0 τ).hasDerivWithinAt.congr_deriv ?_
          simp [previous, following]
        · refine (hder1 τ).hasDerivWithinAt.congr_deriv ?_
          simp [previous, following]
    · intro n _
      rfl
    · rfl
    · rfl
  · intro n _
    show |x0 n| ≤ 1
    rw [hx0]
    dsimp only
    split_ifs <;> norm_num
  · obtain ⟨b, hb⟩ : ∃ b, b = -p.alpha / w := ⟨_, rfl⟩
    have hb0 : 0 < b := by rw [hb]; exact div_pos (by linarith) hw0
    obtain ⟨a, hadef⟩ : ∃ a, a = min (w * p.T) (min 1 (b / Real.pi)) := ⟨_, rfl⟩
    have ha0 : 0 < a := by rw [hadef]; positivity
    have ha1 : a ≤ w * p.T := by rw [hadef]; exact min_le_left _ _
    have ha2 : a ≤ 1 := by rw [hadef]; exact (min_le_right _ _).trans (min_le_left _ _)
    have ha3 : a ≤ b / Real.pi := by rw [hadef]; exact (min_le_right _ _).trans (min_le_right _ _)
    refine ⟨a / w, ⟨by positivity, ?_⟩, ?_⟩
    · rw [hl.per, div_le_iff₀ hw0]
      linarith
    · have : φ (a / w) 0 = 2 * Real.cos a + b * Real.sin a - 1 := by
        rw [hφ, hb]
        dsimp only
        rw [if_pos rfl, mul_div_cancel₀ _ hw0.ne']
        ring
      rw [this]
      have hcos := Real.one_sub_sq_div_two_le_cos (x := a)
      have hπ3 := Real.one_le_pi_div_two
      have hsin := Real.mul_le_sin ha0.le (by linarith)
      have h8 : b * (2 / Real.pi * a) ≤ b * Real.sin a := mul_le_mul_of_nonneg_left hsin hb0.le
      have h9 : b * (2 / Real.pi * a) = 2 * (b / Real.pi) * a := by ring
      nlinarith

/-- **C82 (part that holds)** with a single integrator and `delta ≤ 1` the state stays in the range. -/
theorem C82_partial (k : Kw) (gg : ℕ → ℝ) (BW OSR : ℝ) (hB : 0 < BW) (hO : 0 < OSR) (hd : 0 < k.delta.getD 1)
    (hd1 : k.delta.getD 1 ≤ 1) (hkN : k.N = some 1) (hkB : k.BW = some BW) (hkO : k.OSR = some OSR) (hkE : k.ENOB = none)
    (hT : 2 / 10 ^ 14 ≤ 1 / (2 * OSR * BW)) :
    ∃ g dc, leapSynthesis k gg = .ok ⟨1, g, dc⟩ ∧ ∀ (cfg : Cfg 1), cfg.sys = g → cfg.dc = dc → cfg.hasInput = true →
      (∀ k t, |cfg.input k t 0| ≤ 1) → ∀ st φ, Run cfg st φ → InBox 1 (st 0).x → ∀ j,
        InBox 1 (st j).x ∧ ∀ τ ∈ Set.Icc 0 dc.T, InBox 1 (φ j τ) := by
  obtain ⟨g, dc, beta, alpha, T, h1, hl, hT0, -⟩ := (C81_osr k gg 1 one_ne_zero BW OSR hB hO hd hkN hkB hkO hkE).1 hT
  refine ⟨g, dc, h1, ?_⟩
  intro cfg hcs hcd hin hu st φ hrun h0 j
  subst hcs hcd
  have hnet : IsNetwork cfg.sys 1 (fun _ => beta) (fun _ => 0) (fun _ => 0) (fun _ => beta) := by
    refine network_congr hl.net (fun _ _ => rfl) (fun n hn => ?_) (fun _ _ => rfl) (fun n hn => ?_)
    · rw [if_neg (by omega), mul_zero, mul_zero]
    · obtain rfl : n = 0 := by omega
      rw [pow_zero, mul_one]
  have hh := hl.half
  rw [hl.per]
  exact run_bounded cfg _ _ _ _ hnet T _ hT0 (by positivity) hl.ctl hin hu (fun _ _ => hl.nz) (fun _ _ => le_rfl)
    (fun n _ => by rw [abs_zero, add_zero]) (fun n _ => by linarith) st φ hrun h0 j

example : ∃ g dc, leapSynthesis { N := some 1, OSR := some 8, BW := some 1000 } (fun _ => 1) = .ok ⟨1, g, dc⟩ := by
  obtain ⟨g, dc, h, -⟩ := C82_partial { N := some 1, OSR := some 8, BW := some 1000 } (fun _ => 1) 1000 8 (by norm_num)
    (by norm_num) one_pos le_rfl rfl rfl rfl rfl (by norm_num)
  exact ⟨g, dc, h⟩

/-- `C81_enob`: the specification of `exLeapT`; `C81_resonances`: a fourth-order structure for a thousand hertz. -/
example : (∃ g dc, leapSynthesis { exKw with xi := some (3 / 100) } (fun _ => 3) = .ok ⟨1, g, dc⟩) ∧
    ∃ (g : Sys ℝ) (dc : DC ℝ 4), leapSynthesis { N := some 4, OSR := some 32, BW := some 1000 } (fun _ => 1) = .ok ⟨4, g, dc⟩ ∧
      ∀ s : ℂ, ¬ Regular 4 (cm g.A) s ↔
        ∃ j : ℕ, 1 ≤ j ∧ j ≤ 4 ∧ s = Complex.I * (2 * Real.pi * 1000 * Real.cos (j * Real.pi / ((4 : ℕ) + 1)) : ℝ) := by
  constructor
  · obtain ⟨g, dc, -, -, -, h, -⟩ := C81_enob { exKw with xi := some (3 / 100) } (fun _ => 3) 1 one_ne_zero 1 1 (3 / 100)
      (by norm_num) one_pos rfl (by norm_num) (by norm_num [exKw]) rfl rfl rfl exLeapT
    exact ⟨g, dc, h⟩
  · obtain ⟨g, dc, -, -, -, h, -⟩ := (C81_osr { N := some 4, OSR := some 32, BW := some 1000 } (fun _ => 1) 4 (by norm_num) 1000 32
      (by norm_num) (by norm_num) (by norm_num) rfl rfl rfl rfl).1 (by norm_num)
    exact ⟨g, dc, h, C81_resonances { N := some 4, OSR := some 32, BW := some 1000 } (fun _ => 1) 4 (by norm_num) 1000 g dc rfl rfl
      (by norm_num) (by rintro o ⟨⟩; norm_num) one_pos (by norm_num) (by norm_num) h⟩


end Cbadc.Synthesis
