import Verif.Model.Quadrature
import Verif.Lemmas.Quadrature
import Verif.Lemmas.Simulator
import Verif.Props.LeapFrog
import Verif.Lemmas.Stack

/-! # C87: chains of oscillators; C88: parallel leap-frog structures -/

namespace Cbadc.Synthesis
open Analog Control Signal Finset Simulate
open Analog.Spec Spec

/-! ## C87: chain of oscillators -/

/-- neighbouring entries as complex numbers (specification) -/
noncomputable def pairs (x : ℕ → ℝ) (i : ℕ) : ℂ := (x (2 * i) : ℂ) + Complex.I * (x (2 * i + 1) : ℂ)

theorem sum_pairs (N : ℕ) (f : ℕ → ℝ) : ∑ c ∈ range (2 * N), f c = ∑ j ∈ range N, (f (2 * j) + f (2 * j + 1)) := by
  induction N with
  | zero => rfl
  | succ N ih =>
    rw [show 2 * (N + 1) = 2 * N + 1 + 1 by ring, sum_range_succ, sum_range_succ, sum_range_succ, ih]
    ring

theorem tri_sum (N i : ℕ) (hi : i < N) (a b c : ℕ → ℝ) :
    ∑ j ∈ range N, (if i = j then a j else if j = i + 1 then b j else if i = j + 1 then c j else 0) =
      a i + (if i + 1 < N then b (i + 1) else 0) + (if i = 0 then 0 else c (i - 1)) := by
  have h : ∀ j ∈ range N, (if i = j then a j else if j = i + 1 then b j else if i = j + 1 then c j else 0) =
      ((if i = j then a j else 0) * 1 + (if j = i + 1 then b (i + 1) else 0) * 1) + (if i = j + 1 then c j else 0) * 1 := by
    intro j _
    by_cases h1 : i = j
    · rw [if_pos h1, if_pos h1, if_neg (by omega), if_neg (by omega)]; ring
    · by_cases h2 : j = i + 1
      · subst h2
        rw [if_neg h1, if_neg h1, if_pos rfl, if_pos rfl, if_neg (by omega)]; ring
      · rw [if_neg h1, if_neg h1, if_neg h2, if_neg h2]; ring
  rw [sum_congr rfl h, sum_add_distrib, sum_add_distrib, sum_up N (fun _ => b (i + 1)) (fun _ => 1) i,
    sum_low N c (fun _ => 1) i hi]
  have h2 : ∑ j ∈ range N, (if i = j then a j else 0) * 1 = a i := by
    rw [Finset.sum_eq_single i]
    · rw [if_pos rfl, mul_one]
    · intro b _ hb
      rw [if_neg (fun h => hb h.symm), zero_mul]
    · intro h
      exact absurd (mem_range.2 hi) h
  rw [h2]
  simp only [mul_one]

theorem oscA_even (beta rho gamma omega : ℝ) (i j : ℕ) (x y : ℝ) :
    oscA beta rho gamma omega (2 * i) (2 * j) * x + oscA beta rho gamma omega (2 * i) (2 * j + 1) * y =
      if i = j then rho * x - omega * y else if j = i + 1 then gamma * x else if i = j + 1 then beta * x else 0 := by
  unfold oscA
  have e1 : 2 * i / 2 = i := by omega
  have e2 : 2 * j / 2 = j := by omega
  have e3 : (2 * j + 1) / 2 = j := by omega
  have e4 : 2 * i % 2 = 0 := by omega
  have e5 : 2 * j % 2 = 0 := by omega
  have e6 : (2 * j + 1) % 2 = 1 := by omega
  rw [e1, e2, e3, e4, e5, e6]
  split_ifs <;> first | contradiction | ring1

theorem oscA_odd (beta rho gamma omega : ℝ) (i j : ℕ) (x y : ℝ) :
    oscA beta rho gamma omega (2 * i + 1) (2 * j) * x + oscA beta rho gamma omega (2 * i + 1) (2 * j + 1) * y =
      if i = j then omega * x + rho * y else if j = i + 1 then gamma * y else if i = j + 1 then beta * y else 0 := by
  unfold oscA
  have e1 : (2 * i + 1) / 2 = i := by omega
  have e2 : 2 * j / 2 = j := by omega
  have e3 : (2 * j + 1) / 2 = j := by omega
  have e4 : (2 * i + 1) % 2 = 1 := by omega
  have e5 : 2 * j % 2 = 0 := by omega
  have e6 : (2 * j + 1) % 2 = 1 := by omega
  rw [e1, e2, e3, e4, e5, e6]
  split_ifs <;> first | contradiction | ring1

/-- A chain of `N` oscillators at the angular frequency `w` with bandwidth parameters `beta`, `gamma` (specification):
in terms of the complex states, oscillator `i` rotates at `w`, is driven by the one before it (the first one by the
input), by the one behind it and by its two controls, and the control observes the negated state. -/
structure IsOscillators (g : Sys ℝ) (N : ℕ) (beta rho gamma w : ℝ) : Prop where
  n : g.N = 2 * N
  l : g.L = 2
  m : g.M = 2 * N
  mt : g.Mt = 2 * N
  nt : g.Nt = 2 * N
  deriv : ∀ x u s : ℕ → ℝ, ∀ i < N, pairs (rhs g x u s) i =
    ((rho : ℂ) + Complex.I * w) * pairs x i + beta * (if i = 0 then pairs u 0 else pairs x (i - 1)) +
      gamma * (if i + 1 < N then pairs x (i + 1) else 0) + beta * pairs s i
  obs : ∀ x u s : ℕ → ℝ, ∀ r < 2 * N, cObs g x u s r = -x r
  out : ∀ x u : ℕ → ℝ, ∀ r < 2 * N, outp g x u r = x r

theorem oscSystem_ok (N : ℕ) (beta rho gamma w : ℝ) (hb : 0 < beta) :
    ∃ g, oscSystem N beta rho beta gamma w = .ok g ∧ IsOscillators g N beta rho gamma w := by
  have hsg : npSign beta = 1 := by
    unfold npSign
    rw [if_neg (not_lt.2 hb.le), if_neg hb.ne']
  refine ⟨_, (C21_entries (2 * N) 2 (2 * N) (2 * N) (2 * N) (oscA beta rho gamma w)
    (fun r c => if r < 2 ∧ r = c then beta else 0) (fun r c => if r = c then 1 else 0) (fun r c => if r = c then beta else 0)
    (fun r c => if r = c then -npSign beta else 0) 0 0 0).2, rfl, rfl, rfl, rfl, rfl, ?_, ?_, ?_⟩
  · intro x u s i hi
    have hB : ∀ r, ∑ c ∈ range 2, (if r < 2 ∧ r = c then beta else 0) * u c = if r < 2 then beta * u r else 0 := by
      intro r
      rw [sum_range_succ, sum_range_one]
      by_cases h : r < 2
      · rw [if_pos h]
        interval_cases r <;> simp
      · rw [if_neg h]
        simp [h]
    have hG : ∀ r < 2 * N, ∑ c ∈ range (2 * N), (if r = c then beta else 0) * s c = beta * s r := by
      intro r hr
      exact sum_diag (2 * N) (fun _ => beta) s r hr
    have he : rhs (⟨2 * N, 2, 2 * N, 2 * N, 2 * N, oscA beta rho gamma w, fun r c => if r < 2 ∧ r = c then beta else 0,
        fun r c => if r = c then 1 else 0, some fun r c => if r = c then beta else 0,
        some fun r c => if r = c then -npSign beta else 0, fun _ _ => 0, fun _ _ => 0, fun _ _ => 0⟩ : Sys ℝ) x u s (2 * i) =
        (rho * x (2 * i) - w * x (2 * i + 1) + (if i + 1 < N then gamma * x (2 * (i + 1)) else 0) +
          (if i = 0 then 0 else beta * x (2 * (i - 1)))) + (if 2 * i < 2 then beta * u (2 * i) else 0) + beta * s (2 * i) := by
      unfold rhs
      dsimp only
      rw [hB, hG _ (by omega), sum_pairs]
      simp_rw [oscA_even]
      rw [tri_sum N i hi (fun j => rho * x (2 * j) - w * x (2 * j + 1)) (fun j => gamma * x (2 * j)) (fun j => beta * x (2 * j))]
    have ho : rhs (⟨2 * N, 2, 2 * N, 2 * N, 2 * N, oscA beta rho gamma w, fun r c => if r < 2 ∧ r = c then beta else 0,
        fun r c => if r = c then 1 else 0, some fun r c => if r = c then beta else 0,
        some fun r c => if r = c then -npSign beta else 0, fun _ _ => 0, fun _ _ => 0, fun _ _ => 0⟩ : Sys ℝ) x u s (2 * i + 1) =
        (w * x (2 * i) + rho * x (2 * i + 1) + (if i + 1 < N then gamma * x (2 * (i + 1) + 1) else 0) +
          (if i = 0 then 0 else beta * x (2 * (i - 1) + 1))) + (if 2 * i + 1 < 2 then beta * u (2 * i + 1) else 0) +
          beta * s (2 * i + 1) := by
      unfold rhs
      dsimp only
      rw [hB, hG _ (by omega), sum_pairs]
      simp_rw [oscA_odd]
      rw [tri_sum N i hi (fun j => w * x (2 * j) + rho * x (2 * j + 1)) (fun j => gamma * x (2 * j + 1))
        (fun j => beta * x (2 * j + 1))]
    unfold pairs at *
    rw [he, ho]
    by_cases h0 : i = 0
    · subst h0
      by_cases h1 : 0 + 1 < N
      · simp only [if_pos h1, mul_zero, zero_add, if_true, Nat.zero_lt_two, Nat.one_lt_two]
        push_cast
        linear_combination (-(w : ℂ) * x 1) * Complex.I_mul_I
      · simp only [if_neg h1, mul_zero, zero_add, if_true, Nat.zero_lt_two, Nat.one_lt_two]
        push_cast
        linear_combination (-(w : ℂ) * x 1) * Complex.I_mul_I
    · by_cases h1 : i + 1 < N
      · rw [if_pos h1, if_pos h1, if_pos h1, if_neg h0, if_neg h0, if_neg h0, if_neg (by omega), if_neg (by omega)]
        push_cast
        linear_combination (-(w : ℂ) * x (2 * i + 1)) * Complex.I_mul_I
      · rw [if_neg h1, if_neg h1, if_neg h1, if_neg h0, if_neg h0, if_neg h0, if_neg (by omega), if_neg (by omega)]
        push_cast
        linear_combination (-(w : ℂ) * x (2 * i + 1)) * Complex.I_mul_I
  · intro x u s r hr
    unfold cObs
    dsimp only
    rw [sum_diag (2 * N) (fun _ => -npSign beta) x r hr, hsg]
    simp
  · intro x u r hr
    unfold outp
    dsimp only
    rw [sum_diag (2 * N) (fun _ => 1) x r hr]
    simp

theorem oscOsr_ok (N : ℕ) (BW OSR rho fp : ℝ) (hB : 0 < BW) (hO : 0 < OSR) :
    (2 / 10 ^ 14 ≤ 1 / (2 * BW * OSR) → ∃ g dc gamma, oscOsr N BW OSR rho fp = .ok ⟨N, g, dc⟩ ∧ dc.T = 1 / (2 * BW * OSR) ∧
      IsOscillators g N (1 / (2 * (1 / (2 * BW * OSR)))) rho gamma (2 * Real.pi * fp) ∧
      1 / (2 * (1 / (2 * BW * OSR))) * gamma = -(Real.pi * BW) ^ 2) ∧
    (1 / (2 * BW * OSR) < 2 / 10 ^ 14 → oscOsr N BW OSR rho fp = .error .exception) := by
  have h0 : 0 < 2 * BW * OSR := by positivity
  obtain ⟨T, hT⟩ : ∃ T, T = 1 / (2 * BW * OSR) := ⟨_, rfl⟩
  have hT0 : 0 < T := by rw [hT]; positivity
  obtain ⟨b, hb⟩ : ∃ b, b = 1 / (2 * T) := ⟨_, rfl⟩
  have hb0 : 0 < b := by rw [hb]; positivity
  obtain ⟨g, h1, h2⟩ := oscSystem_ok N b rho (-(2 * Real.pi * BW / 2) ^ 2 / b) (2 * Real.pi * fp) hb0
  have e : oscOsr N BW OSR rho fp = match clocked T N none with
      | .error e => .error e
      | .ok dc => .ok ⟨N, g, dc⟩ := by
    unfold oscOsr pyDiv
    rw [if_neg h0.ne']
    dsimp only
    rw [← hT, if_neg (by positivity)]
    dsimp only
    rw [← hb, if_neg hb0.ne']
    dsimp only
    rw [h1]
    rfl
  rw [← hT, ← hb, e]
  constructor
  · intro h
    obtain ⟨dc, c1, -, c3⟩ := (clocked_none T N).1 h
    refine ⟨g, dc, _, by rw [c1], c3, h2, ?_⟩
    rw [mul_div_cancel₀ _ hb0.ne']
    ring
  · intro h
    rw [(clocked_none T N).2 h none]

/-- **C87 (part that holds: the analog system)** `get_chain_of_oscillators` with an oversampling ratio and a bandwidth (or a
clock period) gives a chain of `N` oscillators at `fp` whose couplings have the product `-(pi BW)^2` and `beta T = 1/2`; a
period below what the clock accepts raises. Missing: a digital control that fits, see `C87_simulation_false`, and the
specifications by ENOB or SNR, see `C87_enob_false`. -/
theorem C87_osr_partial (k : Kw) (N : ℕ) (BW OSR T fp : ℝ) (hB : 0 < BW) (hO : 0 < OSR) (hT : T = 1 / (2 * BW * OSR))
    (hkN : k.N = some N) (hkO : k.OSR = some OSR)
    (hk : (k.BW = some BW ∧ k.ENOB = none ∧ k.SNR = none) ∨ (k.BW = none ∧ k.T = some T)) :
    (2 / 10 ^ 14 ≤ T → ∃ g dc beta gamma, oscillators k (some fp) = .ok ⟨N, g, dc⟩ ∧ dc.T = T ∧
      IsOscillators g N beta (k.rho.getD 0) gamma (2 * Real.pi * fp) ∧ beta * T = 1 / 2 ∧
      beta * gamma = -(Real.pi * BW) ^ 2) ∧
    (T < 2 / 10 ^ 14 → oscillators k (some fp) = .error .exception) := by
  have hT0 : 0 < T := by rw [hT]; positivity
  have e : oscillators k (some fp) = oscOsr N BW OSR (k.rho.getD 0) fp := by
    unfold oscillators
    rcases hk with ⟨h1, h2, h3⟩ | ⟨h1, h2⟩
    · rw [hkN, h1, h2, h3, hkO]
    · rw [hkN, h1, hkO, h2]
      cases k.ENOB <;> cases k.SNR <;>
      · dsimp only
        unfold pyDiv
        rw [if_neg (by positivity)]
        dsimp only
        congr 1
        rw [hT]
        field_simp
  obtain ⟨h1, h2⟩ := oscOsr_ok N BW OSR (k.rho.getD 0) fp hB hO
  rw [← hT] at h1 h2
  rw [e]
  refine ⟨fun h => ?_, h2⟩
  obtain ⟨g, dc, gamma, g1, g2, g3, g4⟩ := h1 h
  exact ⟨g, dc, _, gamma, g1, g2, g3, by field_simp, g4⟩

/-- hypotheses met -/
example : ∃ g dc beta gamma, oscillators { N := some 2, BW := some 1, OSR := some 4 } (some 10) = .ok ⟨2, g, dc⟩ ∧
    dc.T = 1 / 8 ∧ IsOscillators g 2 beta 0 gamma (2 * Real.pi * 10) ∧ beta * (1 / 8) = 1 / 2 ∧
      beta * gamma = -(Real.pi * 1) ^ 2 :=
  (C87_osr_partial { N := some 2, BW := some 1, OSR := some 4 } 2 1 4 (1 / 8) 10 one_pos (by norm_num) (by norm_num) rfl rfl
    (.inl ⟨rfl, rfl, rfl⟩)).1 (by norm_num)

example : ∃ g dc beta gamma, oscillators { N := some 3, T := some (1 / 8), OSR := some 4, rho := some (-1) } (some 10) =
    .ok ⟨3, g, dc⟩ ∧ dc.T = 1 / 8 ∧ IsOscillators g 3 beta (-1) gamma (2 * Real.pi * 10) ∧ beta * (1 / 8) = 1 / 2 ∧
      beta * gamma = -(Real.pi * 1) ^ 2 :=
  (C87_osr_partial { N := some 3, T := some (1 / 8), OSR := some 4, rho := some (-1) } 3 1 4 (1 / 8) 10 one_pos (by norm_num)
    (by norm_num) rfl rfl (.inr ⟨rfl, rfl⟩)).1 (by norm_num)

/-- **C87 is false for the frontend as a whole**: whenever the oscillators are accepted from an oversampling ratio, the
digital control has `N` controls where the system needs `2 N`, so that for no input and no state a period can be
simulated. -/
theorem C87_simulation_false (k : Kw) (N : ℕ) (hN : N ≠ 0) (BW OSR fp : ℝ) (hB : 0 < BW) (hO : 0 < OSR) (hkN : k.N = some N)
    (hkO : k.OSR = some OSR) (hkB : k.BW = some BW) (hkE : k.ENOB = none) (hkS : k.SNR = none)
    (hT : 2 / 10 ^ 14 ≤ 1 / (2 * BW * OSR)) :
    ∃ g dc, oscillators k (some fp) = .ok ⟨N, g, dc⟩ ∧ g.M = 2 * N ∧
      ∀ cfg : Cfg N, cfg.sys = g → cfg.dc = dc → ∀ st,
        (∃ e, cfg.decide st = .error e) ∧ ∀ φ st', ¬ Period cfg st φ st' := by
  obtain ⟨g, dc, beta, gamma, h1, h2, h3, -, -⟩ :=
    (C87_osr_partial k N BW OSR _ fp hB hO rfl hkN hkO (.inl ⟨hkB, hkE, hkS⟩)).1 hT
  refine ⟨g, dc, h1, h3.m, ?_⟩
  intro cfg hs hd st
  have key : ∀ c, cfg.decide st ≠ .ok c := by
    intro c hc
    obtain ⟨y, hy, -, -⟩ := (decide_ok cfg st c).1 hc
    unfold Sys.controlObservation at hy
    cases hG : cfg.sys.GammaT with
    | none => rw [hG] at hy; cases hy
    | some G =>
      rw [hG] at hy
      dsimp only at hy
      have hm : cfg.sys.M = 2 * N := by rw [hs, h3.m]
      have hl : (asVec (contribution cfg.dc st.c 0)).len = N := rfl
      have hx : (npDot cfg.sys.Mt cfg.sys.M cfg.sys.At (asVec (contribution cfg.dc st.c 0))) = .error .valueError := by
        unfold npDot
        rw [if_pos (by rw [hl, hm]; omega)]
      rw [hx] at hy
      unfold npDot at hy
      rw [if_neg (by simp), if_neg (by simp [Cfg.u0])] at hy
      cases hy
  constructor
  · cases hdd : cfg.decide st with
    | error e => exact ⟨e, rfl⟩
    | ok c => exact absurd hdd (key c)
  · intro φ st' hp
    exact key _ hp.dec

/-- hypotheses met -/
example : ∃ g dc, oscillators { N := some 2, BW := some 1, OSR := some 4 } (some 10) = .ok ⟨2, g, dc⟩ ∧ g.M = 2 * 2 ∧
      ∀ cfg : Cfg 2, cfg.sys = g → cfg.dc = dc → ∀ st,
        (∃ e, cfg.decide st = .error e) ∧ ∀ φ st', ¬ Period cfg st φ st' :=
  C87_simulation_false { N := some 2, BW := some 1, OSR := some 4 } 2 two_ne_zero 1 4 10 one_pos (by norm_num) rfl rfl rfl rfl
    rfl (by norm_num)

/-- **C87 is false for specifications by ENOB or SNR**: they always raise. -/
theorem C87_enob_false (k : Kw) (fp : Option ℝ) (BW : ℝ) (hkB : k.BW = some BW) (hk : k.ENOB ≠ none ∨ k.SNR ≠ none) :
    ∃ e, oscillators k fp = .error e := by
  have h : ∀ N, ∃ e, oscEnob k N = .error e := by
    intro N
    unfold oscEnob
    split_ifs
    exacts [⟨_, rfl⟩, ⟨_, rfl⟩, ⟨_, rfl⟩]
  unfold oscillators
  cases hN : k.N with
  | none => exact ⟨_, rfl⟩
  | some N =>
    cases fp with
    | none => exact ⟨_, rfl⟩
    | some fp =>
      dsimp only
      rw [hkB]
      cases hE : k.ENOB with
      | some e => exact h N
      | none =>
        cases hS : k.SNR with
        | some s => exact h N
        | none =>
          rcases hk with hk | hk
          · exact absurd hE hk
          · exact absurd hS hk

/-- hypotheses met -/
example : ∃ e, oscillators { N := some 2, BW := some 1, ENOB := some 10 } (some 10) = .error e :=
  C87_enob_false _ _ 1 rfl (.inl (by simp))

/-! ## C88: parallel leap-frog structures -/

/-- the couplings of `M` parts by resonances listed as `p`: positive below the diagonal, in the order `(1, 0)`, `(2, 0)`,
`(2, 1)`, `(3, 0)`, ..., negative above (specification) -/
def resonances (p : List ℝ) (i j : ℕ) : ℝ :=
  if j < i then p.getD (i * (i - 1) / 2 + j) 0 else if i < j then -p.getD (j * (j - 1) / 2 + i) 0 else 0

theorem sum_blocks (M N : ℕ) (f : ℕ → ℝ) : ∑ c ∈ range (M * N), f c = ∑ j ∈ range M, ∑ q ∈ range N, f (j * N + q) := by
  induction M with
  | zero => simp
  | succ M ih => rw [Nat.succ_mul, sum_split, sum_range_succ, ih]

theorem total_rep (f : Sys ℝ → ℕ) (M : ℕ) (g : Sys ℝ) : total f (List.replicate M g) = M * f g := by
  simp [total]

theorem rep_split (M i : ℕ) (hi : i < M) (g : Sys ℝ) :
    List.replicate M g = List.replicate i g ++ g :: List.replicate (M - i - 1) g := by
  rw [← List.replicate_succ, ← List.replicate_add]
  congr 1
  omega

theorem rep_sum (R C : Sys ℝ → ℕ) (F : Sys ℝ → ℕ → ℕ → ℝ) (M i : ℕ) (hi : i < M) (g : Sys ℝ) (r : ℕ) (hr : r < R g)
    (x : ℕ → ℝ) : ∑ c ∈ range (M * C g), stackMat R C F (List.replicate M g) (i * R g + r) c * x c =
      ∑ c ∈ range (C g), F g r c * shift (i * C g) x c := by
  have h := stackMat_sum R C F (List.replicate i g) g (List.replicate (M - i - 1) g) r hr x
  rw [← rep_split M i hi, total_rep, total_rep, total_rep] at h
  exact h

theorem rep_entry (R C : Sys ℝ → ℕ) (F : Sys ℝ → ℕ → ℕ → ℝ) (M i : ℕ) (hi : i < M) (g : Sys ℝ) (r : ℕ) (hr : r < R g)
    (j q : ℕ) (hq : q < C g) :
    stackMat R C F (List.replicate M g) (i * R g + r) (j * C g + q) = if i = j then F g r q else 0 := by
  have h := stackBlocks_row R C F (List.replicate i g) g (List.replicate (M - i - 1) g) 0 0 (fun _ _ => 0) r (j * C g + q) hr
  rw [← rep_split M i hi, total_rep, total_rep] at h
  simp only [zero_add] at h
  unfold stackMat
  rw [h]
  by_cases e : i = j
  · subst e
    rw [if_pos (by omega), if_pos rfl]
    congr 1
    omega
  · rw [if_neg e, if_neg]
    rintro ⟨h1, h2⟩
    rcases Nat.lt_or_gt_of_ne e with h | h
    · have := Nat.mul_le_mul_right (C g) (Nat.succ_le_of_lt h)
      rw [Nat.succ_mul] at this
      omega
    · have := Nat.mul_le_mul_right (C g) (Nat.succ_le_of_lt h)
      rw [Nat.succ_mul] at this
      omega

/-- the last coupling assigned to a block -/
def lastOf (cs : List (ℕ × ℕ × ℝ)) (i j : ℕ) : Option ℝ :=
  (cs.reverse.find? fun c => c.1 == i && c.2.1 == j).map fun c => c.2.2

theorem block_iff (N i j a b r q : ℕ) (hr : r < N) (hq : q < N) :
    (a * N ≤ i * N + r ∧ i * N + r < (a + 1) * N ∧ b * N ≤ j * N + q ∧ j * N + q < (b + 1) * N) ↔ a = i ∧ b = j := by
  have key : ∀ a i r, r < N → ((a * N ≤ i * N + r ∧ i * N + r < (a + 1) * N) ↔ a = i) := by
    intro a i r hr
    constructor
    · rintro ⟨h1, h2⟩
      by_contra e
      rcases Nat.lt_or_gt_of_ne e with h | h
      · have := Nat.mul_le_mul_right N (Nat.succ_le_of_lt h)
        have h3 : (a + 1) * N ≤ i * N := this
        omega
      · have := Nat.mul_le_mul_right N (Nat.succ_le_of_lt h)
        have h3 : (i + 1) * N ≤ a * N := this
        rw [Nat.succ_mul] at h3
        omega
    · rintro rfl
      rw [Nat.succ_mul]
      omega
  rw [← key a i r hr, ← key b j q hq]
  tauto

theorem fold_entry (N : ℕ) (cs : List (ℕ × ℕ × ℝ)) (A : ℕ → ℕ → ℝ) (i j r q : ℕ) (hr : r < N) (hq : q < N) :
    cs.foldl (fun A c => blockSet (c.1 * N) ((c.1 + 1) * N) (c.2.1 * N) ((c.2.1 + 1) * N) A (eyeBlock c.2.2)) A (i * N + r)
      (j * N + q) = match lastOf cs i j with
        | none => A (i * N + r) (j * N + q)
        | some v => if r = q then v else 0 := by
  induction cs using List.reverseRecOn with
  | nil => rfl
  | append_singleton cs c ih =>
    rw [List.foldl_append, List.foldl_cons, List.foldl_nil]
    have hl : lastOf (cs ++ [c]) i j = if c.1 = i ∧ c.2.1 = j then some c.2.2 else lastOf cs i j := by
      unfold lastOf
      rw [List.reverse_append, List.reverse_singleton, List.singleton_append, List.find?_cons]
      by_cases h : c.1 = i ∧ c.2.1 = j
      · rw [if_pos h]
        have : (c.1 == i && c.2.1 == j) = true := by simp [h.1, h.2]
        rw [this]
        rfl
      · rw [if_neg h]
        have : (c.1 == i && c.2.1 == j) = false := by
          rw [Bool.and_eq_false_iff]
          simpa [imp_iff_not_or] using h
        rw [this]
    rw [hl]
    by_cases h : c.1 = i ∧ c.2.1 = j
    · rw [if_pos h]
      obtain ⟨h1, h2⟩ := h
      have hb := (block_iff N i j c.1 c.2.1 r q hr hq).2 ⟨h1, h2⟩
      rw [blockSet_in hb.1 hb.2.1 hb.2.2.1 hb.2.2.2]
      unfold eyeBlock
      rw [h1, h2]
      dsimp only
      rw [Nat.add_sub_cancel_left, Nat.add_sub_cancel_left]
    · rw [if_neg h, blockSet_out (fun hb => h ((block_iff N i j c.1 c.2.1 r q hr hq).1 hb)), ih]

/-- the assignments for three and four parts -/
theorem couplings_ok (M : ℕ) (hM : M = 3 ∨ M = 4) (p : List ℝ) (hp : M * (M - 1) / 2 ≤ p.length) :
    ∃ cs, couplings M p = .ok cs ∧ ∀ i < M, ∀ j < M, lastOf cs i j = if i = j then none else some (resonances p i j) := by
  rcases hM with rfl | rfl
  · match p, hp with
    | a :: b :: c :: t, _ =>
      refine ⟨[(1, 0, a), (0, 1, -a), (2, 0, b), (0, 2, -b), (2, 1, c), (1, 2, -c)], rfl, ?_⟩
      intro i hi j hj
      interval_cases i <;> interval_cases j <;> simp [lastOf, resonances]
    | [], h => simp at h
    | [_], h => simp at h
    | [_, _], h => simp at h
  · match p, hp with
    | a :: b :: c :: d :: e :: f :: t, _ =>
      refine ⟨[(1, 0, a), (0, 1, -a), (2, 0, b), (0, 2, -b), (2, 1, c), (1, 2, -c), (3, 0, d), (0, 3, -d), (3, 1, e),
        (1, 3, -e), (3, 2, f), (2, 3, -f)], rfl, ?_⟩
      intro i hi j hj
      interval_cases i <;> interval_cases j <;> simp [lastOf, resonances]
    | [], h => simp at h
    | [_], h => simp at h
    | [_, _], h => simp at h
    | [_, _, _], h => simp at h
    | [_, _, _, _], h => simp at h
    | [_, _, _, _, _], h => simp at h

theorem leapFrog_shape (beta alpha rho : List ℝ) (kappa : Arr ℝ) (g : Sys ℝ) (h : leapFrog beta alpha rho kappa = .ok g) :
    (∃ G, g.Gamma = some G) ∧ (∃ G, g.GammaT = some G) ∧ (g.D = fun _ _ => 0) ∧ (g.Bt = fun _ _ => 0) ∧
      g.At = fun _ _ => 0 := by
  unfold leapFrog at h
  cases h1 : addSq (diagUp alpha) (diagLow beta.tail) with
  | error e => rw [h1] at h; cases h
  | ok A' =>
    rw [h1] at h
    dsimp only at h
    cases h2 : addSq A' (diag0 rho) with
    | error e => rw [h2] at h; cases h
    | ok A =>
      rw [h2] at h
      dsimp only at h
      unfold finish at h
      by_cases hb : beta = []
      · rw [if_pos hb] at h; cases h
      · rw [if_neg hb] at h
        cases h3 : gammaOf kappa with
        | error e => rw [h3] at h; cases h
        | ok v =>
          obtain ⟨r, c, G⟩ := v
          rw [h3] at h
          dsimp only at h
          rw [new_ok] at h
          obtain ⟨-, hG, hT, -, -, hD, hB, hA⟩ := h
          rw [checkGamma_ok] at hG
          rw [checkGammaT_ok] at hT
          rw [checkOpt_ok] at hD hB hA
          refine ⟨?_, ?_, ?_, ?_, ?_⟩
          · rcases hG with ⟨h, -⟩ | ⟨f, -, h⟩
            · cases h
            · exact ⟨f, h⟩
          · rcases hT with ⟨h, -⟩ | ⟨f, -, h⟩
            · cases h
            · exact ⟨f, h⟩
          · rcases hD with ⟨-, h⟩ | h
            · exact h
            · cases h
          · rcases hB with ⟨-, h⟩ | h
            · exact h
            · cases h
          · rcases hA with ⟨-, h⟩ | h
            · exact h
            · cases h

/-- what every accepted leap-frog structure looks like -/
theorem leap_shape (gg : ℕ → ℝ) (N : ℕ) (e BW : ℝ) (fe : Frontend)
    (h : leapSynthesis { N := some N, ENOB := some e, BW := some BW } gg = .ok fe) :
    fe.sys.N = N ∧ fe.sys.L = 1 ∧ fe.sys.M = N ∧ fe.sys.Mt = N ∧ fe.sys.Nt = N ∧ (∃ G, fe.sys.Gamma = some G) ∧
      (∃ G, fe.sys.GammaT = some G) ∧ (fe.sys.D = fun _ _ => 0) ∧ (fe.sys.Bt = fun _ _ => 0) ∧
      fe.sys.At = fun _ _ => 0 := by
  unfold leapSynthesis leapBW at h
  dsimp only at h
  by_cases hN : N = 0
  · rw [if_pos hN] at h; cases h
  · rw [if_neg hN] at h
    generalize leapEnob _ _ _ _ _ = p at h
    unfold leapEnd at h
    rw [if_neg hN] at h
    obtain ⟨g, h1, h2, -⟩ := leap_sq N hN p.beta p.alpha fun n => p.kappa * p.delta ^ n
    rw [h1] at h
    dsimp only at h
    cases hc : clocked p.T N none with
    | error e => rw [hc] at h; cases h
    | ok dc =>
      rw [hc] at h
      cases h
      exact ⟨h2.n, h2.l, h2.m, h2.mt, h2.nt, leapFrog_shape _ _ _ _ g h1⟩

/-- The parallel structure whose blocks are assigned the couplings `R`. -/
theorem parallel_of (k : Kw) (gg : ℕ → ℝ) (N M : ℕ) (e BW fp : ℝ) (fps : Option (List ℝ)) (fe : Frontend)
    (hkN : k.N = some N) (hkE : k.ENOB = some e) (hkB : k.BW = some BW)
    (hfe : leapSynthesis { N := some N, ENOB := some e, BW := some BW } gg = .ok fe) (hM2 : ¬ M < 2) (p : List ℝ)
    (hp : p = fps.getD (List.replicate (M * (M - 1) / 2) (2 * Real.pi * fp))) (R : ℕ → ℕ → ℝ) (hR : ∀ i, R i i = 0)
    (cs : List (ℕ × ℕ × ℝ)) (c1 : couplings M p = .ok cs)
    (c2 : ∀ i < M, ∀ j < M, lastOf cs i j = if i = j then none else some (R i j)) :
    ∃ S, parallelLeapFrog k gg (some M) (some fp) fps = .ok S ∧ S.N = M * N ∧ S.L = 1 ∧ S.M = M * N ∧ S.Mt = M * N ∧
      S.Nt = M * N ∧ ∀ x u s : ℕ → ℝ, ∀ i < M, ∀ r < N,
        rhs S x u s (i * N + r) = rhs fe.sys (shift (i * N) x) u (shift (i * N) s) r +
          ∑ j ∈ range M, R i j * x (j * N + r) ∧
        cObs S x u s (i * N + r) = cObs fe.sys (shift (i * N) x) u (shift (i * N) s) r ∧
        outp S x u (i * N + r) = outp fe.sys (shift (i * N) x) u r := by
  obtain ⟨s1, s2, s3, s4, s5, ⟨G, s6⟩, ⟨GT, s7⟩, s8, s9, s10⟩ := leap_shape gg N e BW fe hfe
  have hne : List.replicate M fe.sys ≠ [] := by
    intro h
    have := congrArg List.length h
    simp at this
    omega
  have tN : total Sys.N (List.replicate M fe.sys) = M * N := by rw [total_rep, s1]
  have tL : total Sys.L (List.replicate M fe.sys) = M := by rw [total_rep, s2, mul_one]
  have tM : total Sys.M (List.replicate M fe.sys) = M * N := by rw [total_rep, s3]
  have tMt : total Sys.Mt (List.replicate M fe.sys) = M * N := by rw [total_rep, s4]
  have tNt : total Sys.Nt (List.replicate M fe.sys) = M * N := by rw [total_rep, s5]
  unfold parallelLeapFrog
  rw [hkN, hkE, hkB]
  dsimp only
  rw [if_neg hM2, hfe]
  dsimp only
  rw [stack_eq _ hne, ← hp, c1]
  dsimp only
  rw [tN, tL, tM, tMt, tNt]
  refine ⟨_, (C21_entries (M * N) 1 (M * N) (M * N) (M * N) _ _ _ _ _ 0 0 0).2, rfl, rfl, rfl, rfl, rfl, ?_⟩
  intro x u s i hi r hr
  refine ⟨?_, ?_, ?_⟩
  · unfold rhs
    dsimp only
    have hA : ∑ c ∈ range (M * N), (cs.foldl (fun A c => blockSet (c.1 * N) ((c.1 + 1) * N) (c.2.1 * N) ((c.2.1 + 1) * N) A
          (eyeBlock c.2.2)) (stackMat Sys.N Sys.N Sys.A (List.replicate M fe.sys))) (i * N + r) c * x c =
        (∑ c ∈ range N, fe.sys.A r c * shift (i * N) x c) + ∑ j ∈ range M, R i j * x (j * N + r) := by
      rw [sum_blocks]
      have hj : ∀ j ∈ range M, ∑ q ∈ range N, (cs.foldl (fun A c => blockSet (c.1 * N) ((c.1 + 1) * N) (c.2.1 * N)
          ((c.2.1 + 1) * N) A (eyeBlock c.2.2)) (stackMat Sys.N Sys.N Sys.A (List.replicate M fe.sys))) (i * N + r)
            (j * N + q) * x (j * N + q) =
          (if i = j then ∑ c ∈ range N, fe.sys.A r c * shift (i * N) x c else 0) + R i j * x (j * N + r) := by
        intro j hj
        rw [mem_range] at hj
        have hq : ∀ q ∈ range N, (cs.foldl (fun A c => blockSet (c.1 * N) ((c.1 + 1) * N) (c.2.1 * N)
          ((c.2.1 + 1) * N) A (eyeBlock c.2.2)) (stackMat Sys.N Sys.N Sys.A (List.replicate M fe.sys))) (i * N + r)
            (j * N + q) * x (j * N + q) =
            (if i = j then fe.sys.A r q * shift (i * N) x q else 0) +
              (if r = q then R i j else 0) * x (j * N + q) := by
          intro q hq
          rw [mem_range] at hq
          rw [fold_entry N cs _ i j r q hr hq, c2 i hi j hj]
          by_cases h : i = j
          · subst h
            rw [if_pos rfl]
            dsimp only
            have := rep_entry Sys.N Sys.N Sys.A M i hi fe.sys r (by omega) i q (by omega)
            rw [s1] at this
            rw [this, if_pos rfl, if_pos rfl]
            simp [hR, shift]
          · rw [if_neg h, if_neg h, zero_add]
        rw [sum_congr rfl hq, sum_add_distrib]
        congr 1
        · by_cases h : i = j
          · simp only [if_pos h]
          · simp only [if_neg h, sum_const_zero]
        · rw [Finset.sum_eq_single r]
          · rw [if_pos rfl]
          · intro b _ hb
            rw [if_neg (fun h => hb h.symm), zero_mul]
          · intro h
            exact absurd (mem_range.2 hr) h
      rw [sum_congr rfl hj, sum_add_distrib, Finset.sum_ite_eq, if_pos (mem_range.2 hi)]
    have hB : ∑ c ∈ range 1, (∑ c ∈ range M, stackMat Sys.N Sys.L Sys.B (List.replicate M fe.sys) (i * N + r) c) * u c =
        ∑ c ∈ range fe.sys.L, fe.sys.B r c * u c := by
      have := rep_sum Sys.N Sys.L Sys.B M i hi fe.sys r (by omega) (fun _ => 1)
      rw [s1, s2, mul_one] at this
      simp only [mul_one, shift] at this
      rw [s2, sum_range_one, sum_range_one, this, sum_range_one]
    have hG : ∑ c ∈ range (M * N), optBlock (some (stackMat Sys.N Sys.M (fun g => optBlock g.Gamma)
        (List.replicate M fe.sys))) (i * N + r) c * s c = ∑ c ∈ range fe.sys.M, G r c * shift (i * N) s c := by
      have := rep_sum Sys.N Sys.M (fun g => optBlock g.Gamma) M i hi fe.sys r (by omega) s
      rw [s1, s3, s6] at this
      rw [s3]
      exact this
    rw [hA, hB, hG, s1, s6]
    dsimp only
    ring
  · unfold cObs
    dsimp only
    have hG : ∑ c ∈ range (M * N), optBlock (some (stackMat Sys.Mt Sys.N (fun g => optBlock g.GammaT)
        (List.replicate M fe.sys))) (i * N + r) c * x c = ∑ c ∈ range fe.sys.N, GT r c * shift (i * N) x c := by
      have := rep_sum Sys.Mt Sys.N (fun g => optBlock g.GammaT) M i hi fe.sys r (by omega) x
      rw [s1, s4, s7] at this
      rw [s1]
      exact this
    rw [hG, s7, s9, s10]
    simp
  · unfold outp
    dsimp only
    have := rep_sum Sys.Nt Sys.N Sys.CT M i hi fe.sys r (by omega) x
    rw [s1, s5] at this
    rw [this, s8, s1]
    simp

/-- **C88 (part that holds)** for widths 3 and 4 the parallel leap-frog structure consists of `M` copies of the leap-frog
structure that `get_leap_frog` gives for the same specification, all driven by the one input and by their own controls;
corresponding integrators of parts `i` and `j` are coupled by the requested resonance with opposite signs.  Missing: other
widths, see `C88_width_false`. -/
theorem C88_partial (k : Kw) (gg : ℕ → ℝ) (N M : ℕ) (e BW fp : ℝ) (fps : Option (List ℝ)) (fe : Frontend)
    (hkN : k.N = some N) (hkE : k.ENOB = some e) (hkB : k.BW = some BW)
    (hfe : leapSynthesis { N := some N, ENOB := some e, BW := some BW } gg = .ok fe) (hM : M = 3 ∨ M = 4) (p : List ℝ)
    (hp : p = fps.getD (List.replicate (M * (M - 1) / 2) (2 * Real.pi * fp))) (hl : M * (M - 1) / 2 ≤ p.length) :
    ∃ S, parallelLeapFrog k gg (some M) (some fp) fps = .ok S ∧ S.N = M * N ∧ S.L = 1 ∧ S.M = M * N ∧ S.Mt = M * N ∧
      S.Nt = M * N ∧ ∀ x u s : ℕ → ℝ, ∀ i < M, ∀ r < N,
        rhs S x u s (i * N + r) = rhs fe.sys (shift (i * N) x) u (shift (i * N) s) r +
          ∑ j ∈ range M, resonances p i j * x (j * N + r) ∧
        cObs S x u s (i * N + r) = cObs fe.sys (shift (i * N) x) u (shift (i * N) s) r ∧
        outp S x u (i * N + r) = outp fe.sys (shift (i * N) x) u r := by
  obtain ⟨cs, c1, c2⟩ := couplings_ok M hM p hl
  refine parallel_of k gg N M e BW fp fps fe hkN hkE hkB hfe (by rcases hM with rfl | rfl <;> norm_num) p hp
    (resonances p) (fun i => ?_) cs c1 c2
  simp [resonances]

/-- `C88_partial`: hypotheses met by three parts with one integrator each -/
theorem threeParts : ∃ fe S, leapSynthesis { N := some 1, ENOB := some 1, BW := some 1 } (fun _ => 3) = .ok fe ∧
    parallelLeapFrog { N := some 1, ENOB := some 1, BW := some 1 } (fun _ => 3) (some 3) (some 1) (some [1, 2, 3]) = .ok S ∧
      S.N = 3 * 1 := by
  obtain ⟨k, hk⟩ : ∃ k : Kw, k = { N := some 1, ENOB := some 1, BW := some 1 } := ⟨_, rfl⟩
  have hT : 2 / 10 ^ 14 ≤ (leapEnob k 3 1 1 1).T := by
    have hπ := Real.pi_pos
    have hπ4 := Real.pi_le_four
    obtain ⟨-, -, -, -, -, hT0, h8⟩ := leapEnob_ok k 3 (by norm_num) 1 one_ne_zero 1 1 (4 / 1000) one_pos (by rw [hk]; rfl)
      (by norm_num) (by rw [hk]; exact one_pos)
    obtain ⟨T, hT⟩ : ∃ T, T = (leapEnob k 3 1 1 1).T := ⟨_, rfl⟩
    rw [← hT] at hT0 h8 ⊢
    rw [(Fom.C46_ideal_quantiser 1).1, Real.rpow_one] at h8
    by_contra hc
    have hlt := not_le.1 hc
    have h3 : T * (2 * Real.pi * 1) ≤ 1 / 4 := by nlinarith
    have h4 : 2 ≤ 1 / (2 * T * (2 * Real.pi * 1)) := by
      rw [le_div_iff₀ (by positivity)]
      linarith
    nlinarith
  obtain ⟨g, dc, -, -, -, h1, -⟩ := C81_enob k (fun _ => 3) 1 one_ne_zero 1 1 (4 / 1000) (by norm_num) one_pos
    (by rw [hk]; rfl) (by norm_num) (by rw [hk]; exact one_pos) (by rw [hk]) (by rw [hk]) (by rw [hk]) hT
  rw [hk] at h1
  obtain ⟨S, h2, h3, -⟩ := C88_partial { N := some 1, ENOB := some 1, BW := some 1 } (fun _ => 3) 1 3 1 1 1 (some [1, 2, 3]) _
    rfl rfl rfl h1 (.inl rfl) [1, 2, 3] rfl (by simp)
  exact ⟨_, S, h1, h2, h3⟩

/-- **C88** the couplings are lossless: they do not change the total energy. -/
theorem C88_lossless (p : List ℝ) (M : ℕ) (z : ℕ → ℝ) :
    ∑ i ∈ range M, z i * ∑ j ∈ range M, resonances p i j * z j = 0 := by
  have hs : ∀ i j, resonances p i j = -resonances p j i := by
    intro i j
    unfold resonances
    rcases Nat.lt_trichotomy i j with h | h | h
    · rw [if_neg (by omega), if_pos h, if_pos h]
    · subst h
      rw [if_neg (by omega), if_neg (by omega), neg_zero]
    · rw [if_pos h, if_neg (by omega), if_pos h, neg_neg]
  simp_rw [mul_sum]
  have h : ∑ i ∈ range M, ∑ j ∈ range M, z i * (resonances p i j * z j) =
      -∑ i ∈ range M, ∑ j ∈ range M, z i * (resonances p i j * z j) := by
    conv_lhs => rw [sum_comm]
    rw [← sum_neg_distrib]
    apply sum_congr rfl
    intro i _
    rw [← sum_neg_distrib]
    apply sum_congr rfl
    intro j _
    rw [hs j i]
    ring
  linarith

theorem mapM_error {α β : Type} (f : α → Res β) (l : List α) (a : α) (ha : a ∈ l) (e : Exc) (h : f a = .error e) :
    ∃ e', l.mapM f = .error e' := by
  induction l with
  | nil => cases ha
  | cons b l ih =>
    rw [List.mapM_cons]
    rcases List.mem_cons.1 ha with rfl | ha
    · rw [h]
      exact ⟨e, rfl⟩
    · cases hb : f b with
      | error e => exact ⟨e, rfl⟩
      | ok v =>
        obtain ⟨e', he⟩ := ih ha
        rw [he]
        exact ⟨e', rfl⟩

/-- **C88 is false for other widths**: every width but 3 and 4 raises, with the default resonances, and with any list of
one resonance for every pair of parts (or of up to `M - 1 + (M - 2) M` resonances, see `C88_wide_partial`). -/
theorem C88_width_false (k : Kw) (gg : ℕ → ℝ) (M : ℕ) (h3 : M ≠ 3) (h4 : M ≠ 4) (fp : Option ℝ)
    (fps : Option (List ℝ)) (hf : ∀ l, fps = some l → l.length ≤ M * (M - 1) / 2 ∨ l.length ≤ M - 1 + (M - 2) * M) :
    ∃ e, parallelLeapFrog k gg (some M) fp fps = .error e := by
  unfold parallelLeapFrog
  cases k.N with
  | none => exact ⟨_, rfl⟩
  | some N =>
  cases k.ENOB with
  | none => exact ⟨_, rfl⟩
  | some e =>
  cases k.BW with
  | none => exact ⟨_, rfl⟩
  | some BW =>
  cases fp with
  | none => exact ⟨_, rfl⟩
  | some fp =>
  dsimp only
  by_cases hM : M < 2
  · rw [if_pos hM]
    exact ⟨_, rfl⟩
  rw [if_neg hM]
  cases leapSynthesis { N := some N, ENOB := some e, BW := some BW } gg with
  | error e => exact ⟨_, rfl⟩
  | ok fe =>
  dsimp only
  cases stack (List.replicate M fe.sys) with
  | error e => exact ⟨_, rfl⟩
  | ok s =>
  dsimp only
  have hnum : 2 ≤ M → M * (M - 1) / 2 ≤ M - 1 + (M - 2) * M := by
    intro h
    obtain ⟨m, rfl⟩ : ∃ m, M = m + 2 := ⟨M - 2, by omega⟩
    rw [Nat.add_sub_cancel, show m + 2 - 1 = m + 1 by omega, Nat.div_le_iff_le_mul_add_pred (by norm_num)]
    nlinarith
  have : ∃ e, couplings M (fps.getD (List.replicate (M * (M - 1) / 2) (2 * Real.pi * fp))) = .error e := by
    unfold couplings
    rw [if_neg h3, if_neg h4]
    obtain ⟨e', he⟩ := mapM_error (fun c : ℕ × ℕ =>
        coupleElse (fps.getD (List.replicate (M * (M - 1) / 2) (2 * Real.pi * fp))) M c.1 c.2)
      ((List.range M).flatMap fun i => (List.range i).map fun j => (i, j)) (M - 1, M - 2) (by
        rw [List.mem_flatMap]
        refine ⟨M - 1, List.mem_range.2 (by omega), ?_⟩
        rw [List.mem_map]
        exact ⟨M - 2, List.mem_range.2 (by omega), rfl⟩) .indexError (by
        unfold coupleElse pole
        dsimp only
        have hle : (fps.getD (List.replicate (M * (M - 1) / 2) (2 * Real.pi * fp))).length ≤ M - 1 + (M - 2) * M := by
          cases hfp : fps with
          | none =>
            rw [Option.getD_none, List.length_replicate]
            exact hnum (by omega)
          | some l =>
            rw [Option.getD_some]
            rcases hf l hfp with h | h
            · exact h.trans (hnum (by omega))
            · exact h
        rw [List.getElem?_eq_none_iff.2 hle])
    rw [he]
    exact ⟨e', rfl⟩
  obtain ⟨e', he⟩ := this
  rw [he]
  exact ⟨e', rfl⟩

/-- hypotheses met -/
example : ∃ e, parallelLeapFrog { N := some 1, ENOB := some 1, BW := some 1 } (fun _ => 3) (some 2) (some 1) (some [7]) = .error e :=
  C88_width_false _ _ 2 (by norm_num) (by norm_num) _ _ (by
    intro l h
    cases h
    exact .inl (by simp))

/-! ### Other widths, with longer lists -/

/-- the couplings the code reads out of a longer list for widths other than 3 and 4: counted from the front below the
diagonal, from the back above it (specification) -/
def wideCoupling (M : ℕ) (p : List ℝ) (i j : ℕ) : ℝ :=
  if j < i then p.getD (i + j * M) 0
  else if i < j then -p.getD (p.length - (M - 1 - i + (M - 1 - j) * M)) 0 else 0

theorem getD_lt (p : List ℝ) (n : ℕ) (h : n < p.length) : p.getD n 0 = p[n] := by
  rw [List.getD_eq_getElem?_getD, List.getElem?_eq_getElem h, Option.getD_some]

theorem lastOf_some (cs : List (ℕ × ℕ × ℝ)) (i j : ℕ) (v : ℝ) (h1 : (i, j, v) ∈ cs)
    (h2 : ∀ c ∈ cs, c.1 = i → c.2.1 = j → c.2.2 = v) : lastOf cs i j = some v := by
  unfold lastOf
  cases hf : cs.reverse.find? fun c => c.1 == i && c.2.1 == j with
  | none =>
    rw [List.find?_eq_none] at hf
    exact absurd (by simp) (hf (i, j, v) (List.mem_reverse.2 h1))
  | some c =>
    have hm := List.mem_reverse.1 (List.mem_of_find?_eq_some hf)
    have hs := List.find?_some hf
    simp only [Bool.and_eq_true, beq_iff_eq] at hs
    rw [Option.map_some, h2 c hm hs.1 hs.2]

theorem lastOf_none (cs : List (ℕ × ℕ × ℝ)) (i j : ℕ) (h : ∀ c ∈ cs, ¬ (c.1 = i ∧ c.2.1 = j)) : lastOf cs i j = none := by
  unfold lastOf
  rw [Option.map_eq_none_iff, List.find?_eq_none]
  intro c hc
  simpa using h c (List.mem_reverse.1 hc)

theorem mapM_map {α β : Type} (f : α → Res β) (g : α → β) (l : List α) (h : ∀ a ∈ l, f a = .ok (g a)) :
    l.mapM f = .ok (l.map g) := by
  induction l with
  | nil => rfl
  | cons a l ih =>
    rw [List.mapM_cons, h a List.mem_cons_self, ih fun b hb => h b (List.mem_cons_of_mem _ hb)]
    rfl

theorem pair_lt {M i j : ℕ} (hi : i < M) (hj : j < i) : i + j * M ≤ M - 1 + (M - 2) * M := by
  have := Nat.mul_le_mul_right M (show j ≤ M - 2 by omega)
  omega

theorem couplings_wide (M : ℕ) (h3 : M ≠ 3) (h4 : M ≠ 4) (p : List ℝ) (hp : M - 1 + (M - 2) * M < p.length) :
    ∃ cs, couplings M p = .ok cs ∧
      ∀ i < M, ∀ j < M, lastOf cs i j = if i = j then none else some (wideCoupling M p i j) := by
  have hval : ∀ c ∈ (List.range M).flatMap fun i => (List.range i).map fun j => (i, j),
      coupleElse p M c.1 c.2 = .ok [(c.1, c.2, wideCoupling M p c.1 c.2),
        (M - c.1 - 1, M - 1 - c.2, wideCoupling M p (M - c.1 - 1) (M - 1 - c.2))] := by
    intro c hc
    obtain ⟨i, hi, hc⟩ := List.mem_flatMap.1 hc
    obtain ⟨j, hj, rfl⟩ := List.mem_map.1 hc
    rw [List.mem_range] at hi hj
    dsimp only
    have hlt := pair_lt hi hj
    have h1 : i + j * M < p.length := by omega
    have h2 : p.length - (i + j * M) < p.length := by omega
    unfold coupleElse poleBack pole
    rw [List.getElem?_eq_getElem h1]
    dsimp only
    rw [if_neg (by omega), List.getElem?_eq_getElem h2]
    dsimp only
    have e1 : wideCoupling M p i j = p[i + j * M] := by
      unfold wideCoupling
      rw [if_pos hj, getD_lt _ _ h1]
    have e2 : wideCoupling M p (M - i - 1) (M - 1 - j) = -p[p.length - (i + j * M)] := by
      unfold wideCoupling
      have ei : M - 1 - (M - i - 1) = i := by omega
      have ej : M - 1 - (M - 1 - j) = j := by omega
      rw [if_neg (by omega), if_pos (by omega), ei, ej, getD_lt _ _ h2]
    rw [e1, e2]
  refine ⟨_, by
    unfold couplings
    rw [if_neg h3, if_neg h4, mapM_map _ _ _ hval]
    rfl, ?_⟩
  have hmem : ∀ c ∈ (((List.range M).flatMap fun i => (List.range i).map fun j => (i, j)).map fun c : ℕ × ℕ =>
      [(c.1, c.2, wideCoupling M p c.1 c.2),
        (M - c.1 - 1, M - 1 - c.2, wideCoupling M p (M - c.1 - 1) (M - 1 - c.2))]).flatten,
      c.1 ≠ c.2.1 ∧ c.2.2 = wideCoupling M p c.1 c.2.1 := by
    intro c hc
    obtain ⟨l, hl, hc⟩ := List.mem_flatten.1 hc
    obtain ⟨d, hd, rfl⟩ := List.mem_map.1 hl
    obtain ⟨i, hi, hd⟩ := List.mem_flatMap.1 hd
    obtain ⟨j, hj, rfl⟩ := List.mem_map.1 hd
    rw [List.mem_range] at hi hj
    simp only [List.mem_cons, List.not_mem_nil, or_false] at hc
    rcases hc with rfl | rfl
    · exact ⟨by dsimp only; omega, rfl⟩
    · exact ⟨by dsimp only; omega, rfl⟩
  intro i hi j hj
  by_cases e : i = j
  · rw [if_pos e]
    apply lastOf_none
    rintro c hc ⟨h1, h2⟩
    exact (hmem c hc).1 (by omega)
  · rw [if_neg e]
    apply lastOf_some
    · rw [List.mem_flatten]
      rcases Nat.lt_or_gt_of_ne e with h | h
      · refine ⟨_, List.mem_map.2 ⟨(M - 1 - i, M - 1 - j), ?_, rfl⟩, ?_⟩
        · refine List.mem_flatMap.2 ⟨M - 1 - i, List.mem_range.2 (by omega), List.mem_map.2 ⟨M - 1 - j, ?_, rfl⟩⟩
          exact List.mem_range.2 (by omega)
        · have ei : M - (M - 1 - i) - 1 = i := by omega
          have ej : M - 1 - (M - 1 - j) = j := by omega
          dsimp only
          rw [ei, ej]
          simp
      · refine ⟨_, List.mem_map.2 ⟨(i, j), ?_, rfl⟩, by simp⟩
        exact List.mem_flatMap.2 ⟨i, List.mem_range.2 hi, List.mem_map.2 ⟨j, List.mem_range.2 h, rfl⟩⟩
    · intro c hc h1 h2
      rw [(hmem c hc).2, h1, h2]

/-- **C88 (other widths)** for a list of more than `M - 1 + (M - 2) M` resonances the other widths are accepted too: again
`M` copies that share the input, coupled by resonances read from the front of the list below the diagonal and from its
back above.  Missing: the couplings need not be opposite (`C88_lossy_false`). -/
theorem C88_wide_partial (k : Kw) (gg : ℕ → ℝ) (N M : ℕ) (e BW fp : ℝ) (p : List ℝ) (fe : Frontend)
    (hkN : k.N = some N) (hkE : k.ENOB = some e) (hkB : k.BW = some BW)
    (hfe : leapSynthesis { N := some N, ENOB := some e, BW := some BW } gg = .ok fe) (hM : 2 ≤ M) (h3 : M ≠ 3)
    (h4 : M ≠ 4) (hl : M - 1 + (M - 2) * M < p.length) :
    ∃ S, parallelLeapFrog k gg (some M) (some fp) (some p) = .ok S ∧ S.N = M * N ∧ S.L = 1 ∧ S.M = M * N ∧ S.Mt = M * N ∧
      S.Nt = M * N ∧ ∀ x u s : ℕ → ℝ, ∀ i < M, ∀ r < N,
        rhs S x u s (i * N + r) = rhs fe.sys (shift (i * N) x) u (shift (i * N) s) r +
          ∑ j ∈ range M, wideCoupling M p i j * x (j * N + r) ∧
        cObs S x u s (i * N + r) = cObs fe.sys (shift (i * N) x) u (shift (i * N) s) r ∧
        outp S x u (i * N + r) = outp fe.sys (shift (i * N) x) u r := by
  obtain ⟨cs, c1, c2⟩ := couplings_wide M h3 h4 p hl
  refine parallel_of k gg N M e BW fp (some p) fe hkN hkE hkB hfe (by omega) p rfl (wideCoupling M p) (fun i => ?_) cs c1 c2
  simp [wideCoupling]

/-- Equal resonances throughout the list: the couplings of `C88_wide_partial` are lossless. -/
theorem C88_constant_partial (M : ℕ) (p : List ℝ) (w : ℝ) (hw : ∀ v ∈ p, v = w) (hl : M - 1 + (M - 2) * M < p.length)
    (z : ℕ → ℝ) : ∑ i ∈ range M, z i * ∑ j ∈ range M, wideCoupling M p i j * z j = 0 := by
  have hg : ∀ n < p.length, p.getD n 0 = w := by
    intro n hn
    rw [getD_lt _ _ hn]
    exact hw _ (List.getElem_mem hn)
  have hs : ∀ i ∈ range M, ∀ j ∈ range M, wideCoupling M p i j = -wideCoupling M p j i := by
    have key : ∀ i j, i < M → j < i → wideCoupling M p i j = w ∧ wideCoupling M p j i = -w := by
      intro i j hi hj
      have a1 := pair_lt hi hj
      have a2 := pair_lt (show M - 1 - j < M by omega) (show M - 1 - i < M - 1 - j by omega)
      unfold wideCoupling
      rw [if_pos hj, if_neg (by omega), if_pos hj, hg _ (by omega), hg _ (by omega)]
      exact ⟨rfl, rfl⟩
    intro i hi j hj
    rw [mem_range] at hi hj
    rcases Nat.lt_trichotomy i j with h | h | h
    · rw [(key j i hj h).1, (key j i hj h).2]
    · subst h
      simp [wideCoupling]
    · rw [(key i j hi h).1, (key i j hi h).2, neg_neg]
  simp_rw [mul_sum]
  have h : ∑ i ∈ range M, ∑ j ∈ range M, z i * (wideCoupling M p i j * z j) =
      -∑ i ∈ range M, ∑ j ∈ range M, z i * (wideCoupling M p i j * z j) := by
    conv_lhs => rw [sum_comm]
    rw [← sum_neg_distrib]
    apply sum_congr rfl
    intro i hi
    rw [← sum_neg_distrib]
    apply sum_congr rfl
    intro j hj
    rw [hs j hj i hi]
    ring
  linarith

/-- hypotheses met: width 5 needs twenty resonances -/
example (z : ℕ → ℝ) : ∑ i ∈ range 5, z i * ∑ j ∈ range 5, wideCoupling 5 (List.replicate 20 7) i j * z j = 0 :=
  C88_constant_partial 5 _ 7 (fun _ h => List.eq_of_mem_replicate h) (by simp) z

/-- **C88 is false for other widths**, also when they are accepted: the two parts of width 2 with the resonances 1, 2, 3 are
coupled by 2 one way and by -3 the other, so that the coupling changes the total energy. -/
theorem C88_lossy_false : ∃ fe S, leapSynthesis { N := some 1, ENOB := some 1, BW := some 1 } (fun _ => 3) = .ok fe ∧
    parallelLeapFrog { N := some 1, ENOB := some 1, BW := some 1 } (fun _ => 3) (some 2) (some 1) (some [1, 2, 3]) = .ok S ∧
      ∃ x : ℕ → ℝ, ∑ i ∈ range 2, x i * rhs S x 0 0 i ≠ ∑ i ∈ range 2, x i * rhs fe.sys (shift i x) 0 (shift i 0) 0 := by
  obtain ⟨fe, _, h1, _⟩ := threeParts
  obtain ⟨S, h2, -, -, -, -, -, h3⟩ := C88_wide_partial { N := some 1, ENOB := some 1, BW := some 1 } (fun _ => 3) 1 2 1 1 1
    [1, 2, 3] fe rfl rfl rfl h1 le_rfl (by norm_num) (by norm_num) (by simp)
  refine ⟨fe, S, h1, h2, fun _ => 1, ?_⟩
  have e0 := (h3 (fun _ => 1) 0 0 0 (by norm_num) 0 (by norm_num)).1
  have e1 := (h3 (fun _ => 1) 0 0 1 (by norm_num) 0 (by norm_num)).1
  simp only [sum_range_succ, sum_range_zero, zero_add, mul_one, add_zero, one_mul] at e0 e1 ⊢
  rw [e0, e1]
  have c00 : wideCoupling 2 [1, 2, 3] 0 0 = 0 := by simp [wideCoupling]
  have c01 : wideCoupling 2 [1, 2, 3] 0 1 = -3 := by simp [wideCoupling]
  have c10 : wideCoupling 2 [1, 2, 3] 1 0 = 2 := by simp [wideCoupling]
  have c11 : wideCoupling 2 [1, 2, 3] 1 1 = 0 := by simp [wideCoupling]
  rw [c00, c01, c10, c11]
  intro h
  linarith

/-- `C88_wide_partial`: five parts with one integrator each and twenty resonances -/
example : ∃ S, parallelLeapFrog { N := some 1, ENOB := some 1, BW := some 1 } (fun _ => 3) (some 5) (some 1)
    (some (List.replicate 20 7)) = .ok S ∧ S.N = 5 := by
  obtain ⟨fe, -, hfe, -⟩ := threeParts
  obtain ⟨S, h, h1, -⟩ := C88_wide_partial { N := some 1, ENOB := some 1, BW := some 1 } (fun _ => 3) 1 5 1 1 1
    (List.replicate 20 7) fe rfl rfl rfl hfe (by norm_num) (by norm_num) (by norm_num) (by simp)
  exact ⟨S, h, h1⟩


end Cbadc.Synthesis
