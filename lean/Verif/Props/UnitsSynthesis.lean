import Verif.Props.Units
import Verif.Props.Synthesis
import Verif.Props.LeapFrog

/-! # Converters for different bandwidths differ by the unit of time only (C150) -/

namespace Cbadc.Units

open Finset Cbadc.Analog Cbadc.Control Cbadc.Simulate Cbadc.Synthesis Cbadc.Signal

variable {r : ℝ}

/-- an array argument times `r` -/
def arr (r : ℝ) : Arr ℝ → Arr ℝ
  | .vec n f => .vec n fun i => r * f i
  | .mat m n f => .mat m n fun i j => r * f i j

theorem getD_map (r : ℝ) (l : List ℝ) (i : ℕ) : (l.map (r * ·)).getD i 0 = r * l.getD i 0 := by
  simp only [List.getD_eq_getElem?_getD, List.getElem?_map]
  cases l[i]? <;> simp

/-- a square array times `r` -/
def sq (r : ℝ) (X : Sq) : Sq := ⟨X.n, fun i j => r * X.f i j⟩

theorem diag0_map (r : ℝ) (l : List ℝ) : diag0 (l.map (r * ·)) = sq r (diag0 l) := by
  simp only [diag0, sq, List.length_map, getD_map, mul_ite, mul_zero]

theorem diagLow_map (r : ℝ) (l : List ℝ) : diagLow (l.map (r * ·)) = sq r (diagLow l) := by
  simp only [diagLow, sq, List.length_map, getD_map, mul_ite, mul_zero]

theorem diagUp_map (r : ℝ) (l : List ℝ) : diagUp (l.map (r * ·)) = sq r (diagUp l) := by
  simp only [diagUp, sq, List.length_map, getD_map, mul_ite, mul_zero]

theorem addSq_sq (r : ℝ) (X Y : Sq) : addSq (sq r X) (sq r Y) = (addSq X Y).map (sq r) := by
  unfold addSq
  by_cases h1 : X.n = Y.n
  · rw [if_pos h1, if_pos (show (sq r X).n = (sq r Y).n from h1)]
    simp only [sq, Except.map, mul_add]
  · rw [if_neg h1, if_neg (show ¬(sq r X).n = (sq r Y).n from h1)]
    by_cases h2 : X.n = 1
    · rw [if_pos h2, if_pos (show (sq r X).n = 1 from h2)]
      simp only [sq, Except.map, mul_add]
    · rw [if_neg h2, if_neg (show ¬(sq r X).n = 1 from h2)]
      by_cases h3 : Y.n = 1
      · rw [if_pos h3, if_pos (show (sq r Y).n = 1 from h3)]
        simp only [sq, Except.map, mul_add]
      · rw [if_neg h3, if_neg (show ¬(sq r Y).n = 1 from h3)]
        rfl

theorem gammaOf_arr (r : ℝ) (k : Arr ℝ) : gammaOf (arr r k) = (gammaOf k).map fun p => (p.1, p.2.1, fun i j => r * p.2.2 i j) := by
  cases k with
  | vec n f => rfl
  | mat m n f =>
    simp only [arr, gammaOf]
    by_cases h : n = 1
    · rw [if_pos h, if_pos h]
      simp only [Except.map, mul_ite, mul_zero]
    · rw [if_neg h, if_neg h]
      rfl

/-- the observed directions do not depend on the unit -/
theorem gammaTOf_mul (hr : 0 < r) (n : ℕ) (G : ℕ → ℕ → ℝ) : gammaTOf n (fun i j => r * G i j) = gammaTOf n G := by
  funext i j
  have h : ∑ k ∈ range n, (-(r * G k i)) ^ 2 = r ^ 2 * ∑ k ∈ range n, (-G k i) ^ 2 := by
    rw [mul_sum]
    exact sum_congr rfl fun k _ => by ring
  simp only [gammaTOf, h]
  rw [Real.sqrt_mul (sq_nonneg r), Real.sqrt_sq hr.le, ← mul_neg, mul_div_mul_left _ _ hr.ne']

theorem checkGamma_arr (r : ℝ) (N m n : ℕ) (G : ℕ → ℕ → ℝ) : checkGamma N (some (.mat m n fun i j => r * G i j)) =
    (checkGamma N (some (.mat m n G))).map fun p => (p.1.map fun G i j => r * G i j, p.2) := by
  show (if m ≠ N then (.error .exception : Res (Option (ℕ → ℕ → ℝ) × ℕ)) else .ok (some fun i j => r * G i j, n)) =
    Except.map _ (if m ≠ N then (.error .exception : Res (Option (ℕ → ℕ → ℝ) × ℕ)) else .ok (some G, n))
  by_cases h : m ≠ N
  · rw [if_pos h, if_pos h]; rfl
  · rw [if_neg h, if_neg h]; rfl

theorem checkB_arr (r : ℝ) (N m n : ℕ) (B : ℕ → ℕ → ℝ) : checkB N (.mat m n fun i j => r * B i j) =
    (checkB N (.mat m n B)).map fun p => (fun i j => r * p.1 i j, p.2) := by
  simp only [checkB]
  by_cases h : m ≠ N
  · rw [if_pos h, if_pos h]; rfl
  · rw [if_neg h, if_neg h]; rfl

theorem new_arr (r : ℝ) (N a b c m n : ℕ) (A B G : ℕ → ℕ → ℝ) (C GT : Arr ℝ) :
    Sys.new (.mat N a fun i j => r * A i j) (.mat b c fun i j => r * B i j) C (some (.mat m n fun i j => r * G i j)) (some GT) none none none =
      (Sys.new (.mat N a A) (.mat b c B) C (some (.mat m n G)) (some GT) none none none).map (sys r) := by
  unfold Sys.new
  simp only [Arr.shape0, checkGamma_arr]
  cases checkGamma N (some (Arr.mat m n G)) with
  | error _ => rfl
  | ok p =>
    cases checkGammaT N (some GT) with
    | error _ => rfl
    | ok q =>
      show (if N ≠ a then _ else _) = Except.map (sys r) (if N ≠ a then _ else _)
      by_cases h : N ≠ a
      · rw [if_pos h, if_pos h]; rfl
      · rw [if_neg h, if_neg h, checkB_arr]
        cases checkB N (Arr.mat b c B) with
        | error _ => rfl
        | ok s =>
          cases checkCT N C with
          | error _ => rfl
          | ok t => rfl

theorem finish_arr (hr : 0 < r) (beta : List ℝ) (A : Sq) (kappa : Arr ℝ) :
    finish (beta.map (r * ·)) (sq r A) (arr r kappa) = (finish beta A kappa).map (sys r) := by
  unfold finish
  by_cases hb : beta = []
  · rw [if_pos hb, if_pos (by rw [hb]; rfl)]; rfl
  · rw [if_neg hb, if_neg (by rwa [List.map_eq_nil_iff]), gammaOf_arr]
    cases gammaOf kappa with
    | error _ => rfl
    | ok p =>
      obtain ⟨m, n, G⟩ := p
      show Sys.new _ _ _ (some (.mat m n fun i j => r * G i j)) (some (.mat n m (gammaTOf m fun i j => r * G i j))) none none none = _
      rw [gammaTOf_mul hr, getD_map, List.length_map]
      have hB : (fun i _ : ℕ => if i = 0 then r * beta.getD 0 0 else 0) = fun i _ : ℕ => r * (if i = 0 then beta.getD 0 0 else 0) := by
        funext i j
        rw [mul_ite, mul_zero]
      rw [hB]
      exact new_arr r A.n A.n beta.length 1 m n A.f _ G _ _

/-- **C150** Structures: integrators, losses and feedbacks that are all `r` times as fast make the analog system with all rates
times `r` (the comparators see the same directions), or raise the same exception. -/
theorem C150_structures (hr : 0 < r) (beta alpha rho : List ℝ) (kappa : Arr ℝ) :
    chainOfIntegrators (beta.map (r * ·)) (rho.map (r * ·)) (arr r kappa) = (chainOfIntegrators beta rho kappa).map (sys r) ∧
    leapFrog (beta.map (r * ·)) (alpha.map (r * ·)) (rho.map (r * ·)) (arr r kappa) = (leapFrog beta alpha rho kappa).map (sys r) := by
  constructor
  · unfold chainOfIntegrators
    rw [← List.map_tail, diag0_map, diagLow_map, addSq_sq]
    cases addSq (diag0 rho) (diagLow beta.tail) with
    | error _ => rfl
    | ok A => exact finish_arr hr beta A kappa
  · unfold leapFrog
    rw [← List.map_tail, diag0_map, diagLow_map, diagUp_map, addSq_sq]
    cases addSq (diagUp alpha) (diagLow beta.tail) with
    | error _ => rfl
    | ok A =>
      show (match addSq (sq r A) (sq r (diag0 rho)) with | .error e => _ | .ok A => _) = _
      rw [addSq_sq]
      dsimp only
      cases addSq A (diag0 rho) with
      | error _ => rfl
      | ok A => exact finish_arr hr beta A kappa

theorem ones_mul (r v : ℝ) (N : ℕ) : ones N (r * v) = (ones N v).map (r * ·) := by
  simp only [ones, List.map_replicate]

theorem eye_mul (r v : ℝ) (N : ℕ) : eye N (r * v) = arr r (eye N v) := by
  simp only [eye, arr, mul_ite, mul_zero]

theorem clocked_plain (T : ℝ) (M : ℕ) : clocked T M none =
    if T / 2 < 1 / 10 ^ 14 then .error .exception else .ok ⟨T, 1 / 10 ^ 14 / 2, 0, fun _ => stepResponse 0, fun _ => 0⟩ := by
  unfold clocked Clock.new
  have hd : ¬((1 / 2 : ℝ) > 1 ∨ (1 / 2 : ℝ) ≤ 0) := by norm_num
  have hm : min (1 / 2 : ℝ) (1 - 1 / 2) = 1 / 2 := by norm_num
  dsimp only
  rw [if_neg hd]
  simp only [Clock.maxStep, hm]
  by_cases h : T / 2 < 1 / 10 ^ 14
  · rw [if_pos h, if_pos (show (1 / 10 ^ 14 : ℝ) > T * (1 / 2) by linarith)]
  · have hT : ¬(0 : ℝ) > T := by
      have : (0 : ℝ) < 1 / 10 ^ 14 := by positivity
      intro h0
      linarith [not_lt.1 h]
    rw [if_neg h, if_neg (show ¬(1 / 10 ^ 14 : ℝ) > T * (1 / 2) by intro h'; exact h (by linarith)), if_neg hT]
    simp only [DC.new, initIR, initOffsets, lt_self_iff_false, if_false]

theorem step_faster (hr : 0 < r) : ir r (stepResponse 0) = stepResponse 0 := by
  have h : ∀ t : ℝ, 0 ≤ r * t ↔ 0 ≤ t := fun t => mul_nonneg_iff_of_pos_left hr
  simp only [ir, stepResponse, zero_div, IR.mk.injEq, true_and]
  funext t
  exact if_congr (h t) rfl rfl

/-- a clock with a shorter period -/
theorem clocked_faster (hr : 0 < r) {T : ℝ} {M : ℕ} {d : DC ℝ M} (h : clocked T M none = .ok d) :
    d.T = T ∧ clocked (T / r) M none = if T / r / 2 < 1 / 10 ^ 14 then .error .exception else .ok { dc r d with tt2 := d.tt2 } := by
  rw [clocked_plain] at h ⊢
  by_cases h1 : T / 2 < 1 / 10 ^ 14
  · rw [if_pos h1] at h; cases h
  · rw [if_neg h1, Except.ok.injEq] at h
    subst h
    refine ⟨rfl, ?_⟩
    by_cases h2 : T / r / 2 < 1 / 10 ^ 14
    · rw [if_pos h2, if_pos h2]
    · rw [if_neg h2, if_neg h2]
      simp only [dc, zero_div, step_faster hr]

theorem anyDecrease_div (hr : 0 < r) : ∀ l : List ℝ, anyDecrease (l.map (· / r)) = anyDecrease l
  | [] => rfl
  | [_] => rfl
  | a :: b :: l => by
    have h : (b / r < a / r) = (b < a) := propext (div_lt_div_iff_of_pos_right hr)
    simp only [List.map, anyDecrease]
    rw [← anyDecrease_div hr (b :: l)]
    simp only [List.map, h]

theorem badPhases_div (hr : 0 < r) (T : ℝ) (l : List ℝ) : badPhases (T / r) (l.map (· / r)) = badPhases T l := by
  have h1 : ∀ a : ℝ, (a / r < 0) = (a < 0) := fun a => propext ⟨fun h => by have := (div_lt_iff₀ hr).1 h; rwa [zero_mul] at this, fun h => div_neg_of_neg_of_pos h hr⟩
  have h2 : ∀ a : ℝ, (T / r < a / r) = (T < a) := fun a => propext (div_lt_div_iff_of_pos_right hr)
  simp only [badPhases, List.any_map, anyDecrease_div hr, Function.comp_def, h1, h2]

theorem clocked_some (T : ℝ) (M : ℕ) (l : List (IR ℝ)) : clocked T M (some l) =
    if T / 2 < 1 / 10 ^ 14 then .error .exception else DC.new T (1 / 10 ^ 14 / 2) M (some l) 0 none := by
  unfold clocked Clock.new
  have hd : ¬((1 / 2 : ℝ) > 1 ∨ (1 / 2 : ℝ) ≤ 0) := by norm_num
  have hm : min (1 / 2 : ℝ) (1 - 1 / 2) = 1 / 2 := by norm_num
  dsimp only
  rw [if_neg hd]
  simp only [Clock.maxStep, hm]
  by_cases h : T / 2 < 1 / 10 ^ 14
  · rw [if_pos h, if_pos (show (1 / 10 ^ 14 : ℝ) > T * (1 / 2) by linarith)]
  · have hT : ¬(0 : ℝ) > T := by
      have : (0 : ℝ) < 1 / 10 ^ 14 := by positivity
      intro h0
      linarith [not_lt.1 h]
    rw [if_neg h, if_neg (show ¬(1 / 10 ^ 14 : ℝ) > T * (1 / 2) by intro h'; exact h (by linarith)), if_neg hT]

theorem step_ir (hr : 0 < r) (t0 : ℝ) : ir r (stepResponse t0) = stepResponse (t0 / r) := by
  simp only [ir, stepResponse, IR.mk.injEq, true_and]
  funext t
  exact if_congr (by rw [div_le_iff₀ hr, mul_comm]) rfl rfl

theorem rc_ir (hr : 0 < r) (tau t0 : ℝ) : ir r (rcResponse tau t0) = rcResponse (tau / r) (t0 / r) := by
  simp only [ir, rcResponse, IR.mk.injEq, true_and]
  funext t
  refine if_congr (by rw [lt_div_iff₀ hr, mul_comm]) rfl (congrArg Real.exp ?_)
  rw [show t0 / r - t = (t0 - r * t) / r by field_simp, div_div_div_cancel_right₀ hr.ne']

/-- a clock with a shorter period and given waveforms -/
theorem clocked_phase (hr : 0 < r) {T : ℝ} {M : ℕ} {h : IR ℝ} {d : DC ℝ M} (hd : clocked T M (some (List.replicate M h)) = .ok d) :
    d.T = T ∧ d.tt2 = 1 / 10 ^ 14 / 2 ∧ (∀ m, d.ir m = h) ∧ clocked (T / r) M (some (List.replicate M (ir r h))) =
      if T / r / 2 < 1 / 10 ^ 14 then .error .exception else .ok { dc r d with tt2 := d.tt2 } := by
  rw [clocked_some] at hd ⊢
  by_cases h1 : T / 2 < 1 / 10 ^ 14
  · rw [if_pos h1] at hd; cases hd
  rw [if_neg h1] at hd
  cases hb : badPhases T (List.replicate M h.t0) with
  | true =>
    simp [DC.new, initIR, hb] at hd
  | false =>
    have hb' : badPhases (T / r) (List.replicate M (h.t0 / r)) = false := by
      rw [← hb, ← badPhases_div hr T, List.map_replicate]
    simp [DC.new, initIR, initOffsets, hb] at hd
    subst hd
    refine ⟨rfl, by simp, fun m => rfl, ?_⟩
    congr 1
    simp [DC.new, initIR, initOffsets, ir, hb', dc]

theorem rho_getD (r : ℝ) (o : Option ℝ) : (o.map (r * ·)).getD 0 = r * o.getD 0 := by
  cases o <;> simp

theorem coiEnob_faster (hr : 0 < r) (k : Kw) (N : ℕ) (BW enob : ℝ) (f : Frontend)
    (h : coiEnob k N BW enob = .ok f) : coiEnob (kw r k) N (r * BW) enob = speedUp r f := by
  unfold coiEnob at h ⊢
  by_cases hN : N = 0
  · rw [if_pos hN] at h; cases h
  rw [if_neg hN] at h ⊢
  have hk : (kw r k).switchCap = k.switchCap := rfl
  have hx : (kw r k).xi = k.xi := rfl
  have hl : (kw r k).localFeedback = k.localFeedback := rfl
  have hd : (kw r k).excessDelay = k.excessDelay := rfl
  have hg : (kw r k).finiteGain = k.finiteGain := rfl
  have hrho : (kw r k).rho = k.rho.map (r * ·) := rfl
  dsimp only at h
  simp only [hk, hx, hl, hd, hg, hrho, rho_getD]
  generalize coiGamma N (k.xi.getD (23 / 10000)) enob = γ at h ⊢
  have e1 : -γ * (2 * Real.pi * (r * BW)) = r * (-γ * (2 * Real.pi * BW)) := by ring
  have e2 : (if k.localFeedback = true then -(2 * Real.pi * (r * BW)) / γ else r * k.rho.getD 0) =
      r * (if k.localFeedback = true then -(2 * Real.pi * BW) / γ else k.rho.getD 0) := by
    rw [mul_ite]
    congr 1
    ring
  have e3 : -(2 * Real.pi * (r * BW)) / γ ^ (2 * N) = r * (-(2 * Real.pi * BW) / γ ^ (2 * N)) := by ring
  rw [e1, e2, e3]
  generalize -γ * (2 * Real.pi * BW) = β at h ⊢
  generalize (if k.localFeedback = true then -(2 * Real.pi * BW) / γ else k.rho.getD 0) = ρ at h ⊢
  generalize -(2 * Real.pi * BW) / γ ^ (2 * N) = η at h ⊢
  have eT : 1 / |2 * (r * β)| = 1 / |2 * β| / r := by
    rw [mul_left_comm, abs_mul, abs_of_pos hr, mul_comm r, div_mul_eq_div_div]
  rw [eT, ones_mul, ones_mul, eye_mul, (C150_structures hr _ [] _ _).1]
  generalize 1 / |2 * β| = T at h ⊢
  rw [show T / r * k.excessDelay.getD 0 = T * k.excessDelay.getD 0 / r by ring]
  cases hc : chainOfIntegrators (ones N β) (ones N ρ) (eye N β) with
  | error e => rw [hc] at h; cases h
  | ok g =>
    rw [hc] at h
    simp only [Except.map] at h ⊢
    have fin : ∀ (κ : ℝ) (d : DC ℝ N), d.T = T →
        (match chainOfIntegrators (ones N β) (ones N ρ) (eye N κ) with
          | .error e => (.error e : Res Frontend)
          | .ok g => if k.finiteGain = true then .ok ⟨N, { g with A := fun r c => g.A r c + (if r = c then η else 0) }, d⟩ else .ok ⟨N, g, d⟩) =
          .ok f →
        (match (if T / r / 2 < 1 / 10 ^ 14 then (.error .exception : Res (DC ℝ N)) else .ok { dc r d with tt2 := d.tt2 }) with
          | .error e => (.error e : Res Frontend)
          | .ok d =>
            match chainOfIntegrators (List.map (r * ·) (ones N β)) (List.map (r * ·) (ones N ρ)) (eye N (r * κ)) with
            | .error e => (.error e : Res Frontend)
            | .ok g =>
              if k.finiteGain = true then .ok ⟨N, { g with A := fun i c => g.A i c + (if i = c then r * η else 0) }, d⟩ else .ok ⟨N, g, d⟩) =
          speedUp r f := by
      intro κ d hT h
      rw [eye_mul, (C150_structures hr _ [] _ _).1]
      cases hc : chainOfIntegrators (ones N β) (ones N ρ) (eye N κ) with
      | error e => rw [hc] at h; cases h
      | ok g =>
        rw [hc] at h
        simp only [Except.map] at h ⊢
        by_cases hs : T / r / 2 < 1 / 10 ^ 14
        · rw [if_pos hs]
          dsimp only
          by_cases hfg : k.finiteGain = true
          · rw [if_pos hfg, Except.ok.injEq] at h
            subst h
            unfold speedUp
            rw [if_pos (by rw [hT]; exact hs)]
          · rw [if_neg hfg, Except.ok.injEq] at h
            subst h
            unfold speedUp
            rw [if_pos (by rw [hT]; exact hs)]
        · rw [if_neg hs]
          dsimp only
          by_cases hfg : k.finiteGain = true
          · rw [if_pos hfg, Except.ok.injEq] at h
            subst h
            unfold speedUp
            rw [if_pos hfg, if_neg (by rw [hT]; exact hs)]
            simp only [sys, mul_add, mul_ite, mul_zero]
          · rw [if_neg hfg, Except.ok.injEq] at h
            subst h
            unfold speedUp
            rw [if_neg hfg, if_neg (by rw [hT]; exact hs)]
    cases hsw : k.switchCap with
    | true =>
      simp only [hsw, if_true] at h ⊢
      cases hp : clocked T N (some (List.replicate N (rcResponse (1 / (|β| * 50)) (T * k.excessDelay.getD 0)))) with
      | error e => rw [hp] at h; cases h
      | ok d =>
        rw [hp] at h
        obtain ⟨hT, -, -, hd1⟩ := clocked_phase hr hp
        rw [rc_ir hr] at hd1
        have e4 : 1 / (|r * β| * 50) = 1 / (|β| * 50) / r := by
          rw [abs_mul, abs_of_pos hr, mul_assoc, mul_comm r, div_mul_eq_div_div]
        have e5 : 1 / 2 * (r * β) * 50 = r * (1 / 2 * β * 50) := by ring
        rw [e4, hd1, e5]
        exact fin _ d hT h
    | false =>
      simp only [hsw, Bool.false_eq_true, if_false] at h ⊢
      cases hp : clocked T N (some (List.replicate N (stepResponse (T * k.excessDelay.getD 0)))) with
      | error e => rw [hp] at h; cases h
      | ok d0 =>
        rw [hp] at h
        dsimp only at h
        obtain ⟨-, -, -, hd1⟩ := clocked_phase hr hp
        rw [step_ir hr] at hd1
        cases hq : clocked T N none with
        | error e => rw [hq] at h; cases h
        | ok d =>
          rw [hq] at h
          obtain ⟨hT, hd2⟩ := clocked_faster hr hq
          have fin' := fin β d hT h
          rw [hd1]
          by_cases hs : T / r / 2 < 1 / 10 ^ 14
          · rw [if_pos hs] at fin' ⊢
            exact fin'
          · rw [if_neg hs] at fin' ⊢
            dsimp only
            rw [hd2, if_neg hs]
            exact fin'

theorem pyDiv_faster (hr : 0 < r) {a b q : ℝ} (h : pyDiv a b = .ok q) : pyDiv a (r * b) = .ok (q / r) ∧ pyDiv a (b / r) = .ok (r * q) := by
  unfold pyDiv at h ⊢
  by_cases hb : b = 0
  · rw [if_pos hb] at h; cases h
  rw [if_neg hb, Except.ok.injEq] at h
  subst h
  rw [if_neg (mul_ne_zero hr.ne' hb), if_neg (div_ne_zero hb hr.ne')]
  refine ⟨congrArg _ ?_, congrArg _ ?_⟩
  · field_simp
  · field_simp

theorem coiOsr_faster (hr : 0 < r) (k : Kw) (N : ℕ) (BW OSR : ℝ) (f : Frontend)
    (h : coiOsr k N BW OSR = .ok f) : coiOsr (kw r k) N (r * BW) OSR = speedUp r f := by
  unfold coiOsr at h ⊢
  cases h1 : pyDiv 1 (2 * BW * OSR) with
  | error e => rw [h1] at h; cases h
  | ok T =>
    rw [h1] at h
    dsimp only at h
    cases h2 : pyDiv 1 (2 * T) with
    | error e => rw [h2] at h; cases h
    | ok β =>
      rw [h2] at h
      dsimp only at h
      rw [show 2 * (r * BW) * OSR = r * (2 * BW * OSR) by ring, (pyDiv_faster hr h1).1]
      dsimp only
      rw [show 2 * (T / r) = 2 * T / r by ring, (pyDiv_faster hr h2).2]
      dsimp only
      have hrho : (kw r k).rho = k.rho.map (r * ·) := rfl
      rw [hrho, rho_getD, ones_mul, ones_mul, eye_mul, (C150_structures hr _ [] _ _).1]
      cases hc : chainOfIntegrators (ones N β) (ones N (k.rho.getD 0)) (eye N β) with
      | error e => rw [hc] at h; cases h
      | ok g =>
        rw [hc] at h
        simp only [Except.map] at h ⊢
        cases hq : clocked T N none with
        | error e => rw [hq] at h; cases h
        | ok d =>
          rw [hq] at h
          dsimp only at h
          obtain ⟨hT, hd2⟩ := clocked_faster hr hq
          rw [hd2]
          rw [Except.ok.injEq] at h
          subst h
          unfold speedUp
          rw [hT]
          by_cases hs : T / r / 2 < 1 / 10 ^ 14
          · rw [if_pos hs, if_pos hs]
          · rw [if_neg hs, if_neg hs]

/-- **C150** Synthesis: specifications that differ by a factor `r` in bandwidth (and sampling period and losses) yield converters
that differ by the unit of time only, until the clock becomes too fast for its transition time. -/
theorem C150_chain_synthesis (hr : 0 < r) (k : Kw) (f : Frontend) (h : chainSynthesis k = .ok f) :
    chainSynthesis (kw r k) = speedUp r f := by
  obtain ⟨N, BW, ENOB, SNR, OSR, T, xi, rho, delta, ed, lf, fg, sc⟩ := k
  unfold chainSynthesis at h ⊢
  cases N with
  | none => cases h
  | some N =>
    cases BW with
    | some BW =>
      cases ENOB with
      | some e => exact coiEnob_faster hr _ N BW e f h
      | none =>
        cases SNR with
        | some s => exact coiEnob_faster hr _ N BW _ f h
        | none =>
          cases OSR with
          | some o => exact coiOsr_faster hr _ N BW o f h
          | none => cases h
    | none =>
      cases OSR with
      | none => cases h
      | some o =>
        cases T with
        | none => cases h
        | some T =>
          simp only [kw, Option.map_none, Option.map_some] at h ⊢
          cases h1 : pyDiv 1 (2 * T * o) with
          | error e => rw [h1] at h; cases h
          | ok BW =>
            rw [h1] at h
            rw [show 2 * (T / r) * o = 2 * T * o / r by ring, (pyDiv_faster hr h1).2]
            have := coiOsr_faster hr { rho := some (rho.getD 0) } N BW o f h
            dsimp only
            rw [← this]
            simp only [kw, Option.map_none, Option.map_some, rho_getD]

theorem leapEnd_faster (hr : 0 < r) (N : ℕ) (p : LeapPar) (f : Frontend) (h : leapEnd N p = .ok f) :
    leapEnd N ⟨r * p.beta, r * p.alpha, r * p.kappa, p.delta, p.T / r⟩ = speedUp r f := by
  unfold leapEnd at h ⊢
  by_cases hN : N = 0
  · rw [if_pos hN] at h; cases h
  rw [if_neg hN] at h ⊢
  dsimp only
  have e0 : ones N 0 = (ones N 0).map (r * ·) := by rw [← ones_mul, mul_zero]
  have e1 : (Arr.mat N N fun i j => if i = j then r * p.kappa * p.delta ^ i else 0) =
      arr r (.mat N N fun i j => if i = j then p.kappa * p.delta ^ i else 0) := by
    simp only [arr, mul_ite, mul_zero, mul_assoc]
  rw [ones_mul, ones_mul, e0, e1, (C150_structures hr _ _ _ _).2]
  cases hc : leapFrog (ones N p.beta) (ones (N - 1) p.alpha) (ones N 0) (.mat N N fun i j => if i = j then p.kappa * p.delta ^ i else 0) with
  | error e => rw [hc] at h; cases h
  | ok g =>
    rw [hc] at h
    simp only [Except.map] at h ⊢
    cases hq : clocked p.T N none with
    | error e => rw [hq] at h; cases h
    | ok d =>
      rw [hq] at h
      dsimp only at h
      obtain ⟨hT, hd2⟩ := clocked_faster hr hq
      rw [hd2]
      rw [Except.ok.injEq] at h
      subst h
      unfold speedUp
      rw [hT]
      by_cases hs : p.T / r / 2 < 1 / 10 ^ 14
      · rw [if_pos hs, if_pos hs]
      · rw [if_neg hs, if_neg hs]

theorem leapEnob_faster (hr : 0 < r) (k : Kw) (g : ℝ) (N : ℕ) (BW e : ℝ) : leapEnob (kw r k) g N (r * BW) e =
    ⟨r * (leapEnob k g N BW e).beta, r * (leapEnob k g N BW e).alpha, r * (leapEnob k g N BW e).kappa, (leapEnob k g N BW e).delta,
      (leapEnob k g N BW e).T / r⟩ := by
  unfold leapEnob
  have hx : (kw r k).xi = k.xi := rfl
  have hd : (kw r k).delta = k.delta := rfl
  simp only [hx, hd]
  generalize (k.xi.getD (4 / 1000) / g * Fom.snrFromDB (Fom.enobToSnr e)) ^ (1 / (2 * N : ℝ)) * k.delta.getD 1 = γ
  congr 1
  · ring
  · ring
  · ring
  · rw [show 2 * (2 * Real.pi * (r * BW)) * γ / k.delta.getD 1 = r * (2 * (2 * Real.pi * BW) * γ / k.delta.getD 1) by ring, abs_mul, abs_of_pos hr,
      mul_comm r, div_mul_eq_div_div]

theorem leapOsr_faster (hr : 0 < r) (k : Kw) (BW o : ℝ) (p : LeapPar) (h : leapOsr k BW o = .ok p) :
    leapOsr (kw r k) (r * BW) o = .ok ⟨r * p.beta, r * p.alpha, r * p.kappa, p.delta, p.T / r⟩ := by
  unfold leapOsr at h ⊢
  cases h1 : pyDiv 1 (2 * o * BW) with
  | error e => rw [h1] at h; cases h
  | ok T =>
    rw [h1] at h
    rw [show 2 * o * (r * BW) = r * (2 * o * BW) by ring, (pyDiv_faster hr h1).1]
    have hd : (kw r k).delta = k.delta := rfl
    simp only [hd] at h ⊢
    cases h2 : pyDiv (-(2 * Real.pi * BW / 2) ^ 2) (k.delta.getD 1 * o / (2 * Real.pi) * (2 * Real.pi * BW)) with
    | error e => rw [h2] at h; cases h
    | ok α =>
      rw [h2, Except.ok.injEq] at h
      subst h
      have h3 : pyDiv (-(2 * Real.pi * (r * BW) / 2) ^ 2) (k.delta.getD 1 * o / (2 * Real.pi) * (2 * Real.pi * (r * BW))) = .ok (r * α) := by
        unfold pyDiv at h2 ⊢
        by_cases hb : k.delta.getD 1 * o / (2 * Real.pi) * (2 * Real.pi * BW) = 0
        · rw [if_pos hb] at h2; cases h2
        rw [if_neg hb, Except.ok.injEq] at h2
        have e : k.delta.getD 1 * o / (2 * Real.pi) * (2 * Real.pi * (r * BW)) = r * (k.delta.getD 1 * o / (2 * Real.pi) * (2 * Real.pi * BW)) := by ring
        rw [e, if_neg (mul_ne_zero hr.ne' hb), ← h2]
        congr 1
        rw [show -(2 * Real.pi * (r * BW) / 2) ^ 2 = r * (r * -(2 * Real.pi * BW / 2) ^ 2) by ring, mul_div_mul_left _ _ hr.ne', mul_div_assoc]
      rw [h3]
      simp only [Except.ok.injEq, LeapPar.mk.injEq, and_true, true_and]
      exact ⟨by ring, by ring⟩

/-- **C150** The same for `get_leap_frog`. -/
theorem C150_leap_synthesis (hr : 0 < r) (k : Kw) (g : ℕ → ℝ) (f : Frontend) (h : leapSynthesis k g = .ok f) :
    leapSynthesis (kw r k) g = speedUp r f := by
  have key : ∀ N BW, leapBW k g N BW = .ok f → leapBW (kw r k) g N (r * BW) = speedUp r f := by
    intro N BW h
    obtain ⟨N', BW', ENOB, SNR, OSR, T, xi, rho, delta, ed, lf, fg, sc⟩ := k
    unfold leapBW at h ⊢
    cases ENOB with
    | some e =>
      dsimp only [kw] at h ⊢
      by_cases hN : N = 0
      · rw [if_pos hN] at h; cases h
      rw [if_neg hN] at h ⊢
      have h1 := leapEnd_faster hr N _ f h
      rwa [← leapEnob_faster hr] at h1
    | none =>
      cases OSR with
      | some o =>
        dsimp only [kw] at h ⊢
        cases h1 : leapOsr ⟨N', BW', none, SNR, some o, T, xi, rho, delta, ed, lf, fg, sc⟩ BW o with
        | error e => rw [h1] at h; cases h
        | ok p =>
          rw [h1] at h
          have h2 := leapOsr_faster hr _ BW o p h1
          dsimp only [kw] at h2
          rw [h2]
          exact leapEnd_faster hr N p f h
      | none =>
        cases SNR with
        | some s =>
          dsimp only [kw] at h ⊢
          by_cases hN : N = 0
          · rw [if_pos hN] at h; cases h
          rw [if_neg hN] at h ⊢
          have h1 := leapEnd_faster hr N _ f h
          rwa [← leapEnob_faster hr] at h1
        | none => cases h
  unfold leapSynthesis at h ⊢
  have hN : (kw r k).N = k.N := rfl
  have hB : (kw r k).BW = k.BW.map (r * ·) := rfl
  have hO : (kw r k).OSR = k.OSR := rfl
  have hT : (kw r k).T = k.T.map (· / r) := rfl
  rw [hN, hB, hO, hT]
  cases h1 : k.N with
  | none => rw [h1] at h; cases h
  | some N =>
    rw [h1] at h
    dsimp only at h ⊢
    cases h2 : k.BW with
    | some BW =>
      rw [h2] at h
      exact key N BW h
    | none =>
      rw [h2] at h
      dsimp only [Option.map] at h ⊢
      cases h3 : k.OSR with
      | none => rw [h3] at h; cases h
      | some o =>
        rw [h3] at h
        cases h4 : k.T with
        | none => rw [h4] at h; cases h
        | some T =>
          rw [h4] at h
          dsimp only at h ⊢
          cases h5 : pyDiv 1 (2 * o * T) with
          | error e => rw [h5] at h; cases h
          | ok BW =>
            rw [h5] at h
            rw [show 2 * o * (T / r) = 2 * o * T / r by ring, (pyDiv_faster hr h5).2]
            exact key N BW h

/-- **C150** The transition time of the clock has no influence on simulations of a control that decides at the beginning of the
period. -/
theorem C150_transition {M : ℕ} (c : Cfg M) (h0 : ∀ m, (c.dc.ir m).t0 = 0) (h2 : 0 ≤ c.dc.tt2) (tt : ℝ) (htt : 0 ≤ tt) (s : ℕ → St M)
    (φ : ℕ → ℝ → ℕ → ℝ) : Run ⟨c.sys, { c.dc with tt2 := tt }, c.input, c.hasInput⟩ s φ ↔ Run c s φ := by
  have hu : ∀ st y, update { c.dc with tt2 := tt } st 0 y = update c.dc st 0 y := by
    intro st y
    have a1 : ∀ m, allclose 0 (c.dc.ir m).t0 tt := fun m => by rw [h0]; unfold allclose; simp [htt]
    have a2 : ∀ m, allclose 0 (c.dc.ir m).t0 c.dc.tt2 := fun m => by rw [h0]; unfold allclose; simp [h2]
    unfold update
    simp only [a1, a2, if_true]
  have hd : ∀ st, Cfg.decide ⟨c.sys, { c.dc with tt2 := tt }, c.input, c.hasInput⟩ st = c.decide st := by
    intro st
    unfold Cfg.decide
    simp only [hu]
    rfl
  exact ⟨fun h k => ⟨(hd _).symm.trans (h k).dec, (h k).start, (h k).cont, (h k).ode, (h k).stop, (h k).ticks, (h k).time⟩,
    fun h k => ⟨(hd _).trans (h k).dec, (h k).start, (h k).cont, (h k).ode, (h k).stop, (h k).ticks, (h k).time⟩⟩

theorem plain_frontend (k : Kw) (hk : k.switchCap = false) (f : Frontend) (h : chainSynthesis k = .ok f) :
    (∀ m, (f.dc.ir m).t0 = 0) ∧ f.dc.tt2 = 1 / 10 ^ 14 / 2 := by
  have key : ∀ T N (d : DC ℝ N), clocked T N none = .ok d → (∀ m, (d.ir m).t0 = 0) ∧ d.tt2 = 1 / 10 ^ 14 / 2 := by
    intro T N d hd
    rw [clocked_plain] at hd
    by_cases h1 : T / 2 < 1 / 10 ^ 14
    · rw [if_pos h1] at hd; cases hd
    · rw [if_neg h1, Except.ok.injEq] at hd
      subst hd
      exact ⟨fun _ => rfl, rfl⟩
  have osr : ∀ k N BW o, coiOsr k N BW o = .ok f → (∀ m, (f.dc.ir m).t0 = 0) ∧ f.dc.tt2 = 1 / 10 ^ 14 / 2 := by
    intro k N BW o h
    unfold coiOsr at h
    cases h1 : pyDiv 1 (2 * BW * o) with
    | error e => rw [h1] at h; cases h
    | ok T =>
      rw [h1] at h
      dsimp only at h
      cases h2 : pyDiv 1 (2 * T) with
      | error e => rw [h2] at h; cases h
      | ok β =>
        rw [h2] at h
        dsimp only at h
        cases hc : chainOfIntegrators (ones N β) (ones N (k.rho.getD 0)) (eye N β) with
        | error e => rw [hc] at h; cases h
        | ok g =>
          rw [hc] at h
          dsimp only at h
          cases hq : clocked T N none with
          | error e => rw [hq] at h; cases h
          | ok d =>
            rw [hq, Except.ok.injEq] at h
            subst h
            exact key T N d hq
  have enob : ∀ N BW e, coiEnob k N BW e = .ok f → (∀ m, (f.dc.ir m).t0 = 0) ∧ f.dc.tt2 = 1 / 10 ^ 14 / 2 := by
    intro N BW e h
    unfold coiEnob at h
    by_cases hN : N = 0
    · rw [if_pos hN] at h; cases h
    rw [if_neg hN] at h
    simp only [hk, Bool.false_eq_true, if_false] at h
    split at h
    · cases h
    · split at h
      · cases h
      · rename_i d hd
        split at hd
        · cases hd
        · split at h
          · cases h
          · split at h
            · rw [Except.ok.injEq] at h
              subst h
              exact key _ N d hd
            · rw [Except.ok.injEq] at h
              subst h
              exact key _ N d hd
  obtain ⟨N, BW, ENOB, SNR, OSR, T, xi, rho, delta, ed, lf, fg, sc⟩ := k
  unfold chainSynthesis at h
  cases N with
  | none => cases h
  | some N =>
    cases BW with
    | some BW =>
      cases ENOB with
      | some e => exact enob N BW e h
      | none =>
        cases SNR with
        | some s => exact enob N BW _ h
        | none =>
          cases OSR with
          | some o => exact osr _ N BW o h
          | none => cases h
    | none =>
      cases OSR with
      | none => cases h
      | some o =>
        cases T with
        | none => cases h
        | some T =>
          dsimp only at h
          cases h1 : pyDiv 1 (2 * T * o) with
          | error e => rw [h1] at h; cases h
          | ok BW =>
            rw [h1] at h
            exact osr _ N BW o h

/-- **C150** From specifications to simulations: a converter synthesised for `r` times the bandwidth makes, for inputs that run
`r` times as fast, exactly the simulations (states and control signals) of the original one. -/
theorem C150_converter (hr : 0 < r) (k : Kw) (hk : k.switchCap = false) (f f' : Frontend) (h : chainSynthesis k = .ok f)
    (h' : chainSynthesis (kw r k) = .ok f') : ∃ g' d', f' = ⟨f.M, g', d'⟩ ∧
      ∀ (u : ℕ → ℝ → ℕ → ℝ) (b : Bool) (s : ℕ → St f.M) (φ : ℕ → ℝ → ℕ → ℝ),
        Run ⟨g', d', fun k t => u k (r * t), b⟩ (fun k => ⟨(s k).ticks, (s k).t / r, (s k).x, (s k).c⟩) (fun k τ => φ k (r * τ)) ↔
          Run ⟨f.sys, f.dc, u, b⟩ s φ := by
  rw [C150_chain_synthesis hr k f h] at h'
  unfold speedUp at h'
  by_cases hs : f.dc.T / r / 2 < 1 / 10 ^ 14
  · rw [if_pos hs] at h'; cases h'
  rw [if_neg hs, Except.ok.injEq] at h'
  obtain ⟨p1, p2⟩ := plain_frontend k hk f h
  refine ⟨sys r f.sys, { dc r f.dc with tt2 := f.dc.tt2 }, h'.symm, fun u b s φ => ?_⟩
  refine Iff.trans ?_ (C150_simulation hr ⟨f.sys, f.dc, u, b⟩ s φ)
  exact C150_transition (cfg r ⟨f.sys, f.dc, u, b⟩) (fun m => by show (f.dc.ir m).t0 / r = 0; rw [p1, zero_div])
    (by show 0 ≤ f.dc.tt2 / r; rw [p2]; positivity) f.dc.tt2 (by rw [p2]; positivity) _ _

/-- C150_chain_synthesis, C150_converter: fourth order, from 1 Hz to 1 kHz -/
example : ∃ f f', chainSynthesis { N := some 4, OSR := some 32, BW := some 1 } = .ok f ∧
    chainSynthesis (kw 1000 { N := some 4, OSR := some 32, BW := some 1 }) = .ok f' ∧
    chainSynthesis { N := some 4, OSR := some 32, BW := some 1000 } = .ok f' ∧ f'.dc.T = f.dc.T / 1000 := by
  obtain ⟨g, d, beta, T, h, -, -, hT, h0, ho, -⟩ := (C48_osr { N := some 4, OSR := some 32, BW := some 1 } 4 (by norm_num) 1 32
    (by norm_num) (by norm_num) rfl rfl rfl rfl rfl).1 (by norm_num)
  have hd : d.T = 1 / 64 := by
    rw [hT]
    unfold Fom.osr Fom.nyquistFrequency at ho
    field_simp at ho
    linarith
  have h1 := C150_chain_synthesis (r := 1000) (by norm_num) _ _ h
  unfold speedUp at h1
  rw [if_neg (by dsimp only; rw [hd]; norm_num)] at h1
  have e : kw 1000 { N := some 4, OSR := some 32, BW := some 1 } = { N := some 4, OSR := some 32, BW := some 1000 } := by
    simp [kw]
  exact ⟨_, _, h, h1, e ▸ h1, rfl⟩

/-- `C150_leap_synthesis`: a fifth-order leap-frog structure, from 1 Hz to 1 kHz; `C150_structures` for a leap-frog structure
of two integrators -/
example : (∃ f f', leapSynthesis { N := some 5, OSR := some 32, BW := some 1 } (fun _ => 1) = .ok f ∧
      leapSynthesis (kw 1000 { N := some 5, OSR := some 32, BW := some 1 }) (fun _ => 1) = f' ∧ f' = speedUp 1000 f) ∧
    ∃ g, leapFrog ([1, 2].map (1000 * ·)) ([-3].map (1000 * ·)) ([0, -1].map (1000 * ·)) (arr 1000 (.mat 2 1 fun _ _ => -1)) = .ok g := by
  constructor
  · obtain ⟨g, dc, -, -, -, h, -⟩ := (C81_osr { N := some 5, OSR := some 32, BW := some 1 } (fun _ => 1) 5 (by norm_num) 1 32
      (by norm_num) (by norm_num) (by norm_num) rfl rfl rfl rfl).1 (by norm_num)
    exact ⟨_, _, h, rfl, C150_leap_synthesis (by norm_num) _ _ _ h⟩
  · rw [(C150_structures (r := 1000) (by norm_num) [1, 2] [-3] [0, -1] (.mat 2 1 fun _ _ => -1)).2]
    have e := leap_eq [1, 2] [-3] [0, -1] (by simp) rfl rfl fun _ _ => (-1 : ℝ)
    exact ⟨_, congrArg (Except.map (sys 1000)) e⟩

/-- `C150_transition`: the integrator of C20 with a transition time of a hundredth instead of none -/
example : ∃ (c : Cfg 1) (s : ℕ → St 1) (φ : ℕ → ℝ → ℕ → ℝ),
    Run ⟨c.sys, { c.dc with tt2 := 1 / 100 }, c.input, c.hasInput⟩ s φ ∧ (s 0).x 0 = -(3 / 4) := by
  obtain ⟨⟨sys, dc, input, hi⟩, st, φ, -, hdc, -, -, hr, -, h0⟩ := ex_simulation
  dsimp only at hdc
  simp only [DC.new, initIR, initOffsets, lt_self_iff_false, if_false, Except.ok.injEq] at hdc
  refine ⟨_, st, φ, (C150_transition _ (fun m => ?_) ?_ (1 / 100) (by norm_num) st φ).2 hr, h0⟩
  · show (dc.ir m).t0 = 0
    rw [← hdc]
    rfl
  · show 0 ≤ dc.tt2
    rw [← hdc]


end Cbadc.Units
