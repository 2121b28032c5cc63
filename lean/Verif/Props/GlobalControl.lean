import Verif.Lemmas.GlobalControlMain
import Verif.Lemmas.GlobalControlExample

/-! # Properties of the global control -/

namespace Cbadc.Global

open Matrix Set Global.Spec MeasureTheory Cbadc.Analog Cbadc.Control

variable {M : ℕ} {g g' : Sys ℝ} {dc : DC ℝ M} {phi : ℕ → ℝ}

theorem new_global (G GT Bt At : ℕ → ℕ → ℝ) :
    Sys.new (.mat g.N g.N g.A) (.mat g.N g.L g.B) (.mat g.Nt g.N g.CT) (some (.mat g.N g.M G))
      (some (.mat g.Mt g.N GT)) none (some (.mat g.Mt g.L Bt)) (some (.mat g.Mt g.M At)) =
    .ok ⟨g.N, g.L, g.M, g.Mt, g.Nt, g.A, g.B, g.CT, some G, some GT, fun _ _ => 0, Bt, At⟩ := by
  simp [Sys.new, checkGamma, checkGammaT, checkB, checkCT, checkOpt, Arr.shape0, Arr.shape1, Arr.entries, bind, Except.bind]

theorem obs_global (G GT Bt At D : ℕ → ℕ → ℝ) {x u s : Vec ℝ} (hx : x.len = g.N) (hu : u.len = g.L) (hs : s.len = g.M) :
    (Sys.mk g.N g.L g.M g.Mt g.Nt g.A g.B g.CT (some G) (some GT) D Bt At).controlObservation x (some u) (some s) =
      .ok ⟨g.Mt, fun i => dot g.N GT x.v i + dot g.L Bt u.v i + dot g.M At s.v i⟩ := by
  simp [Sys.controlObservation, npDot, npAdd, hx, hu, hs, bind, Except.bind]

/-- the sum of the corrected impulse responses, but for the time zero -/
theorem corrected_sum {k : Fin M} (d : Fin M → ℝ) {t : ℝ} (ht : 0 < t) :
    ∑ m, d m • corrected dc k m t = fun m => if m ≤ k ∧ t ≤ dc.T then d m * (dc.ir m).f t else 0 := by
  funext i
  rw [Finset.sum_apply, Finset.sum_eq_single i]
  · by_cases hi : i ≤ k
    · simp only [corrected, if_neg (not_lt.2 hi), impulseResponse, Pi.smul_apply, smul_eq_mul, ht.le, hi, true_and, mul_ite, mul_zero]
    · have : ¬t + dc.T ≤ dc.T := by linarith
      simp only [corrected, if_pos (not_le.1 hi), impulseResponse, Pi.smul_apply, smul_eq_mul, this, hi, and_false, false_and,
        if_false, mul_zero]
  · intro m _ hm
    have : ∀ t, impulseResponse dc m t i = 0 := fun t => if_neg fun h => hm h.1.symm
    rw [Pi.smul_apply, corrected]
    split <;> rw [this, smul_zero]
  · exact fun h => absurd (Finset.mem_univ i) h

theorem dot_fin (n : ℕ) (A : ℕ → ℕ → ℝ) (x : ℕ → ℝ) (r : ℕ) : dot n A x r = ∑ c : Fin n, A r c * x c := by
  rw [dot, Finset.sum_range]


/-- the trajectories of the integrator with one control signal -/
theorem one_solves {w : ℝ → Fin 1 → ℝ} {u a x0 c : ℝ} {b e : ℝ} {J : Set ℝ} (hJ : J.Countable) {d : ℝ}
    (hw : ∀ t ∈ Ioo b e \ J, w t 0 = a) :
    Solves (toM (intSys 1 (fun _ => -1) d).N (intSys 1 (fun _ => -1) d).N (intSys 1 (fun _ => -1) d).A)
      (fun t => (toM (intSys 1 (fun _ => -1) d).N (intSys 1 (fun _ => -1) d).L (intSys 1 (fun _ => -1) d).B *ᵥ fun _ => u) +
        toM (intSys 1 (fun _ => -1) d).N 1 (fun _ _ => -1) *ᵥ w t) b e (fun t _ => x0 + (u - a) * (t - c)) := by
  refine (int_solves (v := fun _ => u - a) hJ (by fun_prop) fun t _ => ?_).congr hJ fun t ht => ?_
  · refine ((((hasDerivAt_id t).sub_const c).const_mul (u - a)).const_add x0).congr_deriv ?_
    rw [mul_one]
  · refine Eq.trans ?_ (congrArg₂ (· + ·) (int_B _).symm (one_mulVec_fin _ _).symm)
    funext i
    show u - a = u + -1 * w t 0
    rw [hw t ht]
    ring

/-- **C103**: each entry of the control observation of the resulting system is the value of the respective control signal
for which the energy of the output over the following period is least, and the closer a decision is to it the less
energy: given the state `x`, inputs `u` that stay constant for a period, and the values `s` of the other control signals,
when the control signals up to the deciding one act with their waveforms until the end of the clock period, and the later
ones do not act. -/
theorem C103_optimal_partial (h : GlobalControl g dc phi g') (hT : 0 ≤ dc.T) {G : ℕ → ℕ → ℝ} (hG : g.Gamma = some G)
    {mt : ℕ} {k : Fin M} (hmt : mt < g.Mt) (hk : (k : ℕ) = mt + (M - g.Mt)) (hphi : 0 ≤ phi mt) {x u s : Vec ℝ}
    (hx : x.len = g.N) (hu : u.len = g.L) (hs : s.len = M) :
    ∃ y, g'.controlObservation x (some u) (some s) = .ok y ∧ y.len = g.Mt ∧ ∀ a b xa xb,
      Solves (toM g.N g.N g.A) (fun t => (toM g.N g.L g.B *ᵥ fun l => u.v l) + toM g.N M G *ᵥ fun m =>
        if m ≤ k ∧ t ≤ dc.T then Function.update (fun m : Fin M => s.v m) k a m * (dc.ir m).f t else 0) (phi mt) (phi mt + dc.T) xa →
      xa (phi mt) = (fun n : Fin g.N => x.v n) →
      Solves (toM g.N g.N g.A) (fun t => (toM g.N g.L g.B *ᵥ fun l => u.v l) + toM g.N M G *ᵥ fun m =>
        if m ≤ k ∧ t ≤ dc.T then Function.update (fun m : Fin M => s.v m) k b m * (dc.ir m).f t else 0) (phi mt) (phi mt + dc.T) xb →
      xb (phi mt) = (fun n : Fin g.N => x.v n) →
      (energy (toM g.Nt g.N g.CT) (phi mt) (phi mt + dc.T) xa ≤ energy (toM g.Nt g.N g.CT) (phi mt) (phi mt + dc.T) xb ↔
        |a - y.v mt| ≤ |b - y.v mt|) := by
  obtain ⟨G', hG', hM, hMt, GT, Bt, At, hrow, hnew⟩ := h
  obtain rfl : G' = G := Option.some_injective _ (hG'.symm.trans hG)
  rw [new_global] at hnew
  obtain rfl := Except.ok.inj hnew
  refine ⟨_, obs_global _ _ _ _ _ hx hu (hs.trans hM.symm), rfl, fun a b xa xb ha ha0 hb hb0 => ?_⟩
  have hc : ∀ c, ∀ t ∈ Ioo (phi mt) (phi mt + dc.T) \ (∅ : Set ℝ), ((toM g.N g.L g.B *ᵥ fun l => u.v l) + toM g.N M G' *ᵥ fun m =>
      if m ≤ k ∧ t ≤ dc.T then Function.update (fun m : Fin M => s.v m) k c m * (dc.ir m).f t else 0) =
      (toM g.N g.L g.B *ᵥ fun l => u.v l) + toM g.N M G' *ᵥ ∑ m, Function.update (fun m : Fin M => s.v m) k c m • corrected dc k m t := by
    intro c t ht
    rw [corrected_sum _ (lt_of_le_of_lt hphi ht.1.1)]
  refine (hrow mt k hmt hk).optimal hT ?_ (ha.congr countable_empty (hc a)) ha0 (hb.congr countable_empty (hc b)) hb0
  show dot g.N GT x.v mt + dot g.L Bt u.v mt + dot g.M At s.v mt = _
  rw [dot_fin, dot_fin, dot_fin, hM]

/-- the hypotheses are met by the integrator with the decision in the middle of the period; the observation at the state 1
is 9/4, and there are trajectories for every decision -/
example : ∃ y, (oneGC 0 (9 / 4) (11 / 8)).controlObservation ⟨1, fun _ => 1⟩ (some ⟨1, fun _ => 0⟩) (some ⟨1, fun _ => 0⟩) = .ok y ∧
    y.v 0 = 9 / 4 ∧ ∃ xa xb : ℝ → Fin 1 → ℝ, xa (1 / 2) = (fun _ => 1) ∧ xb (1 / 2) = (fun _ => 1) ∧
      (energy (toM (intSys 1 (fun _ => -1) 0).Nt (intSys 1 (fun _ => -1) 0).N (intSys 1 (fun _ => -1) 0).CT) (1 / 2) (1 / 2 + 1) xa ≤
        energy (toM (intSys 1 (fun _ => -1) 0).Nt (intSys 1 (fun _ => -1) 0).N (intSys 1 (fun _ => -1) 0).CT) (1 / 2) (1 / 2 + 1) xb ↔
        |(1 : ℝ) - 9 / 4| ≤ |-1 - 9 / 4|) := by
  obtain ⟨y, hy, -, H⟩ := C103_optimal_partial (oneC_global (d := 0)) zero_le_one rfl (mt := 0) (k := 0) Nat.one_pos rfl
    (by norm_num) (x := ⟨1, fun _ => 1⟩) (u := ⟨1, fun _ => 0⟩) (s := ⟨1, fun _ => 0⟩) rfl rfl rfl
  have e : y.v 0 = 9 / 4 := by
    have := hy
    simp only [Sys.controlObservation, npDot, npAdd, dot, ne_eq, not_true_eq_false, if_false, bind, Except.bind,
      Except.ok.injEq] at this
    rw [← this]
    simp
  have hs : ∀ c : ℝ, Solves (toM (intSys 1 (fun _ => -1) 0).N (intSys 1 (fun _ => -1) 0).N (intSys 1 (fun _ => -1) 0).A)
      (fun t => (toM (intSys 1 (fun _ => -1) 0).N (intSys 1 (fun _ => -1) 0).L (intSys 1 (fun _ => -1) 0).B *ᵥ fun _ => 0) +
        toM (intSys 1 (fun _ => -1) 0).N 1 (fun _ _ => -1) *ᵥ fun m =>
        if m ≤ 0 ∧ t ≤ 1 then Function.update (fun m : Fin 1 => (0 : ℝ)) 0 c m * ((Filter.exDC 0 (.step (1 / 2) 1)).ir m).f t else 0)
      (1 / 2) (1 / 2 + 1) (fun t _ => 1 + -c * (min t 1 - 1 / 2)) := by
    intro c
    refine (int_solves (v := fun t => -c * (if t ≤ 1 then 1 else 0)) (countable_singleton 1)
      (continuous_const.add (continuous_const.mul ramp_cont)).continuousOn fun t ht =>
        ((ramp_deriv ht.2).const_mul (-c)).const_add 1).congr countable_empty fun t ht => ?_
    refine Eq.trans ?_ (congrArg₂ (· + ·) (int_B _).symm (one_mulVec_fin _ _).symm)
    funext i
    show -c * (if t ≤ 1 then 1 else 0) = 0 + -1 * (if (0 : Fin 1) ≤ 0 ∧ t ≤ 1 then c * (if 1 / 2 ≤ t then (1 : ℝ) else 0) else 0)
    have h0 : (1 / 2 : ℝ) ≤ t := ht.1.1.le
    by_cases h1 : t ≤ 1
    · rw [if_pos h1, if_pos ⟨le_refl _, h1⟩, if_pos h0]
      ring
    · rw [if_neg h1, if_neg fun h => h1 h.2]
      ring
  have h0 : ∀ c : ℝ, (fun (t : ℝ) (_ : Fin 1) => 1 + -c * (min t 1 - 1 / 2)) (1 / 2) = fun _ => 1 := fun c => by
    funext
    norm_num
  refine ⟨y, hy, e, fun t _ => 1 + -1 * (min t 1 - 1 / 2), fun t _ => 1 + - -1 * (min t 1 - 1 / 2), h0 1, h0 (-1), ?_⟩
  rw [← e]
  exact H 1 (-1) _ _ (hs 1) (h0 1) (hs (-1)) (h0 (-1))

/-- **C103**: in terms of the contributions of the digital control, for decisions at the beginning of the period without
delay: if the later control signals are zero, the energy of the output over the period is the less the closer the decision
is to the control observation. -/
theorem C103_contribution_partial (h : GlobalControl g dc phi g') (hT : 0 ≤ dc.T) {G : ℕ → ℕ → ℝ} (hG : g.Gamma = some G)
    {mt : ℕ} {k : Fin M} (hmt : mt < g.Mt) (hk : (k : ℕ) = mt + (M - g.Mt)) (hphi : phi mt = 0) (hd : dc.tDelay = 0)
    (h0 : ∀ m ≤ k, (dc.ir m).t0 = 0) (st : State ℝ M) (hl : ∀ m, k < m → st.cur m = 0) {x u s : Vec ℝ}
    (hx : x.len = g.N) (hu : u.len = g.L) (hs : s.len = M) (hsv : ∀ m : Fin M, m ≠ k → s.v m = st.cur m) :
    ∃ y, g'.controlObservation x (some u) (some s) = .ok y ∧ y.len = g.Mt ∧ ∀ a b xa xb,
      Solves (toM g.N g.N g.A) (fun t => (toM g.N g.L g.B *ᵥ fun l => u.v l) + toM g.N M G *ᵥ
        contribution dc { st with cur := Function.update st.cur k a } t) 0 dc.T xa →
      xa 0 = (fun n : Fin g.N => x.v n) →
      Solves (toM g.N g.N g.A) (fun t => (toM g.N g.L g.B *ᵥ fun l => u.v l) + toM g.N M G *ᵥ
        contribution dc { st with cur := Function.update st.cur k b } t) 0 dc.T xb →
      xb 0 = (fun n : Fin g.N => x.v n) →
      (energy (toM g.Nt g.N g.CT) 0 dc.T xa ≤ energy (toM g.Nt g.N g.CT) 0 dc.T xb ↔ |a - y.v mt| ≤ |b - y.v mt|) := by
  obtain ⟨y, hy, hlen, H⟩ := C103_optimal_partial h hT hG hmt hk hphi.ge hx hu hs
  refine ⟨y, hy, hlen, fun a b xa xb ha ha0 hb hb0 => ?_⟩
  rw [hphi, zero_add] at H
  have hc : ∀ c, ∀ t ∈ Ioo 0 dc.T \ (∅ : Set ℝ), ((toM g.N g.L g.B *ᵥ fun l => u.v l) + toM g.N M G *ᵥ
        contribution dc { st with cur := Function.update st.cur k c } t) =
      (toM g.N g.L g.B *ᵥ fun l => u.v l) + toM g.N M G *ᵥ fun m =>
        if m ≤ k ∧ t ≤ dc.T then Function.update (fun m : Fin M => s.v m) k c m * (dc.ir m).f t else 0 := by
    intro c t ht
    congr 2
    funext m
    by_cases hm : m ≤ k
    · rw [if_pos ⟨hm, ht.1.2.le⟩]
      have e : Function.update (fun m : Fin M => s.v m) k c m = Function.update st.cur k c m := by
        by_cases hmk : m = k
        · rw [hmk, Function.update_self, Function.update_self]
        · rw [Function.update_of_ne hmk, Function.update_of_ne hmk, hsv m hmk]
      rw [e, contribution, h0 m hm, hd, if_neg (not_lt.2 ht.1.1.le), if_neg (not_lt.2 ht.1.1.le), mul_comm]
    · rw [if_neg fun h => hm h.1]
      have e : Function.update st.cur k c m = 0 := by
        rw [Function.update_of_ne (fun h => hm h.le), hl m (not_le.1 hm)]
      rw [contribution, hd, if_neg (not_lt.2 ht.1.1.le)]
      exact (congrArg _ e).trans (mul_zero _)
  exact H a b xa xb (ha.congr countable_empty (hc a)) ha0 (hb.congr countable_empty (hc b)) hb0

/-- **C103**: with a single control signal the comparator takes the better of the two decisions: after the update at the
beginning of the period the energy of the output over the period is not more than with the opposite decision. -/
theorem C103_single {dc : DC ℝ 1} (h : GlobalControl g dc phi g') (hT : 0 ≤ dc.T) {G : ℕ → ℕ → ℝ} (hG : g.Gamma = some G)
    (hMt : g.Mt = 1) (hphi : phi 0 = 0) (hd : dc.tDelay = 0) (h0 : (dc.ir 0).t0 = 0) (htt : 0 ≤ dc.tt2)
    (ho : dc.offsets 0 = 0) (st : State ℝ 1) {x u s : Vec ℝ} (hx : x.len = g.N) (hu : u.len = g.L) (hs : s.len = 1) :
    ∃ y, g'.controlObservation x (some u) (some s) = .ok y ∧
      ∀ st', st' = update dc st 0 (fun _ => y.v 0) → (st'.cur 0 = 1 ∨ st'.cur 0 = -1) ∧ ∀ xa xb,
      Solves (toM g.N g.N g.A) (fun t => (toM g.N g.L g.B *ᵥ fun l => u.v l) + toM g.N 1 G *ᵥ contribution dc st' t) 0 dc.T xa →
      xa 0 = (fun n : Fin g.N => x.v n) →
      Solves (toM g.N g.N g.A) (fun t => (toM g.N g.L g.B *ᵥ fun l => u.v l) + toM g.N 1 G *ᵥ
        contribution dc { st' with cur := fun m => -st'.cur m } t) 0 dc.T xb →
      xb 0 = (fun n : Fin g.N => x.v n) →
      energy (toM g.Nt g.N g.CT) 0 dc.T xa ≤ energy (toM g.Nt g.N g.CT) 0 dc.T xb := by
  have hcl : allclose 0 (dc.ir 0).t0 dc.tt2 := by simp [allclose, h0, htt]
  have key : ∀ st1 : State ℝ 1, _ := fun st1 => C103_contribution_partial h hT hG (mt := 0) (k := 0) (by omega) (by simp [hMt]) hphi hd
    (fun m _ => by rw [Subsingleton.elim m 0, h0]) st1 (fun m hm => absurd hm (by omega)) hx hu hs
    (fun m hm => absurd (Subsingleton.elim m 0) hm)
  obtain ⟨y, hy, -, -⟩ := key st
  refine ⟨y, hy, fun st' hst => ?_⟩
  obtain ⟨y', hy', -, H⟩ := key st'
  obtain rfl : y = y' := Except.ok.inj (hy.symm.trans hy')
  have hcur : st'.cur 0 = 2 * (if 0 ≤ y.v 0 then 1 else 0) - 1 := by
    rw [hst]
    simp only [update, if_pos hcl, ho]
  have hval : (0 ≤ y.v 0 ∧ st'.cur 0 = 1) ∨ (y.v 0 < 0 ∧ st'.cur 0 = -1) := by
    by_cases hy0 : 0 ≤ y.v 0
    · exact Or.inl ⟨hy0, by rw [hcur, if_pos hy0]; norm_num⟩
    · exact Or.inr ⟨not_le.1 hy0, by rw [hcur, if_neg hy0]; norm_num⟩
  refine ⟨hval.imp (·.2) (·.2), fun xa xb ha ha0 hb hb0 => ?_⟩
  have ea : { st' with cur := Function.update st'.cur 0 (st'.cur 0) } = st' := by rw [Function.update_eq_self]
  have eb : { st' with cur := Function.update st'.cur 0 (-st'.cur 0) } = { st' with cur := fun m => -st'.cur m } := by
    congr 1
    funext m
    rw [Subsingleton.elim m 0, Function.update_self]
  refine (H (st'.cur 0) (-st'.cur 0) xa xb (by rwa [ea]) ha0 (by rwa [eb]) hb0).2 ?_
  rcases hval with ⟨h1, h2⟩ | ⟨h1, h2⟩
  · rw [h2]
    exact sq_le_sq.1 (by nlinarith)
  · rw [h2]
    exact sq_le_sq.1 (by nlinarith)

/-- `C103_contribution_partial`, `C103_single`: the hypotheses are met by the integrator with the decision at the
beginning of the period: with the state 1/2 and the
input 1 the observation is 7/4, and the decision taken leads from 1/2 along `1/2` instead of along `1/2 + 2t` -/
example : ∃ y, (oneGC 0 (3 / 2) 1).controlObservation ⟨1, fun _ => 1 / 2⟩ (some ⟨1, fun _ => 1⟩) (some ⟨1, fun _ => 0⟩) = .ok y ∧
    y.v 0 = 7 / 4 ∧ ∃ xa xb : ℝ → Fin 1 → ℝ, xa = (fun _ _ => 1 / 2) ∧ xb = (fun t _ => 1 / 2 + 2 * t) ∧
      energy (toM (intSys 1 (fun _ => -1) 0).Nt (intSys 1 (fun _ => -1) 0).N (intSys 1 (fun _ => -1) 0).CT) 0 1 xa ≤
        energy (toM (intSys 1 (fun _ => -1) 0).Nt (intSys 1 (fun _ => -1) 0).N (intSys 1 (fun _ => -1) 0).CT) 0 1 xb := by
  obtain ⟨y, hy, H⟩ := C103_single (oneA_global (d := 0)) zero_le_one rfl rfl rfl rfl rfl (le_refl _) rfl State.init
    (x := ⟨1, fun _ => 1 / 2⟩) (u := ⟨1, fun _ => 1⟩) (s := ⟨1, fun _ => 0⟩) rfl rfl rfl
  have e : y.v 0 = 7 / 4 := by
    have := hy
    simp only [Sys.controlObservation, npDot, npAdd, dot, ne_eq, not_true_eq_false, if_false, bind, Except.bind,
      Except.ok.injEq] at this
    rw [← this]
    simp
    norm_num
  refine ⟨y, hy, e, fun _ _ => 1 / 2, fun t _ => 1 / 2 + 2 * t, rfl, rfl, ?_⟩
  have hcur : (update (Filter.exDC 0 (.step 0 1)) State.init 0 (fun _ => y.v 0)).cur 0 = 1 := by
    simp only [update, e]
    rw [if_pos, if_pos] <;> norm_num [allclose, Filter.Dac.ir, Filter.Dac.t0]
  have hf : ∀ t : ℝ, 0 < t → (Filter.Dac.step 0 1).eval t = 1 := fun t ht => if_pos ht.le
  refine (H _ rfl).2 _ _ ?_ (by rfl) ?_ (by funext; norm_num)
  · have h := one_solves (u := 1) (a := 1) (x0 := 1 / 2) (c := 0) (b := 0) (e := 1) (J := ∅) countable_empty (d := 0)
      (w := contribution (Filter.exDC 0 (.step 0 1)) (update (Filter.exDC 0 (.step 0 1)) State.init 0 (fun _ => y.v 0)))
      (fun t ht => by
        have h0 : (0 : ℝ) < t := ht.1.1
        rw [contribution, hcur]
        show (if t < 0 then _ else (Filter.Dac.step 0 1).eval t) * (if t < 0 then _ else 1) = 1
        rw [if_neg (not_lt.2 h0.le), if_neg (not_lt.2 h0.le), hf t h0, one_mul])
    have e1 : (fun (t : ℝ) (_ : Fin 1) => (1 / 2 : ℝ) + (1 - 1) * (t - 0)) = fun _ _ => 1 / 2 := by funext; ring
    rw [e1] at h
    exact h
  · have h := one_solves (u := 1) (a := -1) (x0 := 1 / 2) (c := 0) (b := 0) (e := 1) (J := ∅) countable_empty (d := 0)
      (w := contribution (Filter.exDC 0 (.step 0 1))
        { update (Filter.exDC 0 (.step 0 1)) State.init 0 (fun _ => y.v 0) with
          cur := fun m => -(update (Filter.exDC 0 (.step 0 1)) State.init 0 (fun _ => y.v 0)).cur m })
      (fun t ht => by
        have h0 : (0 : ℝ) < t := ht.1.1
        rw [contribution]
        show (if t < 0 then _ else (Filter.Dac.step 0 1).eval t) * (if t < 0 then _ else
          -(update (Filter.exDC 0 (.step 0 1)) State.init 0 (fun _ => y.v 0)).cur 0) = -1
        rw [hcur, if_neg (not_lt.2 h0.le), if_neg (not_lt.2 h0.le), hf t h0, one_mul])
    have e1 : (fun (t : ℝ) (_ : Fin 1) => (1 / 2 : ℝ) + (1 - -1) * (t - 0)) = fun t _ => 1 / 2 + 2 * t := by funext; ring
    rw [e1] at h
    exact h

/-- **C103**: the contribution of the later control signals is neglected: with two control signals of phases 0 and 1/2,
state 1/10, no input, and the second signal still at 1 from its last decision, the observation of the first signal is
positive, but the decision 1 leads to more energy in the output than the decision -1. -/
theorem C103_later_false : ∃ (g g' : Sys ℝ) (dc : DC ℝ 2) (phi : ℕ → ℝ) (G : ℕ → ℕ → ℝ) (st : State ℝ 2) (x u s y : Vec ℝ)
    (xp xm : ℝ → Fin g.N → ℝ), GlobalControl g dc phi g' ∧ g.Gamma = some G ∧ (∀ m : Fin 2, phi m = (dc.ir m).t0) ∧
    x.len = g.N ∧ u.len = g.L ∧ s.len = 2 ∧ (∀ m : Fin 2, s.v m = contribution dc st 0 m) ∧
    g'.controlObservation x (some u) (some s) = .ok y ∧ 0 < y.v 0 ∧
    Solves (toM g.N g.N g.A) (fun t => (toM g.N g.L g.B *ᵥ fun l => u.v l) + toM g.N 2 G *ᵥ
      contribution dc { st with cur := Function.update st.cur 0 1 } t) 0 dc.T xp ∧ xp 0 = (fun n : Fin g.N => x.v n) ∧
    Solves (toM g.N g.N g.A) (fun t => (toM g.N g.L g.B *ᵥ fun l => u.v l) + toM g.N 2 G *ᵥ
      contribution dc { st with cur := Function.update st.cur 0 (-1) } t) 0 dc.T xm ∧ xm 0 = (fun n : Fin g.N => x.v n) ∧
    energy (toM g.Nt g.N g.CT) 0 dc.T xm < energy (toM g.Nt g.N g.CT) 0 dc.T xp := by
  obtain ⟨g', hg, GT, Bt, At, rfl, hGT, hBt, hAt⟩ := two_global (d := 0)
  have hsol : ∀ c : ℝ, Solves (toM (intSys 2 twoG 0).N (intSys 2 twoG 0).N (intSys 2 twoG 0).A)
      (fun t => (toM (intSys 2 twoG 0).N (intSys 2 twoG 0).L (intSys 2 twoG 0).B *ᵥ fun _ => 0) +
        toM (intSys 2 twoG 0).N 2 (fun _ m => twoG m) *ᵥ
        contribution twoDC { (⟨fun _ => 1, fun m => if m = 0 then 0 else 1, fun _ => 0⟩ : State ℝ 2) with
          cur := Function.update (fun m : Fin 2 => if m = 0 then (0 : ℝ) else 1) 0 c } t) 0 1 (fun t _ => 1 / 10 + (-c - 4) * t) := by
    intro c
    refine (int_solves (v := fun _ => -c - 4) countable_empty (by fun_prop) fun t _ => ?_).congr countable_empty fun t ht => ?_
    · refine (((hasDerivAt_id t).const_mul (-c - 4)).const_add (1 / 10)).congr_deriv ?_
      rw [mul_one]
    · refine Eq.trans ?_ (congrArg (· + _) (int_B _).symm)
      funext i
      have h0 : (0 : ℝ) < t := ht.1.1
      have h1 : t < 1 := ht.1.2
      have f1 : (if t < 1 / 2 then (Filter.Dac.step (1 / 2) 1).eval (t + 1) else (Filter.Dac.step (1 / 2) 1).eval t) = 1 := by
        by_cases h : t < 1 / 2
        · rw [if_pos h]
          exact if_pos (by linarith)
        · rw [if_neg h]
          exact if_pos (not_lt.1 h)
      have f0 : (if t < 0 then (Filter.Dac.step 0 1).eval (t + 1) else (Filter.Dac.step 0 1).eval t) = 1 := by
        rw [if_neg (not_lt.2 h0.le)]
        exact if_pos h0.le
      have e0 : contribution twoDC { (⟨fun _ => 1, fun m => if m = 0 then 0 else 1, fun _ => 0⟩ : State ℝ 2) with
          cur := Function.update (fun m : Fin 2 => if m = 0 then (0 : ℝ) else 1) 0 c } t 0 = c := by
        show (if t < 0 then (Filter.Dac.step 0 1).eval (t + 1) else (Filter.Dac.step 0 1).eval t) * (if t < 0 then 0 else c) = c
        rw [f0, if_neg (not_lt.2 h0.le), one_mul]
      have e1 : contribution twoDC { (⟨fun _ => 1, fun m => if m = 0 then 0 else 1, fun _ => 0⟩ : State ℝ 2) with
          cur := Function.update (fun m : Fin 2 => if m = 0 then (0 : ℝ) else 1) 0 c } t 1 = 1 := by
        show (if t < 1 / 2 then (Filter.Dac.step (1 / 2) 1).eval (t + 1) else (Filter.Dac.step (1 / 2) 1).eval t) *
          (if t < 0 then 0 else 1) = 1
        rw [f1, if_neg (not_lt.2 h0.le), one_mul]
      show -c - 4 = 0 + ∑ j : Fin 2, twoG j * _
      rw [Fin.sum_univ_two, e0, e1]
      have g0 : twoG ((0 : Fin 2) : ℕ) = -1 := if_pos rfl
      have g1 : twoG ((1 : Fin 2) : ℕ) = -4 := if_neg one_ne_zero
      rw [g0, g1]
      ring
  refine ⟨intSys 2 twoG 0, _, twoDC, _, fun _ m => twoG m, ⟨fun _ => 1, fun m => if m = 0 then 0 else 1, fun _ => 0⟩,
    ⟨1, fun _ => 1 / 10⟩, ⟨1, fun _ => 0⟩, ⟨2, fun m => if m = 0 then 0 else 1⟩, _, fun t _ => 1 / 10 + (-1 - 4) * t,
    fun t _ => 1 / 10 + (- -1 - 4) * t, hg, rfl, ?_, rfl, rfl, rfl, ?_, obs_global (g := intSys 2 twoG 0) _ _ _ _ _ rfl rfl rfl, ?_,
    hsol 1, ?_, hsol (-1), ?_, ?_⟩
  · intro m
    fin_cases m <;> rfl
  · intro m
    fin_cases m
    · show (0 : ℝ) = _ * (if (0 : ℝ) < 0 then 0 else 0)
      simp
    · show (1 : ℝ) = (if (0 : ℝ) < 1 / 2 then (if (1 / 2 : ℝ) ≤ 0 + 1 then (1 : ℝ) else 0) else _) * (if (0 : ℝ) < 0 then 0 else 1)
      norm_num
  · show 0 < dot 1 GT (fun _ => 1 / 10) 0 + dot 1 Bt (fun _ => 0) 0 + dot 2 At (fun m => if m = 0 then 0 else 1) 0
    simp [dot, hGT, hAt, Finset.sum_range_succ]
  · funext; simp
  · funext; simp
  · rw [int_energy, int_energy]
    have : ∀ c : ℝ, ∫ t in (0 : ℝ)..1, (1 / 10 + c * t) * (1 / 10 + c * t) = 1 / 100 + c / 10 + c ^ 2 / 3 := by
      intro c
      have e : ∀ t : ℝ, (1 / 10 + c * t) * (1 / 10 + c * t) = 1 / 100 + c / 5 * t + c ^ 2 * t ^ 2 := fun t => by ring
      simp only [e]
      rw [intervalIntegral.integral_add (by apply Continuous.intervalIntegrable; fun_prop) (by apply Continuous.intervalIntegrable; fun_prop),
        intervalIntegral.integral_add (by apply Continuous.intervalIntegrable; fun_prop) (by apply Continuous.intervalIntegrable; fun_prop),
        intervalIntegral.integral_const, intervalIntegral.integral_const_mul, intervalIntegral.integral_const_mul, integral_id,
        integral_pow]
      norm_num
      ring
    rw [this, this]
    norm_num

/-- **C103**: the waveform of a decision within the period is cut off at the end of the period: with one control signal of
phase 1/2, state 1 and input -8/5, the observation is positive, but the decision 1 leads to more energy in the output
until the next decision than the decision -1.  (The contribution at time `t` after the end of the period is that of the
time `t - T`, as in the simulator.) -/
theorem C103_phase_false : ∃ (g g' : Sys ℝ) (dc : DC ℝ 1) (phi : ℕ → ℝ) (G : ℕ → ℕ → ℝ) (st : State ℝ 1) (x u s y : Vec ℝ)
    (xp xm : ℝ → Fin g.N → ℝ), GlobalControl g dc phi g' ∧ g.Gamma = some G ∧ phi 0 = (dc.ir 0).t0 ∧
    x.len = g.N ∧ u.len = g.L ∧ s.len = 1 ∧
    g'.controlObservation x (some u) (some s) = .ok y ∧ 0 < y.v 0 ∧
    Solves (toM g.N g.N g.A) (fun t => (toM g.N g.L g.B *ᵥ fun l => u.v l) + toM g.N 1 G *ᵥ
      contribution dc { st with cur := fun _ => 1 } (if t < dc.T then t else t - dc.T)) (phi 0) (phi 0 + dc.T) xp ∧
    xp (phi 0) = (fun n : Fin g.N => x.v n) ∧
    Solves (toM g.N g.N g.A) (fun t => (toM g.N g.L g.B *ᵥ fun l => u.v l) + toM g.N 1 G *ᵥ
      contribution dc { st with cur := fun _ => -1 } (if t < dc.T then t else t - dc.T)) (phi 0) (phi 0 + dc.T) xm ∧
    xm (phi 0) = (fun n : Fin g.N => x.v n) ∧
    energy (toM g.Nt g.N g.CT) (phi 0) (phi 0 + dc.T) xm < energy (toM g.Nt g.N g.CT) (phi 0) (phi 0 + dc.T) xp := by
  have hc : ∀ c : ℝ, ∀ t ∈ Ioo (1 / 2 : ℝ) (1 / 2 + 1) \ (∅ : Set ℝ),
      contribution (Filter.exDC 0 (.step (1 / 2) 1)) { (State.init : State ℝ 1) with cur := fun _ => c } (if t < 1 then t else t - 1) 0 = c := by
    intro c t ht
    have h0 : (1 / 2 : ℝ) < t := ht.1.1
    have h1 : t < 1 / 2 + 1 := ht.1.2
    by_cases h : t < 1
    · rw [if_pos h]
      show (if t < 1 / 2 then _ else if 1 / 2 ≤ t then (1 : ℝ) else 0) * (if t < 0 then 0 else c) = c
      rw [if_neg (not_lt.2 h0.le), if_pos h0.le, if_neg (by linarith), one_mul]
    · rw [if_neg h]
      show (if t - 1 < 1 / 2 then (if 1 / 2 ≤ t - 1 + 1 then (1 : ℝ) else 0) else _) * (if t - 1 < 0 then 0 else c) = c
      rw [if_pos (by linarith), if_pos (by linarith), if_neg (by linarith), one_mul]
  refine ⟨intSys 1 (fun _ => -1) 0, oneGC 0 (9 / 4) (11 / 8), Filter.exDC 0 (.step (1 / 2) 1), fun _ => 1 / 2, fun _ _ => -1, State.init,
    ⟨1, fun _ => 1⟩, ⟨1, fun _ => -(8 / 5)⟩, ⟨1, fun _ => 0⟩, _, fun t _ => 1 + (-(8 / 5) - 1) * (t - 1 / 2),
    fun t _ => 1 + (-(8 / 5) - -1) * (t - 1 / 2), oneC_global, rfl, rfl, rfl, rfl, rfl,
    obs_global (g := intSys 1 (fun _ => -1) 0) _ _ _ _ _ rfl rfl rfl, ?_,
    one_solves countable_empty (hc 1), ?_, one_solves countable_empty (hc (-1)), ?_, ?_⟩
  · show (0 : ℝ) < dot 1 (fun _ _ => 9 / 4) (fun _ => 1) 0 + dot 1 (fun _ _ => 11 / 8) (fun _ => -(8 / 5)) 0 + dot 1 (fun _ _ => 0) (fun _ => 0) 0
    simp only [dot, Finset.sum_range_one]
    norm_num
  · funext; simp
  · funext; simp
  · rw [int_energy, int_energy]
    have : ∀ c : ℝ, ∫ t in (1 / 2 : ℝ)..1 / 2 + 1, (1 + c * (t - 1 / 2)) * (1 + c * (t - 1 / 2)) = 1 + c + c ^ 2 / 3 := by
      intro c
      rw [intervalIntegral.integral_comp_sub_right (fun t => (1 + c * t) * (1 + c * t))]
      have e : ∀ t : ℝ, (1 + c * t) * (1 + c * t) = 1 + 2 * c * t + c ^ 2 * t ^ 2 := fun t => by ring
      simp only [e]
      rw [intervalIntegral.integral_add (by apply Continuous.intervalIntegrable; fun_prop) (by apply Continuous.intervalIntegrable; fun_prop),
        intervalIntegral.integral_add (by apply Continuous.intervalIntegrable; fun_prop) (by apply Continuous.intervalIntegrable; fun_prop),
        intervalIntegral.integral_const, intervalIntegral.integral_const_mul, intervalIntegral.integral_const_mul, integral_id,
        integral_pow]
      norm_num
      ring
    show (∫ t in (1 / 2 : ℝ)..1 / 2 + 1, _) < ∫ t in (1 / 2 : ℝ)..1 / 2 + 1, _
    rw [this, this]
    norm_num

/-- **C104**: the resulting analog system is the given one apart from its control observation: dimensions, derivative and
signal observation are the same for all arguments, and so is the transfer function of a system without direct feedthrough
from the input to the output. -/
theorem C104_keeps_partial (h : GlobalControl g dc phi g') :
    (g'.N = g.N ∧ g'.L = g.L ∧ g'.M = g.M ∧ g'.Mt = g.Mt ∧ g'.Nt = g.Nt) ∧
    (∀ x u s, g'.derivative x u s = g.derivative x u s) ∧ (∀ x, g'.signalObservation x = g.signalObservation x) ∧
    ((∀ r < g.Nt, ∀ l < g.L, g.D r l = 0) → ∀ s, HEq (g'.tfm s) (g.tfm s)) := by
  obtain ⟨G, hG, hM, hMt, GT, Bt, At, hrow, hnew⟩ := h
  rw [new_global] at hnew
  obtain rfl := Except.ok.inj hnew
  refine ⟨⟨rfl, rfl, rfl, rfl, rfl⟩, fun x u s => ?_, fun x => rfl, fun hD s => heq_of_eq ?_⟩
  · simp only [Sys.derivative, hG]
  · rw [Sys.tfm, Sys.tfm]
    congr 1
    ext r l
    exact (hD r r.2 l l.2).symm

/-- the hypothesis is met by the integrator -/
example : (oneGC 0 (3 / 2) 1).N = 1 := (C104_keeps_partial (oneA_global (d := 0))).1.1

/-- **C104**: a direct feedthrough is lost: there is a system for which the transfer function of the result is not that of the
given system. -/
theorem C104_feedthrough_false : ∃ (g g' : Sys ℝ) (dc : DC ℝ 1) (phi : ℕ → ℝ) (s : ℝ), GlobalControl g dc phi g' ∧
    ¬HEq (g'.tfm s) (g.tfm s) := by
  refine ⟨intSys 1 (fun _ => -1) 1, oneGC 1 (3 / 2) 1, _, _, 1, oneA_global, fun h => ?_⟩
  have h1 : (oneGC 1 (3 / 2) 1).tfm 1 = (intSys 1 (fun _ => -1) 1).tfm 1 := eq_of_heq h
  have h2 := add_right_cancel h1
  have h3 : (0 : ℝ) = 1 := congrFun (congrFun h2 (0 : Fin 1)) (0 : Fin 1)
  exact zero_ne_one h3

variable {N : ℕ} {A res inv : Matrix (Fin N) (Fin N) ℝ} {T : ℝ}

/-- **C105**: the first result maps a constant drive to its contribution to the state after the time `T`, and the second one
recovers the drive from the state before and after. -/
theorem C105_recovers (h : InverseTrajectory A T res inv) (hT : 0 ≤ T) {v : Fin N → ℝ} {x : ℝ → Fin N → ℝ}
    (hx : Solves A (fun _ => v) 0 T x) :
    x T = NormedSpace.exp (T • A) *ᵥ x 0 + res *ᵥ v ∧ inv *ᵥ (x T - NormedSpace.exp (T • A) *ᵥ x 0) = v := by
  obtain ⟨F, hF, hr⟩ := h.int
  have hy : Solves A (fun _ => v) 0 T (fun t => NormedSpace.exp ((t - 0) • A) *ᵥ x 0 + fun i => ∑ j, F i j t * v j) := by
    refine ((solves_exp A (x 0) 0 0 T).add (w := fun _ => v) ⟨?_, ?_⟩).congr countable_empty fun t _ => zero_add _
    · exact continuousOn_pi.2 fun i => continuousOn_finsetSum _ fun j _ => (hF i j).cont.mul continuousOn_const
    · choose D hD hd using fun i j => (hF i j).deriv
      refine ⟨⋃ i, ⋃ j, D i j, countable_iUnion fun i => countable_iUnion (hD i), fun t ht => hasDerivAt_pi.2 fun i => ?_⟩
      have hs : HasDerivAt (fun t => ∑ j, F i j t * v j) (∑ j, NormedSpace.exp (t • A) i j * v j) t :=
        HasDerivAt.fun_sum fun j _ => (hd i j t ⟨ht.1, fun h => ht.2 (mem_iUnion.2 ⟨i, mem_iUnion.2 ⟨j, h⟩⟩)⟩).mul_const _
      refine hs.congr_deriv ?_
      have e : ∀ j, NormedSpace.exp (t • A) i j * v j =
          (1 : Matrix (Fin N) (Fin N) ℝ) i j * v j + ∑ l, A i l * (F l j t * v j) := fun j => by
        rw [exp_integral hF ⟨ht.1.1.le, ht.1.2.le⟩ i j, add_mul, Finset.sum_mul]
        congr 1
        exact Finset.sum_congr rfl fun l _ => mul_assoc _ _ _
      rw [Finset.sum_congr rfl fun j _ => e j, Finset.sum_add_distrib, Finset.sum_comm, add_comm]
      show _ = (∑ l, A i l * ∑ j, F l j t * v j) + v i
      congr 1
      · exact Finset.sum_congr rfl fun l _ => (Finset.mul_sum _ _ _).symm
      · exact congrFun (Matrix.one_mulVec v) i
  have h1 : x T = NormedSpace.exp (T • A) *ᵥ x 0 + res *ᵥ v := by
    rw [solves_unique hx hy ?_ T ⟨hT, le_refl _⟩, sub_zero]
    · congr 1
      funext i
      exact Finset.sum_congr rfl fun j _ => congrArg (· * v j) (hr i j).symm
    · have : (fun i => ∑ j, F i j 0 * v j) = 0 := by
        funext i
        exact Finset.sum_eq_zero fun j _ => by rw [(hF i j).start, zero_mul]
      rw [this, sub_zero, Filter.exp_zero_smul, Matrix.one_mulVec, add_zero]
  refine ⟨h1, ?_⟩
  rw [h1, add_sub_cancel_left, h.inv, Matrix.mulVec_mulVec, Matrix.nonsing_inv_mul _ h.nonsing, Matrix.one_mulVec]

/-- the hypotheses are met by an integrator and a drive of 3 for two seconds -/
example : InverseTrajectory (0 : Matrix (Fin 1) (Fin 1) ℝ) 2 (Matrix.of fun _ _ => 2) (Matrix.of fun _ _ => 1 / 2) ∧
    Solves (0 : Matrix (Fin 1) (Fin 1) ℝ) (fun _ _ => 3) 0 2 (fun t _ => 1 + 3 * t) := by
  have hd : (Matrix.of fun _ _ => (2 : ℝ) : Matrix (Fin 1) (Fin 1) ℝ).det = 2 := by simp
  refine ⟨⟨⟨fun _ _ t => t, fun i j => ⟨rfl, continuous_id.continuousOn, ∅, countable_empty, fun t _ => ?_⟩, fun i j => rfl⟩,
    ?_, ?_⟩, ⟨by fun_prop, ∅, countable_empty, fun t _ => hasDerivAt_pi.2 fun i => ?_⟩⟩
  · refine (hasDerivAt_id t).congr_deriv ?_
    rw [Subsingleton.elim i 0, Subsingleton.elim j 0, smul_zero, NormedSpace.exp_zero]
    rfl
  · exact isUnit_iff_ne_zero.2 (by rw [hd]; norm_num)
  · refine (Matrix.inv_eq_right_inv (Filter.mat1_ext ?_)).symm
    rw [Matrix.mul_apply]
    simp
  · refine (((hasDerivAt_id t).const_mul 3).const_add 1).congr_deriv ?_
    rw [Matrix.zero_mulVec]
    simp

/-- **C105**: there is no result for a resonator and a multiple of its period: the response to constant drives vanishes, so that
the inversion raises. -/
theorem C105_resonator_false (res inv : Matrix (Fin 2) (Fin 2) ℝ) : ¬InverseTrajectory !![0, 1; -1, 0] (2 * Real.pi) res inv := by
  intro h
  have hx : Solves !![0, 1; -1, 0] (fun _ => ![1, 0]) 0 (2 * Real.pi) (fun t => ![Real.sin t, Real.cos t - 1]) := by
    refine ⟨?_, ∅, countable_empty, fun t _ => hasDerivAt_pi.2 fun i => ?_⟩
    · refine continuousOn_pi.2 fun i => ?_
      fin_cases i
      · exact Real.continuous_sin.continuousOn
      · exact (Real.continuous_cos.sub continuous_const).continuousOn
    · fin_cases i
      · refine (Real.hasDerivAt_sin t).congr_deriv ?_
        simp
      · refine ((Real.hasDerivAt_cos t).sub_const 1).congr_deriv ?_
        simp
  have h1 := (C105_recovers h (by positivity) hx).2
  have e0 : ![Real.sin 0, Real.cos 0 - 1] = (0 : Fin 2 → ℝ) := by ext i; fin_cases i <;> simp
  have e1 : ![Real.sin (2 * Real.pi), Real.cos (2 * Real.pi) - 1] = (0 : Fin 2 → ℝ) := by ext i; fin_cases i <;> simp
  simp only [e0, e1, Matrix.mulVec_zero, sub_zero] at h1
  exact zero_ne_one (congrFun h1 0)

end Cbadc.Global
