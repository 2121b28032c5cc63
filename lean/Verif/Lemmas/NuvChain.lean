import Verif.Lemmas.NuvMain

/-! Helper lemmas for the NUV estimator: what one batch hands over to the next. -/

namespace Cbadc.Nuv

open Matrix Set Cbadc.Estimator Cbadc.Streams Cbadc.Filter Cbadc.Filter.Spec Cbadc.Nuv.Spec

variable {N P M L : ℕ}

/-- The forward pass does not depend on the size of the window. -/
theorem forward_window (f : Est N P M L) (a c : ℕ) (st : State N P M L) :
    ∀ k, ({ f with K1 := a, K2 := c } : Est N P M L).forward st k = f.forward st k := by
  intro k
  induction k with
  | zero => rfl
  | succ k ih =>
    rw [Est.forward, Est.forward, ih]

theorem solved_mean {f : Est N N M L} (hf : Sound f) {p : Prior N N} (hp : Proper p) (w : ℕ → Fin M → ℝ) (i k : ℕ) :
    (solved f i p w).mean k = (f.forward (f.stats (entry f p w i)) k).1 := by
  have h : f.mbf (f.stats (entry f p w i)) = .ok (solved f i p w) := by
    rw [← (round hf hp w i).1]
    rcases i with _ | i
    · rfl
    · rw [Est.solve, (round hf hp w i).1]
      rfl
  unfold Est.mbf at h
  rw [dif_pos rfl] at h
  rw [← Except.ok.inj h]

/-- The expected state that a batch hands over is the end of sampling period `K1 - 2`, when the input is zero in that period
and the decisions before it have been explained at least cost. -/
theorem after_mean {f : Est N N M L} (hf : Sound f) {p : Prior N N} (hp : Proper p) {w : ℕ → Fin M → ℝ} {q : Window N N L}
    (h : Solves f w p q) {n : ℕ} (hn : f.K1 = n + 2) :
    ∃ u x J z, ({ q with K := n + 1 } : Window N N L).Smoothed (solved f f.iters p w).s1 (solved f f.iters p w).s2 u x J ∧
      Flow q.A (q.q n) 0 q.T z ∧ z 0 = x n 0 ∧ z q.T = (after f p w).m := by
  obtain ⟨hC, hB, hb, hm, hV, hK, hw, hT, hAf, hVu, ψ, hψ⟩ := h
  obtain ⟨-, hp2, hp3, h4, h5, h6⟩ := round hf hp w f.iters
  obtain ⟨g, hg⟩ : ∃ g : Est N N M L, g = { f with K1 := n + 1, K2 := 0 } := ⟨_, rfl⟩
  have hgK : g.K3 = n + 1 := by rw [hg]; rfl
  have hfK : n + 2 ≤ f.K3 := by unfold Est.K3; omega
  have hr : Ready g (entry f p w f.iters) := by
    refine ⟨?_, ?_, ?_, by omega, hp3.cov, hp3.s1, hp3.s2⟩ <;> rw [hg]
    exacts [hp3.CT, hp3.Af, hp3.Vu]
  obtain ⟨r, hr1, hr2⟩ := pass g _ hr
  have hgC : g.CT = f.CT := by rw [hg]
  have hgb : g.bound = f.bound := by rw [hg]
  have hgp : g.pre = f.pre := by rw [hg]
  have hfw : ∀ k, g.forward (g.stats (entry f p w f.iters)) k = f.forward (f.stats (entry f p w f.iters)) k := by
    intro k
    rw [hg, forward_window]
    rfl
  obtain ⟨u, x, J, ⟨hS, -⟩, hx, -⟩ := smooth_optimal (n := n) (p := { q with K := n + 1 }) rfl hw hT
    (show q.V0.PosDef from hV ▸ hp.V) hp3.s1 hp3.s2 (fun k => r.mean k - r.cov k *ᵥ r.xi k) r.xi ψ
    (fun k hk => (hψ k (by omega)).1) (fun k hk => (hψ k (by omega)).2.1)
    (by
      show _ - q.m0 = -(q.V0 *ᵥ _)
      rw [hm, hV, hr2.mean, hr2.cov, h4, h5]
      abel)
    (by
      have := hr2.last n (by omega)
      rw [hgC, hgb] at this
      unfold slope
      dsimp only
      rw [hC, hb]
      exact this)
    (by
      intro k hk
      have := hr2.grad k (by omega)
      rw [hgC, hgb, hgp] at this
      unfold slope
      dsimp only
      rw [hC, hb, ← hAf]
      exact this)
    (by
      intro k hk
      have := hr2.step k (by omega)
      rw [hgp, h6] at this
      dsimp only
      rw [(hψ k (by omega)).2.2, ← hAf, ← hVu]
      exact this)
  rw [hp2.s1, hp2.s2]
  refine ⟨u, x, J, fun t => NormedSpace.exp (t • q.A) *ᵥ x n 0 + ψ n t, hS, ?_, ?_, ?_⟩
  · have := (flow_exp q.A (x n 0) 0 q.T).add (hψ n (by omega)).1
    simpa only [zero_add] using this
  · show NormedSpace.exp ((0 : ℝ) • q.A) *ᵥ x n 0 + ψ n 0 = _
    rw [zero_smul, NormedSpace.exp_zero, one_mulVec, (hψ n (by omega)).2.1, add_zero]
  · show NormedSpace.exp (q.T • q.A) *ᵥ x n 0 + ψ n q.T = (solved f f.iters p w).mean (f.K1 - 1)
    rw [solved_mean hf hp, hn, (hψ n (by omega)).2.2, ← hAf, hx n (Nat.lt_succ_self n)]
    show _ = (f.forward (f.stats (entry f p w f.iters)) (n + 1)).1
    rw [Est.forward]
    dsimp only
    show _ = _ + f.pre.Bf *ᵥ (entry f p w f.iters).cs n
    rw [h6]
    congr 2
    unfold Est.mbf at hr1
    rw [dif_pos rfl] at hr1
    have e := Except.ok.inj hr1
    have hξ : r.xi n = g.backward rfl (g.stats (entry f p w f.iters)) 0 := by
      rw [← e]
      dsimp only
      rw [hgK, Nat.add_sub_cancel, Nat.sub_self]
    rw [Est.backward, hgK, Nat.add_sub_cancel, mulT_eq _ hr.CT, hfw, hgC] at hξ
    have hY : (g.stats (entry f p w f.iters)).yV n = (f.stats (entry f p w f.iters)).yV n := rfl
    have hy : (g.stats (entry f p w f.iters)).ym n = (f.stats (entry f p w f.iters)).ym n := by rw [hg]; rfl
    rw [hY, hy] at hξ
    have := filtered (hp3.weight n) (hp3.forward n).posSemidef _ _ _ _ hξ
    rw [mulVec_zero, sub_zero] at this
    rw [this]
    have e1 : r.mean n = (f.forward (f.stats (entry f p w f.iters)) n).1 := by rw [← e]; exact congrArg Prod.fst (hfw n)
    have e2 : r.cov n = (f.forward (f.stats (entry f p w f.iters)) n).2 := by rw [← e]; exact congrArg Prod.snd (hfw n)
    rw [e1, e2]

/-- Without iterations, the last decision of a batch does not influence what is handed over. -/
theorem after_congr_last (f : Est N P M L) (hP : P = N) (hi : f.iters = 0) (p : Prior N P) {w w' : ℕ → Fin M → ℝ}
    (h : ∀ k, k + 1 < f.K1 → w k = w' k) : after f p w = after f p w' := by
  have hf : ∀ k < f.K1, f.forward (f.stats (base p w)) k = f.forward (f.stats (base p w')) k := by
    intro k
    induction k with
    | zero => intro _; rfl
    | succ k ih =>
      intro hk
      rw [Est.forward, Est.forward, ih (by omega)]
      show (_ + f.pre.Bf *ᵥ w k, _) = (_ + f.pre.Bf *ᵥ w' k, _)
      rw [h k hk]
      rfl
  have hs : ∀ v : ℕ → Fin M → ℝ, solved f 0 p v = { f.stats (base p v) with
      mean := fun k => (f.forward (f.stats (base p v)) k).1
      cov := fun k => (f.forward (f.stats (base p v)) k).2
      xi := fun k => f.backward hP (f.stats (base p v)) (f.K3 - 1 - k) } := by
    intro v
    unfold solved
    rw [Est.solve, Est.mbf, dif_pos hP]
  unfold after
  rw [hi, hs, hs]
  dsimp only
  rcases Nat.eq_zero_or_pos f.K1 with h0 | h0
  · rw [h0]
    rfl
  · rw [hf _ (by omega)]
    rfl

theorem prior_congr_last (f : Est N P M L) (hP : P = N) (hi : f.iters = 0) (ho : f.os = 1) {src src' : ℕ → Res (Fin M → ℝ)}
    (h : ∀ i, i % f.K1 ≠ f.K1 - 1 → smp src i = smp src' i) : ∀ b, prior f src b = prior f src' b := by
  intro b
  induction b with
  | zero => rfl
  | succ b ih =>
    rw [prior, prior, ih]
    refine after_congr_last f hP hi _ fun k hk => ?_
    unfold window
    rw [ho, Nat.div_one, h]
    rw [Nat.add_comm, Nat.add_mul_mod_self_right, Nat.mod_eq_of_lt (by omega)]
    omega

/-- The batches and what is handed over between them. -/
theorem call_chain (f : Est N P M L) (hP : P = N)
    (hsym : ∀ i j : Fin N, f.CT (Fin.cast hP.symm i) j = f.CT (Fin.cast hP.symm j) i) (hAf : IsUnit f.pre.Af)
    (hVu : f.pre.Vu.PosSemidef) (hf : Fits f) (hu : f.covU ≠ 0) {n : ℕ} (hn : f.K1 = n + 2) (src : ℕ → Res (Fin M → ℝ))
    (ho : ∀ i, ∃ s, src i = .ok s) (q : ℕ → (Fin N → ℝ) → Matrix (Fin N) (Fin N) ℝ → Window N P L)
    (hq : ∀ b, ∀ p : Prior N P, Solves f (window f src b) p (q b p.m p.V)) (hw : ∀ b m V, (q b m V).w = f.covU ^ 2) :
    ∃ (m0 : ℕ → Fin N → ℝ) (V0 : ℕ → Matrix (Fin N) (Fin N) ℝ), m0 0 = 0 ∧ V0 0 = (10 : ℝ) ^ 12 • (1 : Matrix (Fin N) (Fin N) ℝ) ∧ ∀ b, (V0 b).PosDef ∧
      ∃ s1 s2 u x J, (q b (m0 b) (V0 b)).Rounds f.gamma ((10 : ℝ) ^ (-100 : ℤ)) f.iters s1 s2 u x J ∧
        (∀ j, 0 < j → j < f.K1 →
          call (f.next src) f.init (b * f.K1 + j) = .ok ((1 / f.covU) • u f.iters (j - 1) (q b (m0 b) (V0 b)).T)) ∧
        ∃ u' x' J' z, ({ q b (m0 b) (V0 b) with K := n + 1 } : Window N P L).Smoothed (s1 f.iters) (s2 f.iters) u' x' J' ∧
          Flow (q b (m0 b) (V0 b)).A ((q b (m0 b) (V0 b)).q n) 0 (q b (m0 b) (V0 b)).T z ∧ z 0 = x' n 0 ∧
          z (q b (m0 b) (V0 b)).T = m0 (b + 1) := by
  subst hP
  have hS : Sound f := by
    refine ⟨?_, hAf, hVu, hf.K1⟩
    ext i j
    exact (hsym i j).symm
  refine ⟨fun b => (prior f src b).m, fun b => (prior f src b).V, rfl, rfl, fun b => ?_⟩
  have hp := prior_proper hS src b
  obtain ⟨s1, s2, u, x, J, hR, h1, h2, hst, hux, hs⟩ := batch_rounds hS hp (hq b (prior f src b)) f.iters
  refine ⟨hp.V, s1, s2, u, x, J, hR, ?_, ?_⟩
  · intro j hj hj'
    obtain ⟨i, rfl⟩ : ∃ i, j = i + 1 := ⟨j - 1, by omega⟩
    rw [call_out f hf rfl src b (fun i _ => Or.inr (ho i)) (fun i _ => ho i) _ hj', Nat.add_sub_cancel,
      (hux f.iters le_rfl).1 i (by
        obtain ⟨-, -, -, -, -, hK, -⟩ := hq b (prior f src b)
        rw [hK]
        unfold Est.K3
        omega), hw]
    refine congrArg _ ?_
    rw [out, smul_neg, smul_smul]
    congr 2
    field_simp
  · have e1 : s1 f.iters = (solved f f.iters (prior f src b) (window f src b)).s1 := by
      funext k l
      exact (hs f.iters le_rfl k l).1
    have e2 : s2 f.iters = (solved f f.iters (prior f src b) (window f src b)).s2 := by
      funext k l
      exact (hs f.iters le_rfl k l).2
    rw [e1, e2]
    exact after_mean hS hp (hq b (prior f src b)) hn

end Cbadc.Nuv
