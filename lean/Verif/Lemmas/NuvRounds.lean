import Verif.Lemmas.NuvSmoother
import Verif.Lemmas.NuvLeastSquares

/-! Helper lemmas for the NUV estimator: the rounds of a batch solve smoothing problems. -/

namespace Cbadc.Nuv

open Matrix Set Cbadc.Analog Cbadc.Control Cbadc.Estimator Cbadc.Streams Cbadc.Filter Cbadc.Filter.Spec Cbadc.Nuv.Spec

variable {N P M L : ℕ}

/-! ### The coefficients -/

theorem vu_eq {g : Sys ℝ} {G : ℕ → ℕ → ℝ} {dc : DC ℝ M} {covU Ts : ℝ} {c : Pre g.N M} (h : Computed g G dc covU Ts c) :
    c.Vu = covU ^ 2 • gram (toM g.N g.N g.A) (toM g.N g.L g.B) Ts := by
  ext i j
  rw [h.Vu, Matrix.smul_apply, smul_eq_mul, gram, of_apply, pow_two, mul_assoc]
  congr 1
  rw [← intervalIntegral.integral_const_mul]
  refine intervalIntegral.integral_congr fun t _ => ?_
  have e : NormedSpace.exp ((Ts - t) • toM g.N g.N g.A) * ((toM g.N g.L g.B * (covU • (toM g.N g.L g.B)ᵀ)) *
      NormedSpace.exp (((Ts - t) • toM g.N g.N g.A)ᵀ)) = covU • (NormedSpace.exp ((Ts - t) • toM g.N g.N g.A) *
        (toM g.N g.L g.B * (toM g.N g.L g.B)ᵀ) * (NormedSpace.exp ((Ts - t) • toM g.N g.N g.A))ᵀ) := by
    rw [Matrix.exp_transpose, Matrix.mul_smul, Matrix.smul_mul, Matrix.mul_smul]
    simp only [Matrix.mul_assoc]
  exact congrFun (congrFun e i) j

theorem exp_isUnit (A : Matrix (Fin N) (Fin N) ℝ) : IsUnit (NormedSpace.exp A) := Matrix.isUnit_exp A

/-! ### The rounds -/

/-- What the batches of an estimator need. -/
structure Sound (f : Est N N M L) : Prop where
  CT : f.CTᵀ = f.CT
  Af : IsUnit f.pre.Af
  Vu : f.pre.Vu.PosSemidef
  K1 : 0 < f.K1

/-- What they need of the prior. -/
structure Proper (p : Prior N P) : Prop where
  V : p.V.PosDef
  s1 : ∀ l, 0 < p.s1 l
  s2 : ∀ l, 0 < p.s2 l

theorem base_ready {f : Est N N M L} (hf : Sound f) {p : Prior N N} (hp : Proper p) (w : ℕ → Fin M → ℝ) :
    Ready f (base p w) := by
  refine ⟨hf.CT, hf.Af, hf.Vu, by have := hf.K1; unfold Est.K3; omega, hp.V, ?_, ?_⟩ <;> intro k l
  · show 0 < (if k = 0 then p.s1 else fun _ => 1) l
    split
    · exact hp.s1 l
    · exact one_pos
  · show 0 < (if k = 0 then p.s2 else fun _ => 1) l
    split
    · exact hp.s2 l
    · exact one_pos

theorem bounds_pos (f : Est N P M L) (st : State N P M L) (k : ℕ) (l : Fin P) :
    0 < (f.bounds st).s1 k l ∧ 0 < (f.bounds st).s2 k l := by
  have : (0 : ℝ) < (10 : ℝ) ^ (-100 : ℤ) := by positivity
  exact ⟨lt_of_lt_of_le this (le_max_right _ _), lt_of_lt_of_le this (le_max_right _ _)⟩

/-- The state from which a round starts. -/
noncomputable def entry (f : Est N P M L) (p : Prior N P) (w : ℕ → Fin M → ℝ) : ℕ → State N P M L
  | 0 => base p w
  | i + 1 => f.bounds (solved f i p w)

theorem round {f : Est N N M L} (hf : Sound f) {p : Prior N N} (hp : Proper p) (w : ℕ → Fin M → ℝ) : ∀ i,
    f.solve i (base p w) = .ok (solved f i p w) ∧ Pass f (entry f p w i) (solved f i p w) ∧ Ready f (entry f p w i) ∧
      (entry f p w i).mean 0 = p.m ∧ (entry f p w i).cov 0 = p.V ∧ (entry f p w i).cs = w := by
  intro i
  induction i with
  | zero =>
    obtain ⟨r, hr, h⟩ := pass f _ (base_ready hf hp w)
    have e : f.solve 0 (base p w) = .ok r := hr
    have es : solved f 0 p w = r := by unfold solved; rw [e]
    rw [es]
    exact ⟨e, h, base_ready hf hp w, rfl, rfl, rfl⟩
  | succ i ih =>
    obtain ⟨h1, h2, h3, h4, h5, h6⟩ := ih
    have hready : Ready f (entry f p w (i + 1)) := by
      refine ⟨hf.CT, hf.Af, hf.Vu, h3.K3, ?_, fun k l => (bounds_pos f _ k l).1, fun k l => (bounds_pos f _ k l).2⟩
      show ((solved f i p w).cov 0).PosDef
      rw [h2.cov]
      exact h3.cov
    obtain ⟨r, hr, h⟩ := pass f _ hready
    have e : f.solve (i + 1) (base p w) = .ok r := by
      rw [Est.solve, h1]
      exact hr
    have es : solved f (i + 1) p w = r := by unfold solved; rw [e]
    rw [es]
    refine ⟨e, h, hready, ?_, ?_, ?_⟩
    · show (solved f i p w).mean 0 = _
      rw [h2.mean, h4]
    · show (solved f i p w).cov 0 = _
      rw [h2.cov, h5]
    · show (solved f i p w).cs = _
      rw [h2.cs, h6]

theorem after_proper {f : Est N N M L} (hf : Sound f) {p : Prior N N} (hp : Proper p) (w : ℕ → Fin M → ℝ) :
    Proper (after f p w) := by
  obtain ⟨-, h2, h3, -⟩ := round hf hp w f.iters
  refine ⟨h2.posDef _, fun l => ?_, fun l => ?_⟩
  · show 0 < (solved f f.iters p w).s1 _ l
    rw [h2.s1]
    exact h3.s1 _ l
  · show 0 < (solved f f.iters p w).s2 _ l
    rw [h2.s2]
    exact h3.s2 _ l

theorem prior_proper {f : Est N N M L} (hf : Sound f) (src : ℕ → Res (Fin M → ℝ)) : ∀ b, Proper (prior f src b) := by
  intro b
  induction b with
  | zero =>
    refine ⟨?_, fun _ => one_pos, fun _ => one_pos⟩
    exact PosDef.one.smul (by positivity)
  | succ b ih => exact after_proper hf ih _

/-- The smoothing problem that a batch solves. -/
def Solves (f : Est N P M L) (w : ℕ → Fin M → ℝ) (p : Prior N P) (q : Window N P L) : Prop :=
  q.C = f.CT ∧ q.B = f.B ∧ q.b = f.bound ∧ q.m0 = p.m ∧ q.V0 = p.V ∧ q.K = f.K3 ∧ 0 < q.w ∧ 0 ≤ q.T ∧
    f.pre.Af = NormedSpace.exp (q.T • q.A) ∧ f.pre.Vu = q.w • gram q.A q.B q.T ∧
    ∃ ψ : ℕ → ℝ → Fin N → ℝ, ∀ k < f.K3, Flow q.A (q.q k) 0 q.T (ψ k) ∧ ψ k 0 = 0 ∧ ψ k q.T = f.pre.Bf *ᵥ w k

theorem batch_rounds {f : Est N N M L} (hf : Sound f) {p : Prior N N} (hp : Proper p) {w : ℕ → Fin M → ℝ} {q : Window N N L}
    (h : Solves f w p q) (n : ℕ) :
    ∃ s1 s2 u x J, q.Rounds f.gamma ((10 : ℝ) ^ (-100 : ℤ)) n s1 s2 u x J ∧ s1 0 0 = p.s1 ∧ s2 0 0 = p.s2 ∧
      (∀ i ≤ n, ∀ u' x' J', q.Explained u' x' J' → q.quad (x i) (J i) + q.spread (s1 i) (s2 i) (x i) +
        ∑ k ∈ Finset.range q.K, ∑ l, ((q.y x' k l - q.y (x i) k l) ^ 2 / s1 i k l +
          (q.y x' k l - q.y (x i) k l) ^ 2 / s2 i k l) ≤ q.quad x' J' + q.spread (s1 i) (s2 i) x' ∧
        ∃ E, Integrates q.T (q.K - 1) (fun k t => (u' k t - u i k t) ⬝ᵥ (u' k t - u i k t)) E) ∧
      (∀ i ≤ n, (∀ k, k + 1 < q.K → u i k q.T = -(q.w • f.Bᵀ *ᵥ (solved f i p w).xi (k + 1))) ∧
        x i 0 0 - p.m = -(p.V *ᵥ (solved f i p w).xi 0)) ∧
      ∀ i ≤ n, ∀ k l, s1 i k l = (solved f i p w).s1 k l ∧ s2 i k l = (solved f i p w).s2 k l := by
  obtain ⟨hC, hB, hb, hm, hV, hK, hw, hT, hAf, hVu, ψ, hψ⟩ := h
  have hK3 : 0 < f.K3 := by have := hf.K1; unfold Est.K3; omega
  have hK' : q.K = (f.K3 - 1) + 1 := by omega
  have hex : ∀ i, ∃ u x J, (q.Smoothed (entry f p w i).s1 (entry f p w i).s2 u x J ∧
      (∀ u' x' J', q.Explained u' x' J' → q.quad x J + q.spread (entry f p w i).s1 (entry f p w i).s2 x +
        ∑ k ∈ Finset.range q.K, ∑ l, ((q.y x' k l - q.y x k l) ^ 2 / (entry f p w i).s1 k l +
          (q.y x' k l - q.y x k l) ^ 2 / (entry f p w i).s2 k l) ≤
            q.quad x' J' + q.spread (entry f p w i).s1 (entry f p w i).s2 x' ∧
        ∃ E, Integrates q.T (q.K - 1) (fun k t => (u' k t - u k t) ⬝ᵥ (u' k t - u k t)) E)) ∧
      (∀ k < q.K, x k 0 = (solved f i p w).mean k - (solved f i p w).cov k *ᵥ (solved f i p w).xi k) ∧
      ∀ k < f.K3 - 1, u k q.T = -(q.w • q.Bᵀ *ᵥ (solved f i p w).xi (k + 1)) := by
    intro i
    obtain ⟨-, hp2, hp3, h4, h5, h6⟩ := round hf hp w i
    refine smooth_optimal hK' hw hT (hV ▸ hp.V) hp3.s1 hp3.s2
      (fun k => (solved f i p w).mean k - (solved f i p w).cov k *ᵥ (solved f i p w).xi k) (solved f i p w).xi ψ
      (fun k hk => (hψ k (by omega)).1) (fun k hk => (hψ k (by omega)).2.1) ?_ ?_ ?_ ?_
    · rw [hm, hV, hp2.mean, hp2.cov, h4, h5]
      abel
    · have := hp2.last (f.K3 - 1) (by omega)
      rw [hC]
      unfold slope
      rw [hC, hb]
      exact this
    · intro k hk
      have := hp2.grad k (by omega)
      rw [hC, ← hAf]
      unfold slope
      rw [hC, hb]
      exact this
    · intro k hk
      have := hp2.step k (by omega)
      rw [(hψ k (by omega)).2.2, ← hAf, ← hVu]
      rw [h6] at this
      exact this
  choose u x J hS hx hu using hex
  refine ⟨fun i => (entry f p w i).s1, fun i => (entry f p w i).s2, u, x, J, ⟨?_, fun i _ => (hS i).1, ?_⟩, rfl, rfl,
    fun i _ => (hS i).2, ?_, ?_⟩
  · intro k hk _ l
    show (if k = 0 then p.s1 else fun _ => 1) l = 1 ∧ (if k = 0 then p.s2 else fun _ => 1) l = 1
    rw [if_neg (by omega), if_neg (by omega)]
    exact ⟨rfl, rfl⟩
  · intro i _ k hk l
    have e : q.y (x i) k l = (f.CT *ᵥ ((solved f i p w).mean k - (solved f i p w).cov k *ᵥ (solved f i p w).xi k)) l := by
      rw [Window.y, hx i k hk, hC]
    rw [e, hb]
    exact ⟨rfl, rfl⟩
  · intro i _
    refine ⟨fun k hk => ?_, ?_⟩
    · rw [hu i k (by omega), hB]
    · obtain ⟨-, hp2, hp3, h4, h5, h6⟩ := round hf hp w i
      rw [hx i 0 (by omega), hp2.mean, hp2.cov, h4, h5]
      abel
  · intro i _ k l
    obtain ⟨-, hp2, -⟩ := round hf hp w i
    rw [hp2.s1, hp2.s2]
    exact ⟨rfl, rfl⟩

end Cbadc.Nuv
