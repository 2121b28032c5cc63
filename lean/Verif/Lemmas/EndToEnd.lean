import Verif.Lemmas.Principle
import Verif.Model.Simulator

/-! # Lemmas: a simulation is a run of the converter (C143) -/

namespace Cbadc.EndToEnd

open Matrix Set Filter.Spec Cbadc.Analog Cbadc.Control Cbadc.Estimator Cbadc.Simulate Cbadc.Filter

theorem toM_mulVec {r c : ℕ} (A : ℕ → ℕ → ℝ) (x : ℕ → ℝ) (i : Fin r) : (toM r c A *ᵥ fun j => x j) i = dot c A x i := by
  simp only [Matrix.mulVec, dotProduct, toM, Matrix.of_apply, dot]
  exact Fin.sum_univ_eq_sum_range (fun j => A i j * x j) c

theorem derivative_eq {g : Sys ℝ} {G : ℕ → ℕ → ℝ} (hG : g.Gamma = some G) {x u s d : Vec ℝ} (h : g.derivative x u s = .ok d) :
    s.len = g.M ∧ ∀ n, d.v n = dot g.N g.A x.v n + dot g.L g.B u.v n + dot g.M G s.v n := by
  unfold Sys.derivative at h
  rw [hG] at h
  unfold npDot at h
  by_cases h1 : x.len ≠ g.N
  · rw [if_pos h1] at h; cases h
  rw [if_neg h1] at h
  by_cases h2 : u.len ≠ g.L
  · rw [if_pos h2] at h; cases h
  rw [if_neg h2] at h
  dsimp only [bind, Except.bind] at h
  by_cases h3 : s.len ≠ g.M
  · rw [if_pos h3] at h; cases h
  rw [if_neg h3] at h
  cases h
  exact ⟨not_not.1 h3, fun n => rfl⟩

/-- the exact trajectories of a simulation explain its decisions -/
theorem run_explains {M : ℕ} {cfg : Cfg M} {G : ℕ → ℕ → ℝ} (hG : cfg.sys.Gamma = some G) (hin : cfg.hasInput = true)
    {st : ℕ → St M} {φ : ℕ → ℝ → ℕ → ℝ} (hr : Run cfg st φ) (K : ℕ) :
    Explains (toM cfg.sys.N cfg.sys.N cfg.sys.A) (toM cfg.sys.N cfg.sys.L cfg.sys.B)
      (fun k t => toM cfg.sys.N M G *ᵥ contribution cfg.dc (st (k + 1)).c t) cfg.dc.T K
      (fun k t l => cfg.input ((st k).ticks + 1) (t + (st k).t) l) (fun k t n => φ k t n) := by
  refine ⟨fun k _ => ⟨continuousOn_pi.2 fun n => (hr k).cont n n.2, fun t ht => hasDerivWithinAt_pi.2 fun n => ?_⟩, fun k _ => ?_⟩
  · obtain ⟨d, hd, hn⟩ := (hr k).ode t ht
    unfold Cfg.rhs at hd
    rw [hin, if_pos rfl] at hd
    obtain ⟨hM, hv⟩ := derivative_eq hG hd
    have hM : M = cfg.sys.M := hM
    refine (hn n n.2).congr_deriv ?_
    rw [hv, Pi.add_apply, Pi.add_apply, toM_mulVec, toM_mulVec _ (fun l => cfg.input ((st k).ticks + 1) (t + (st k).t) l), ← add_assoc]
    refine congrArg _ ?_
    have := toM_mulVec (r := cfg.sys.N) (c := M) G (asVec (contribution cfg.dc (st (k + 1)).c t)).v n
    rw [← hM, ← this]
    refine congrFun (congrArg _ (funext fun m => ?_)) n
    show (if h : (m : ℕ) < M then _ else 0) = _
    rw [dif_pos m.2]
  · funext n
    rw [← (hr k).stop n n.2, ← (hr (k + 1)).start n n.2]

/-- after every period the stored decisions are what the control applies -/
theorem run_valued {M : ℕ} {cfg : Cfg M} (h0 : ∀ m, (cfg.dc.ir m).t0 = 0) (h2 : 0 ≤ cfg.dc.tt2) {st : ℕ → St M} {φ : ℕ → ℝ → ℕ → ℝ}
    (hr : Run cfg st φ) (k : ℕ) : (st (k + 1)).c.cur = valued (signal (st (k + 1)).c) := by
  have hd := (hr k).dec
  unfold Cfg.decide at hd
  split at hd
  · cases hd
  rename_i y hy
  by_cases hl : y.len < M
  · rw [if_pos hl] at hd; cases hd
  rw [if_neg hl, Except.ok.injEq] at hd
  rw [← hd]
  funext m
  have ha : allclose 0 (cfg.dc.ir m).t0 cfg.dc.tt2 := by
    rw [h0]
    unfold allclose
    simp [h2]
  show (if allclose 0 (cfg.dc.ir m).t0 cfg.dc.tt2 then _ else _) = 2 * (if allclose 0 (cfg.dc.ir m).t0 cfg.dc.tt2 then _ else _) - 1
  rw [if_pos ha, if_pos ha]

/-- continuous inputs and trajectories have an integrated power -/
theorem exists_power {N L P : ℕ} (C : Matrix (Fin P) (Fin N) ℝ) (eta2 : ℝ) {T : ℝ} (hT : 0 ≤ T) (K : ℕ) {v : ℕ → ℝ → Fin L → ℝ}
    {x : ℕ → ℝ → Fin N → ℝ} (hv : ∀ k < K, ContinuousOn (v k) (Icc 0 T)) (hx : ∀ k < K, ContinuousOn (x k) (Icc 0 T)) :
    ∃ J, Integrates T K (fun k t => power C eta2 (v k t) (x k t)) J := by
  have hJ : ∀ k, ∃ J : ℝ → ℝ, k < K → J 0 = 0 ∧ ContinuousOn J (Icc 0 T) ∧
      ∀ t ∈ Ico 0 T, HasDerivWithinAt J (power C eta2 (v k t) (x k t)) (Ici t) t := by
    intro k
    by_cases hk : k < K
    · obtain ⟨J, hJ⟩ := exists_integral hT ((continuousOn_dot (hv k hk) (hv k hk)).add
        (continuousOn_const.mul (continuousOn_dot (continuousOn_mulVec C (hx k hk)) (continuousOn_mulVec C (hx k hk)))))
      exact ⟨J, fun _ => hJ⟩
    · exact ⟨0, fun h => absurd h hk⟩
  choose J hJ using hJ
  exact ⟨J, fun k hk => (hJ k hk).1, fun k hk => (hJ k hk).2.1, fun k hk => (hJ k hk).2.2⟩

/-- a quadratic form on the unit box -/
theorem quad_le {N : ℕ} (V : Matrix (Fin N) (Fin N) ℝ) {x : Fin N → ℝ} (hx : ∀ n, |x n| ≤ 1) : x ⬝ᵥ V *ᵥ x ≤ ∑ i, ∑ j, |V i j| := by
  unfold dotProduct
  refine Finset.sum_le_sum fun i _ => ?_
  simp only [Matrix.mulVec, dotProduct]
  rw [Finset.mul_sum]
  refine Finset.sum_le_sum fun j _ => ?_
  refine (le_abs_self _).trans ?_
  rw [abs_mul, abs_mul]
  have h1 := hx i
  have h2 := hx j
  have h3 := abs_nonneg (V i j)
  have h4 := abs_nonneg (x i)
  have h5 := abs_nonneg (x j)
  calc |x i| * (|V i j| * |x j|) = |V i j| * (|x i| * |x j|) := by ring
    _ ≤ |V i j| * 1 := mul_le_mul_of_nonneg_left (mul_le_one₀ h1 h5 h2) h3
    _ = |V i j| := mul_one _

theorem dot_le {N : ℕ} {x : Fin N → ℝ} (hx : ∀ n, |x n| ≤ 1) : x ⬝ᵥ x ≤ N := by
  unfold dotProduct
  refine (Finset.sum_le_sum fun i _ => show x i * x i ≤ 1 from ?_).trans ?_
  · have := hx i
    rw [← abs_mul_abs_self]
    exact mul_le_one₀ this (abs_nonneg _) this
  · simp

end Cbadc.EndToEnd
