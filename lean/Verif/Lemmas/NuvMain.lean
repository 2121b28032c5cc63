import Verif.Lemmas.NuvDescent
import Verif.Lemmas.NuvEnds

/-! Helper lemmas for the NUV estimator: what its results mean. -/

namespace Cbadc.Nuv

open Matrix Set Cbadc.Analog Cbadc.Control Cbadc.Estimator Cbadc.Streams Cbadc.Filter Cbadc.Filter.Spec Cbadc.Nuv.Spec

variable {N P M L : ℕ}

theorem new_ok {g : Sys ℝ} {pre : Pre g.N M} {covU bound gamma : ℝ} {K1 K2 iters os : ℕ} {f : Est g.N g.Nt M g.L}
    (h : Est.new g pre covU bound gamma K1 K2 iters os = .ok f) : 0 < K1 ∧ 0 < os ∧
      f = ⟨pre, toM g.N g.L g.B, toM g.Nt g.N g.CT, covU, bound, gamma, K1, K2, iters, os⟩ := by
  unfold Est.new at h
  by_cases h1 : (K1 : ℤ) < 1
  · rw [if_pos h1] at h; cases h
  rw [if_neg h1] at h
  by_cases h2 : (K2 : ℤ) < 0
  · rw [if_pos h2] at h; cases h
  rw [if_neg h2] at h
  by_cases h3 : os = 0
  · rw [if_pos h3] at h; cases h
  rw [if_neg h3] at h
  refine ⟨by omega, by omega, ?_⟩
  have := (Except.ok.inj h).symm
  simpa using this

theorem call_smoothed (f : Est N P M L) (hP : P = N)
    (hsym : ∀ i j : Fin N, f.CT (Fin.cast hP.symm i) j = f.CT (Fin.cast hP.symm j) i) (hAf : IsUnit f.pre.Af)
    (hVu : f.pre.Vu.PosSemidef) (hf : Fits f) (hu : f.covU ≠ 0) (src : ℕ → Res (Fin M → ℝ)) (b : ℕ)
    (ho : ∀ i < before f (b + 1), ∃ s, src i = .ok s) (q : (Fin N → ℝ) → Matrix (Fin N) (Fin N) ℝ → Window N P L)
    (hq : ∀ p : Prior N P, Solves f (window f src b) p (q p.m p.V)) (hw : ∀ m V, (q m V).w = f.covU ^ 2) :
    ∃ m0 V0, V0.PosDef ∧ (b = 0 → m0 = 0 ∧ V0 = (10 : ℝ) ^ 12 • (1 : Matrix (Fin N) (Fin N) ℝ)) ∧
      ∃ s1 s2 u x J, (q m0 V0).Rounds f.gamma ((10 : ℝ) ^ (-100 : ℤ)) f.iters s1 s2 u x J ∧
        (b = 0 → ∀ l, s1 0 0 l = 1 ∧ s2 0 0 l = 1) ∧
        (∀ i ≤ f.iters, ∀ u' x' J', (q m0 V0).Explained u' x' J' →
          (q m0 V0).quad (x i) (J i) + (q m0 V0).spread (s1 i) (s2 i) (x i) +
          ∑ k ∈ Finset.range (q m0 V0).K, ∑ l, (((q m0 V0).y x' k l - (q m0 V0).y (x i) k l) ^ 2 / s1 i k l +
            ((q m0 V0).y x' k l - (q m0 V0).y (x i) k l) ^ 2 / s2 i k l) ≤
              (q m0 V0).quad x' J' + (q m0 V0).spread (s1 i) (s2 i) x' ∧
          ∃ E, Integrates (q m0 V0).T ((q m0 V0).K - 1) (fun k t => (u' k t - u i k t) ⬝ᵥ (u' k t - u i k t)) E) ∧
        (∀ j, 0 < j → j < f.K1 →
          call (f.next src) f.init (b * f.K1 + j) = .ok ((1 / f.covU) • u f.iters (j - 1) (q m0 V0).T)) ∧
        call (f.next src) f.init (b * f.K1) = .ok (f.covU • f.Bᵀ *ᵥ (V0⁻¹ *ᵥ (x f.iters 0 0 - m0))) := by
  subst hP
  have hS : Sound f := by
    refine ⟨?_, hAf, hVu, hf.K1⟩
    ext i j
    exact (hsym i j).symm
  have hp := prior_proper hS src b
  obtain ⟨s1, s2, u, x, J, hR, h1, h2, hst, hux, -⟩ := batch_rounds hS hp (hq (prior f src b)) f.iters
  have hc := call_out f hf rfl src b (fun i hi => Or.inr (ho i hi))
    (fun i hi => ho i (lt_of_lt_of_le hi (before_mono f b)))
  refine ⟨(prior f src b).m, (prior f src b).V, hp.V, ?_, s1, s2, u, x, J, hR, ?_, hst, ?_, ?_⟩
  · rintro rfl
    exact ⟨rfl, rfl⟩
  · rintro rfl l
    rw [h1, h2]
    exact ⟨rfl, rfl⟩
  · intro j hj hj'
    obtain ⟨i, rfl⟩ : ∃ i, j = i + 1 := ⟨j - 1, by omega⟩
    rw [hc _ hj', Nat.add_sub_cancel, (hux f.iters le_rfl).1 i (by
      obtain ⟨-, -, -, -, -, hK, -⟩ := hq (prior f src b)
      rw [hK]
      unfold Est.K3
      omega), hw]
    refine congrArg _ ?_
    rw [out, smul_neg, smul_smul]
    congr 2
    field_simp
  · have e := hc 0 hf.K1
    rw [add_zero] at e
    rw [e, (hux f.iters le_rfl).2, mulVec_neg, mulVec_mulVec,
      nonsing_inv_mul _ ((isUnit_iff_isUnit_det _).1 hp.V.isUnit), one_mulVec, mulVec_neg, smul_neg]
    rfl

theorem prior_solves {g : Sys ℝ} {G : ℕ → ℕ → ℝ} {dc : DC ℝ M} {pre : Pre g.N M} {covU bound gamma : ℝ}
    {K1 K2 iters os : ℕ} (hc : Computed g G dc covU (sampleTime dc.T none os) pre) (hT : 0 ≤ dc.T) (hu : covU ≠ 0)
    (hos : 0 < os) (hK1 : 0 < K1) (h1 : os ∣ K1) (h2 : os ∣ K2)
    (hwave : ∀ m, ∀ i < os, ∀ t ∈ Ico 0 (dc.T / os), (dc.ir m).f (i * (dc.T / os) + t) = (dc.ir m).f t)
    (src : ℕ → Res (Fin M → ℝ)) (s : ℕ → Fin M → ℝ) (b : ℕ) (hs : ∀ i < (b * K1 + (K1 + K2)) / os, src i = .ok (s i))
    (p : Prior g.N g.Nt) :
    Solves (⟨pre, toM g.N g.L g.B, toM g.Nt g.N g.CT, covU, bound, gamma, K1, K2, iters, os⟩ : Est g.N g.Nt M g.L)
      (window (⟨pre, toM g.N g.L g.B, toM g.Nt g.N g.CT, covU, bound, gamma, K1, K2, iters, os⟩ : Est g.N g.Nt M g.L) src b) p
      (problem (toM g.N g.N g.A) (toM g.N g.L g.B) (toM g.Nt g.N g.CT) (toM g.N M G) (fun m t => (dc.ir m).f t) s (dc.T / os) os
        (b * K1) (K1 + K2) (covU ^ 2) bound p.m p.V) := by
  have hos' : (1 : ℝ) ≤ os := by exact_mod_cast hos
  have hos0 : (0 : ℝ) < os := by linarith
  have hle : dc.T / os ≤ dc.T := div_le_self hT hos'
  refine ⟨rfl, rfl, rfl, rfl, rfl, rfl, by show 0 < covU ^ 2; positivity, div_nonneg hT hos0.le, hc.Af, vu_eq hc, ?_⟩
  choose φ hφ hφ0 hφT using hc.Bf
  obtain ⟨f, hf⟩ : ∃ f : Est g.N g.Nt M g.L, f = ⟨pre, toM g.N g.L g.B, toM g.Nt g.N g.CT, covU, bound, gamma, K1, K2, iters, os⟩ :=
    ⟨_, rfl⟩
  have hfit : Fits f := by rw [hf]; exact ⟨hos, hK1, h1, h2⟩
  refine ⟨fun k t => ∑ m, valued (s ((b * K1 + k) / os)) m • φ m t, fun k hk => ⟨?_, ?_, ?_⟩⟩
  · refine (flow_superpose hφ (valued (s ((b * K1 + k) / os)))).congr fun t ht => ?_
    have ht' : t ∈ Ico 0 (dc.T / os) := ht
    rw [ir_sum dc _ _ ht'.1 (ht'.2.le.trans hle)]
    show _ = toM g.N M G *ᵥ fun m => (dc.ir m).f (((b * K1 + k) % os : ℕ) * (dc.T / os) + t) *
      (2 * s ((b * K1 + k) / os) m - 1)
    refine congrArg _ (funext fun m => ?_)
    rw [hwave m _ (Nat.mod_lt _ hos) t ht']
    rfl
  · show ∑ m, valued (s ((b * K1 + k) / os)) m • φ m 0 = 0
    exact Finset.sum_eq_zero fun m _ => by rw [hφ0, smul_zero]
  · have e : src ((b * K1 + k) / os) = .ok (s ((b * K1 + k) / os)) := by
      refine hs _ ?_
      have := index_lt f hfit b k (by rw [hf]; exact hk)
      rw [hf] at this
      exact this
    have e2 : window (⟨pre, toM g.N g.L g.B, toM g.Nt g.N g.CT, covU, bound, gamma, K1, K2, iters, os⟩ : Est g.N g.Nt M g.L)
        src b k = valued (s ((b * K1 + k) / os)) := by
      show valued (smp src ((b * K1 + k) / os)) = _
      rw [smp, e]
    rw [e2]
    exact sum_col pre.Bf (fun m => φ m (dc.T / os)) (fun m n => hφT m n) _

end Cbadc.Nuv
