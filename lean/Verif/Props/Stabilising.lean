import Verif.Lemmas.Decay
import Verif.Lemmas.Reachable
import Verif.Props.Riccati
import Verif.Props.EndToEnd

/-! # Filters from stabilising solutions of the Riccati equations, by whichever solver (C144) -/

namespace Cbadc.Filter

open Matrix Set Filter.Spec Cbadc.Analog Cbadc.Analog.Spec Cbadc.Control Cbadc.Estimator

section
variable {N P : ℕ} {A : Matrix (Fin N) (Fin N) ℝ} {B : Matrix (Fin N) (Fin P) ℝ} {Q : Matrix (Fin N) (Fin N) ℝ}
  {R : Matrix (Fin P) (Fin P) ℝ} {V : Matrix (Fin N) (Fin N) ℝ}

/-- **C144** There is at most one stabilising solution of the Riccati equation, whichever way it is found, and it is positive definite
if all states matter. -/
theorem C144_stabilising (h : IsStabilising A B Q R V) (hQ : Q.PosSemidef) (hR : R.PosDef) (oQ : Observable Q A) :
    (∀ V', IsStabilising A B Q R V' → V' = V) ∧ V.PosDef := by
  refine ⟨fun V' h' => ?_, care_posDef h.care hQ (care_nonneg h.care hQ hR (hurwitz_decay h.stable)) oQ⟩
  have hG : (B * R⁻¹ * Bᵀ)ᵀ = B * R⁻¹ * Bᵀ := by
    simpa [conjTranspose_eq_transpose_of_trivial] using (ccG_psd (B := B) hR).1.eq
  have hd := hurwitz_decay h.stable
  have hd' := hurwitz_decay h'.stable
  have e := h.care.eq
  have e' := h'.care.eq
  rw [care_reassoc] at e e'
  have s := h.care.symm
  have s' := h'.care.symm
  generalize B * R⁻¹ * Bᵀ = g at hG hd hd' e e'
  have hX : (A - g * V')ᵀ * (V' - V) = -((V' - V) * (A - g * V)) := by
    have : (A - g * V')ᵀ * (V' - V) + (V' - V) * (A - g * V) =
        (Aᵀ * V' + V' * A - V' * g * V' + Q) - (Aᵀ * V + V * A - V * g * V + Q) := by
      rw [transpose_sub, transpose_mul, s', hG]
      simp only [Matrix.mul_sub, Matrix.sub_mul, Matrix.mul_assoc]
      abel
    rw [e, e', sub_zero] at this
    exact eq_neg_of_add_eq_zero_left this
  have hc : ∀ t : ℝ, (NormedSpace.exp (t • (A - g * V')))ᵀ * (V' - V) * NormedSpace.exp (t • (A - g * V)) = V' - V := by
    intro t
    let _ : NormedRing (Matrix (Fin N) (Fin N) ℝ) := Matrix.linftyOpNormedRing
    let _ : NormedAlgebra ℝ (Matrix (Fin N) (Fin N) ℝ) := Matrix.linftyOpNormedAlgebra
    let _ : NormedAlgebra ℚ (Matrix (Fin N) (Fin N) ℝ) := NormedAlgebra.restrictScalars ℚ ℝ _
    have hs : SemiconjBy (V' - V) (t • (A - g * V)) (-(t • (A - g * V')ᵀ)) := by
      show (V' - V) * (t • (A - g * V)) = -(t • (A - g * V')ᵀ) * (V' - V)
      rw [Matrix.mul_smul, Matrix.neg_mul, Matrix.smul_mul, hX, smul_neg, neg_neg]
    have := hs.exp_neg_mul_mul_exp_eq_self
    rw [neg_neg] at this
    rw [← Matrix.exp_transpose, transpose_smul]
    exact this
  have hl : Filter.Tendsto (fun t : ℝ => (NormedSpace.exp (t • (A - g * V')))ᵀ * (V' - V) * NormedSpace.exp (t • (A - g * V)))
      Filter.atTop (nhds (0ᵀ * (V' - V) * 0)) := by
    have h1 := ((continuous_id.matrix_transpose (X := Matrix (Fin N) (Fin N) ℝ)).tendsto 0).comp hd'
    exact (h1.mul tendsto_const_nhds).mul hd
  have h0 : V' - V = 0 := by
    rw [Matrix.mul_zero] at hl
    exact tendsto_nhds_unique (tendsto_const_nhds (x := V' - V) (f := Filter.atTop (α := ℝ))) (hl.congr hc)
  exact sub_eq_zero.1 h0

end

section
variable {M : ℕ} {g : Sys ℝ} {G : ℕ → ℕ → ℝ} {dc : DC ℝ M} {eta2 : ℝ} {Vf Vb : Matrix (Fin g.N) (Fin g.N) ℝ}
  {c : Coeffs ℝ g.N M g.L}

/-- **C144** For an analog system whose states can all be reached from the inputs and all be seen in the outputs, and
stabilising solutions of the two Riccati equations: both are positive definite, both filters are stable, and their powers vanish. -/
theorem C144_filters (hf : IsStabilising (careA g) (careB g) (careQ g) (careR g eta2) Vf)
    (hb : IsStabilising (-careA g) (careB g) (careQ g) (careR g eta2) Vb) (he : 0 < eta2)
    (hc : Observable (toM g.N g.L g.B)ᵀ (toM g.N g.N g.A)ᵀ) :
    Cares g eta2 Vf Vb ∧ Vf.PosDef ∧ Vb.PosDef ∧ Hurwitz (tempAf g eta2 Vf) ∧ Hurwitz (-tempAb g eta2 Vb) ∧
    ∀ T, 0 < T → Common g T eta2 Vf Vb c →
      Filter.Tendsto (fun k : ℕ => c.Af ^ k) Filter.atTop (nhds 0) ∧ Filter.Tendsto (fun k : ℕ => c.Ab ^ k) Filter.atTop (nhds 0) := by
  have o1 : Observable (careQ g) (careA g) := hc.gram
  have hF : Hurwitz (tempAf g eta2 Vf) := by
    rw [← closed_f hf.care.symm]
    exact hf.stable.transpose
  have hB : Hurwitz (-tempAb g eta2 Vb) := by
    rw [← closed_b hb.care.symm]
    exact hb.stable.transpose
  refine ⟨⟨hf.care, hb.care⟩, (C144_stabilising hf careQ_psd (careR_posDef he) o1).2,
    (C144_stabilising hb careQ_psd (careR_posDef he) o1.neg).2, hF, hB, fun T hT h => ?_⟩
  have key : ∀ X : Matrix (Fin g.N) (Fin g.N) ℝ, Hurwitz X →
      Filter.Tendsto (fun k : ℕ => NormedSpace.exp (T • X) ^ k) Filter.atTop (nhds 0) := by
    intro X hX
    have h1 : Filter.Tendsto (fun k : ℕ => (k : ℝ) * T) Filter.atTop Filter.atTop :=
      tendsto_natCast_atTop_atTop.atTop_mul_const hT
    refine ((hurwitz_decay hX).comp h1).congr fun k => ?_
    show NormedSpace.exp (((k : ℝ) * T) • X) = _
    rw [mul_smul, ← Matrix.exp_nsmul, Nat.cast_smul_eq_nsmul]
  rw [h.Af, h.Ab]
  exact ⟨key _ hF, key _ hB⟩

end

/-- the two integrators of `C98_defective_false`, where the analytical solver fails, meet the hypotheses with the solution that
the other solver finds -/
example : (!![√2 / 3, 1 / 6; 1 / 6, √2 / 6] : Matrix (Fin 2) (Fin 2) ℝ).PosDef := by
  refine (C144_stabilising exDouble_stabilising careQ_psd (careR_posDef (by norm_num)) (Spec.Observable.gram ?_)).2
  intro μ x hx h1 h2
  have a := congrFun h2 0
  have b := congrFun h1 0
  refine hx (funext fun i => ?_)
  simp [mulVec, dotProduct, toM, Fin.sum_univ_two] at a b
  fin_cases i
  · exact a
  · simpa [a, exDouble_careA] using b

end Cbadc.Filter

namespace Cbadc.EndToEnd

open Matrix Set Filter.Spec Cbadc.Analog Cbadc.Analog.Spec Cbadc.Control Cbadc.Estimator Cbadc.Simulate Cbadc.Filter Cbadc.Streams

/-- **C144** All states of a chain of integrators can be reached from its input exactly if no gain `beta_n` is zero, and all are seen
in its outputs. -/
theorem C144_chain (beta rho : List ℝ) (kappa : ℕ → ℕ → ℝ) (hb : beta ≠ []) (hr : rho.length = beta.length) (g : Sys ℝ)
    (h : chainOfIntegrators beta rho (.mat beta.length 1 kappa) = .ok g) :
    (Observable (toM g.N g.L g.B)ᵀ (toM g.N g.N g.A)ᵀ ↔ ∀ b ∈ beta, b ≠ 0) ∧ Observable (toM g.Nt g.N g.CT) (toM g.N g.N g.A) := by
  obtain ⟨g', h1, h2⟩ := C60_chain beta rho kappa hb hr
  have hG := chain_eq beta rho hb hr kappa
  rw [h] at h1 hG
  obtain rfl := Except.ok.inj h1
  have hG := congrArg Sys.Gamma (Except.ok.inj hG)
  have hN := h2.n
  rw [← hN] at h2
  exact ⟨net_reachable_iff hG h2 hN, net_observable h2⟩

/-- **C144** The same holds for a leap-frog structure, whatever the couplings `alpha_n`. -/
theorem C144_leap_frog (beta alpha rho : List ℝ) (kappa : ℕ → ℕ → ℝ) (hb : beta ≠ []) (ha : alpha.length + 1 = beta.length)
    (hr : rho.length = beta.length) (g : Sys ℝ) (h : leapFrog beta alpha rho (.mat beta.length 1 kappa) = .ok g) :
    (Observable (toM g.N g.L g.B)ᵀ (toM g.N g.N g.A)ᵀ ↔ ∀ b ∈ beta, b ≠ 0) ∧ Observable (toM g.Nt g.N g.CT) (toM g.N g.N g.A) := by
  obtain ⟨g', h1, h2⟩ := C61_leap_frog beta alpha rho kappa hb ha hr
  have hG := leap_eq beta alpha rho hb ha hr kappa
  rw [h] at h1 hG
  obtain rfl := Except.ok.inj h1
  have hG := congrArg Sys.Gamma (Except.ok.inj hG)
  have hN := h2.n
  rw [← hN] at h2
  exact ⟨net_reachable_iff hG h2 hN, net_observable h2⟩

example : ∃ g, chainOfIntegrators [1, 2] [0, -1] (.mat 2 1 fun _ _ => -1) = .ok g ∧ ∀ b ∈ [(1 : ℝ), 2], b ≠ 0 :=
  ⟨_, chain_eq [1, 2] [0, -1] (by simp) rfl _, by norm_num⟩

example : ∃ g, leapFrog [1, 2] [-3] [0, -1] (.mat 2 1 fun _ _ => -1) = .ok g ∧ ¬ ∀ b ∈ [(1 : ℝ), 0], b ≠ 0 :=
  ⟨_, leap_eq [1, 2] [-3] [0, -1] (by simp) rfl rfl _, by norm_num⟩

/-- **C144** With C143: a simulated chain of integrators, whose gains are not zero, and the estimator with the filters from stabilising
solutions of the Riccati equations. -/
theorem C144_converter (beta rho : List ℝ) (kappa : ℕ → ℕ → ℝ) (hb : beta ≠ []) (hrl : rho.length = beta.length) (hb0 : ∀ b ∈ beta, b ≠ 0)
    (cfg : Cfg beta.length) (hsys : chainOfIntegrators beta rho (.mat beta.length 1 kappa) = .ok cfg.sys)
    (T tt2 : ℝ) (hT : 0 < T) (h2 : 0 ≤ tt2) (hdc : DC.new T tt2 beta.length none 0 none = .ok cfg.dc) (hin : cfg.hasInput = true)
    (hu : ∀ k t, |cfg.input k t 0| ≤ 1) (hcont : ∀ k l, Continuous fun t => cfg.input k t l)
    (hκ : ∀ n < beta.length, kappa n 0 ≠ 0) (hrho : ∀ n < beta.length, rho.getD n 0 ≤ 0)
    (hdom : ∀ n < beta.length, |beta.getD n 0| ≤ |kappa n 0|) (hκT : ∀ n < beta.length, |kappa n 0| * T ≤ 1 / 2)
    (st : ℕ → St beta.length) (φ : ℕ → ℝ → ℕ → ℝ) (hrun : Run cfg st φ) (hbox : InBox beta.length (st 0).x)
    {G : ℕ → ℕ → ℝ} (hG : cfg.sys.Gamma = some G) {eta2 : ℝ} {Vf Vb : Matrix (Fin cfg.sys.N) (Fin cfg.sys.N) ℝ} (he : 0 < eta2)
    (hf : IsStabilising (careA cfg.sys) (careB cfg.sys) (careQ cfg.sys) (careR cfg.sys eta2) Vf)
    (hb' : IsStabilising (-careA cfg.sys) (careB cfg.sys) (careQ cfg.sys) (careR cfg.sys eta2) Vb)
    {c : Coeffs ℝ cfg.sys.N beta.length cfg.sys.L} (hcm : Common cfg.sys T eta2 Vf Vb c) (hrg : Regular cfg.sys G cfg.dc eta2 Vf Vb c)
    (K : ℕ) :
    ∃ u, (∀ k ≤ K, u k 0 = Cbadc.Spec.future c.WT c.Ab c.Bb (Cbadc.Spec.ext fun k => signal (st (k + 1)).c) k (K - k) -
        Cbadc.Spec.past c.WT c.Af c.Bf (Cbadc.Spec.ext fun k => signal (st (k + 1)).c) k k) ∧
      ErrorWithin (toM cfg.sys.N cfg.sys.N cfg.sys.A) (toM cfg.sys.N cfg.sys.L cfg.sys.B) (toM cfg.sys.Nt cfg.sys.N cfg.sys.CT) T K
        (fun k t l => cfg.input ((st k).ticks + 1) (t + (st k).t) l) u
        (K * T * (eta2 + beta.length) + eta2 * (∑ i, ∑ j, |Vf⁻¹ i j| + ∑ i, ∑ j, |Vb⁻¹ i j|)) := by
  have hreach := (C144_chain beta rho kappa hb hrl cfg.sys hsys).1.2 hb0
  obtain ⟨hcare, pf, pb, -, -, -⟩ := C144_filters (c := c) hf hb' he hreach
  refine C143_chain beta rho kappa hb hrl cfg hsys T tt2 hT h2 hdc hin hu hcont hκ hrho hdom hκT st φ hrun hbox hG ⟨hcare, ?_, hrg⟩ he pf pb K
  rw [plain_T T tt2 cfg.dc hdc]
  exact hcm

/-- the filters of the integrator of `ex_within` come from stabilising solutions -/
theorem chain_stabilising : IsStabilising (careA exChain) (careB exChain) (careQ exChain) (careR exChain 1) 1 ∧
    IsStabilising (-careA exChain) (careB exChain) (careQ exChain) (careR exChain 1) 1 := by
  have hA : careA exChain = 0 := by rw [careA, chain_A, transpose_zero]
  have hS : careB exChain * (careR exChain 1)⁻¹ * (careB exChain)ᵀ = 1 := by rw [cct_careB]; exact chain_cct
  have hh : Hurwitz (-1 : Matrix (Fin exChain.N) (Fin exChain.N) ℝ) := by
    intro μ x hx h
    have h1 := congrFun h 0
    have h0 : x 0 ≠ 0 := fun h0 => hx (funext fun i => by obtain rfl : i = 0 := Subsingleton.elim _ _; exact h0)
    simp [mulVec, dotProduct] at h1
    have h2 : (μ + 1) * x 0 = 0 := by linear_combination -h1
    rw [show μ = -1 by linear_combination (mul_eq_zero.1 h2).resolve_right h0]
    norm_num
  refine ⟨⟨chain_cares.f, ?_⟩, chain_cares.b, ?_⟩
  · rw [hS, hA, Matrix.mul_one, zero_sub]
    exact hh
  · rw [hS, hA, Matrix.mul_one, neg_zero, zero_sub]
    exact hh

end Cbadc.EndToEnd
