import Verif.Lemmas.Riccati
import Verif.Props.FilterCoefficients

/-! # Properties of the solutions of the Riccati equations (C98) -/

namespace Cbadc.Filter

open Matrix Set Filter.Spec Cbadc.Analog Cbadc.Control Cbadc.Estimator Cbadc.Streams
open scoped ComplexOrder

section
variable {N P : ℕ} {A : Matrix (Fin N) (Fin N) ℝ} {B : Matrix (Fin N) (Fin P) ℝ} {Q : Matrix (Fin N) (Fin N) ℝ}
  {R : Matrix (Fin P) (Fin P) ℝ} {E : Matrix (Fin N ⊕ Fin N) (Fin N ⊕ Fin N) ℂ} {d : Fin N ⊕ Fin N → ℂ} {V : Matrix (Fin N) (Fin N) ℝ}

/-- **C98** The inversion in `care` does not raise. -/
theorem C98_invertible (h : EigBasis A B Q R E d) (hQ : Q.PosSemidef) (hR : R.PosDef) (oQ : Observable Q A) (oB : Observable Bᵀ Aᵀ) :
    IsUnit E.toBlocks₁₁.det := h.inv hQ hR oQ oB

/-- **C98** Whatever eigenvectors are found, `care` returns the one stabilising solution of the Riccati equation, and it is
positive definite. -/
theorem C98_care (h : EigCare A B Q R E d V) (hQ : Q.PosSemidef) (hR : R.PosDef) (oQ : Observable Q A) (oB : Observable Bᵀ Aᵀ) :
    IsStabilising A B Q R V ∧ (∀ V', IsStabilising A B Q R V' → V' = V) ∧ V.PosDef := by
  obtain ⟨h1, hd, h2⟩ := h.closed hQ hR oQ oB
  have hG : (B * R⁻¹ * Bᵀ)ᵀ = B * R⁻¹ * Bᵀ := by
    simpa [conjTranspose_eq_transpose_of_trivial] using (ccG_psd (B := B) hR).1.eq
  exact ⟨⟨h1, hurwitz_of_eig h2 h.inv hd⟩, fun V' h' => care_unique h1 hG h2 h.inv hd h',
    care_posDef h1 hQ (care_nonneg h1 hQ hR (exp_decay h2 h.inv hd)) oQ⟩

end

section
variable {M : ℕ} {g : Sys ℝ} {G : ℕ → ℕ → ℝ} {dc : DC ℝ M} {eta2 : ℝ} {Vf Vb : Matrix (Fin g.N) (Fin g.N) ℝ}
  {c : Coeffs ℝ g.N M g.L} {Ef Eb : Matrix (Fin g.N ⊕ Fin g.N) (Fin g.N ⊕ Fin g.N) ℂ} {df db : Fin g.N ⊕ Fin g.N → ℂ}

theorem careQ_psd : (careQ g).PosSemidef := by
  have := posSemidef_self_mul_conjTranspose (toM g.N g.L g.B)
  rwa [conjTranspose_eq_transpose_of_trivial] at this

theorem careR_posDef (he : 0 < eta2) : (careR g eta2).PosDef := PosDef.one.smul he

theorem Spec.Observable.neg {N P : ℕ} {C : Matrix (Fin P) (Fin N) ℝ} {A : Matrix (Fin N) (Fin N) ℝ} (h : Observable C A) : Observable C (-A) := by
  intro μ x hx he
  refine h (-μ) x hx ?_
  have h1 : cc (-A) *ᵥ x = μ • x := he
  rw [cc_neg, neg_mulVec] at h1
  rw [neg_smul, ← h1, neg_neg]
  rfl

theorem Spec.Observable.gram {N L : ℕ} {B : Matrix (Fin N) (Fin L) ℝ} {A : Matrix (Fin N) (Fin N) ℝ} (h : Observable Bᵀ A) : Observable (B * Bᵀ) A := by
  intro μ x hx he h0
  refine h μ x hx he ?_
  have h1 : cc (B * Bᵀ) *ᵥ x = 0 := h0
  have h2 : star (cc Bᵀ *ᵥ x) ⬝ᵥ (cc Bᵀ *ᵥ x) = 0 := by
    rw [star_mulVec, cc_conjTranspose, ← cc_transpose, transpose_transpose, ← dotProduct_mulVec, mulVec_mulVec, ← cc_mul, h1, dotProduct_zero]
  exact dotProduct_star_self_eq_zero.1 h2

theorem Spec.Hurwitz.transpose {N : ℕ} {X : Matrix (Fin N) (Fin N) ℝ} (h : Hurwitz X) : Hurwitz Xᵀ :=
  fun _ _ hx he => hurwitz_eigenvalue_transpose h hx he

theorem cct_careB : careB g * (careR g eta2)⁻¹ * (careB g)ᵀ = cct g eta2 := by
  rw [careB, transpose_transpose, cct, Matrix.mul_assoc]

theorem cct_transpose : (cct g eta2)ᵀ = cct g eta2 := by
  have hR : ((careR g eta2)⁻¹)ᵀ = (careR g eta2)⁻¹ := by
    rw [transpose_nonsing_inv, careR, transpose_smul, transpose_one]
  rw [cct, transpose_mul, transpose_mul, transpose_transpose, hR, Matrix.mul_assoc]

theorem closed_f (hs : Vfᵀ = Vf) : (careA g - careB g * (careR g eta2)⁻¹ * (careB g)ᵀ * Vf)ᵀ = tempAf g eta2 Vf := by
  rw [cct_careB, transpose_sub, transpose_mul, hs, cct_transpose, careA, transpose_transpose, tempAf]

theorem closed_b (hs : Vbᵀ = Vb) : (-careA g - careB g * (careR g eta2)⁻¹ * (careB g)ᵀ * Vb)ᵀ = -tempAb g eta2 Vb := by
  rw [cct_careB, transpose_sub, transpose_mul, hs, cct_transpose, careA, transpose_neg, transpose_transpose, tempAb, neg_add, sub_eq_add_neg]

/-- **C98** For an analog system whose states can all be reached from the inputs and all be seen in the control
observations, the two covariances are positive definite solutions of their equations, and both filters are stable: the
forward one forward in time and the backward one backward in time. -/
theorem C98_filters (hf : EigCare (careA g) (careB g) (careQ g) (careR g eta2) Ef df Vf)
    (hb : EigCare (-careA g) (careB g) (careQ g) (careR g eta2) Eb db Vb) (he : 0 < eta2)
    (hc : Observable (toM g.N g.L g.B)ᵀ (toM g.N g.N g.A)ᵀ) (ho : Observable (toM g.Nt g.N g.CT) (toM g.N g.N g.A)) :
    Cares g eta2 Vf Vb ∧ Vf.PosDef ∧ Vb.PosDef ∧ Hurwitz (tempAf g eta2 Vf) ∧ Hurwitz (-tempAb g eta2 Vb) := by
  have o1 : Observable (careQ g) (careA g) := hc.gram
  have o2 : Observable (careQ g) (-careA g) := o1.neg
  have o3 : Observable (careB g)ᵀ (careA g)ᵀ := by rw [careB, careA, transpose_transpose, transpose_transpose]; exact ho
  have o4 : Observable (careB g)ᵀ (-careA g)ᵀ := by rw [transpose_neg]; exact o3.neg
  obtain ⟨f1, -, f2⟩ := C98_care hf careQ_psd (careR_posDef he) o1 o3
  obtain ⟨b1, -, b2⟩ := C98_care hb careQ_psd (careR_posDef he) o2 o4
  refine ⟨⟨f1.care, b1.care⟩, f2, b2, ?_, ?_⟩
  · rw [← closed_f f1.care.symm]
    exact f1.stable.transpose
  · rw [← closed_b b1.care.symm]
    exact b1.stable.transpose

/-- **C98** The powers of the filter matrices vanish: what happened long ago, or will happen far ahead, does not matter. -/
theorem C98_decay (hf : EigCare (careA g) (careB g) (careQ g) (careR g eta2) Ef df Vf)
    (hb : EigCare (-careA g) (careB g) (careQ g) (careR g eta2) Eb db Vb) (he : 0 < eta2)
    (hc : Observable (toM g.N g.L g.B)ᵀ (toM g.N g.N g.A)ᵀ) (ho : Observable (toM g.Nt g.N g.CT) (toM g.N g.N g.A))
    {T : ℝ} (hT : 0 < T) (h : Common g T eta2 Vf Vb c) :
    Filter.Tendsto (fun k : ℕ => c.Af ^ k) Filter.atTop (nhds 0) ∧ Filter.Tendsto (fun k : ℕ => c.Ab ^ k) Filter.atTop (nhds 0) := by
  have o1 : Observable (careQ g) (careA g) := hc.gram
  have o2 : Observable (careQ g) (-careA g) := o1.neg
  have o3 : Observable (careB g)ᵀ (careA g)ᵀ := by rw [careB, careA, transpose_transpose, transpose_transpose]; exact ho
  have o4 : Observable (careB g)ᵀ (-careA g)ᵀ := by rw [transpose_neg]; exact o3.neg
  obtain ⟨f1, fd, f2⟩ := hf.closed careQ_psd (careR_posDef he) o1 o3
  obtain ⟨b1, bd, b2⟩ := hb.closed careQ_psd (careR_posDef he) o2 o4
  have key : ∀ X : Matrix (Fin g.N) (Fin g.N) ℝ,
      Filter.Tendsto (fun t : ℝ => NormedSpace.exp (t • X)) Filter.atTop (nhds 0) →
      Filter.Tendsto (fun k : ℕ => NormedSpace.exp (T • Xᵀ) ^ k) Filter.atTop (nhds 0) := by
    intro X hX
    have h1 : Filter.Tendsto (fun k : ℕ => (k : ℝ) * T) Filter.atTop Filter.atTop :=
      tendsto_natCast_atTop_atTop.atTop_mul_const hT
    have h2 := ((continuous_id.matrix_transpose (X := Matrix (Fin g.N) (Fin g.N) ℝ)).tendsto 0).comp (hX.comp h1)
    rw [id_eq, transpose_zero] at h2
    refine h2.congr fun k => ?_
    show (NormedSpace.exp (((k : ℝ) * T) • X))ᵀ = _
    rw [← Matrix.exp_transpose, transpose_smul, mul_smul, ← Matrix.exp_nsmul]
    rw [Nat.cast_smul_eq_nsmul]
  constructor
  · have := key _ (exp_decay f2 hf.inv fd)
    rwa [closed_f f1.symm, ← h.Af] at this
  · have := key _ (exp_decay b2 hb.inv bd)
    rwa [closed_b b1.symm, ← h.Ab] at this

/-- **C98** With C95: for such an analog system, the estimates are the samples of the input of least cost. -/
theorem C98_least_squares (hf : EigCare (careA g) (careB g) (careQ g) (careR g eta2) Ef df Vf)
    (hb : EigCare (-careA g) (careB g) (careQ g) (careR g eta2) Eb db Vb) (he : 0 < eta2)
    (hc : Observable (toM g.N g.L g.B)ᵀ (toM g.N g.N g.A)ᵀ) (ho : Observable (toM g.Nt g.N g.CT) (toM g.N g.N g.A))
    (h1 : Common g dc.T eta2 Vf Vb c) (h2 : Regular g G dc eta2 Vf Vb c) (hT : 0 ≤ dc.T)
    (hd : dc.tDelay = 0) (h0 : ∀ m, (dc.ir m).t0 = 0) (K : ℕ) (s : ℕ → Fin M → ℝ) (st : ℕ → State ℝ M)
    (hst : ∀ k, (st k).cur = valued (s k)) :
    ∃ u, IsLeastSquares (toM g.N g.N g.A) (toM g.N g.L g.B) (toM g.Nt g.N g.CT) eta2 Vf Vb
        (fun k t => toM g.N M G *ᵥ contribution dc (st k) t) dc.T K u ∧
      ∀ k ≤ K, u k 0 = Cbadc.Spec.future c.WT c.Ab c.Bb (Cbadc.Spec.ext s) k (K - k) -
        Cbadc.Spec.past c.WT c.Af c.Bf (Cbadc.Spec.ext s) k k := by
  obtain ⟨hcare, pf, pb, -, -⟩ := C98_filters hf hb he hc ho
  exact C95_least_squares ⟨hcare, h1, h2⟩ he hT pf pb hd h0 K s st hst

end

/-! ### the integrator -/

/-- eigenvectors of the Hamiltonian matrix of the integrator -/
def exE : Matrix (Fin 1 ⊕ Fin 1) (Fin 1 ⊕ Fin 1) ℂ := fromBlocks 1 1 1 (-1)

def exd : Fin 1 ⊕ Fin 1 → ℂ := Sum.elim (fun _ => -1) fun _ => 1

theorem ex_eig {A : Matrix (Fin 1) (Fin 1) ℝ} {B : Matrix (Fin 1) (Fin 1) ℝ} {Q : Matrix (Fin 1) (Fin 1) ℝ} {R : Matrix (Fin 1) (Fin 1) ℝ}
    (hA : A = 0) (hG : B * R⁻¹ * Bᵀ = 1) (hQ : Q = 1) : EigCare A B Q R exE exd 1 := by
  have e1 : (1 : Matrix (Fin 1) (Fin 1) ℂ).det = 1 := det_one
  refine ⟨⟨?_, ?_, ?_⟩, ?_, ?_⟩
  · rw [hamiltonian_eq, hA, hG, hQ, exE]
    have hd : diagonal exd = fromBlocks (-1) 0 0 1 := by
      ext i j
      rcases i with i | i <;> rcases j with j | j <;> simp [exd, Subsingleton.elim i j]
    rw [hd, fromBlocks_multiply, fromBlocks_multiply]
    simp [cc_zero, cc_one]
  · rw [exE, det_fromBlocks_one₁₁, det_unique]
    norm_num
  · intro i j
    simp [exd]
  · rw [exE, toBlocks_fromBlocks₁₁, det_one]
    exact isUnit_one
  · rw [exE, toBlocks_fromBlocks₁₁, toBlocks_fromBlocks₂₁]
    refine mat1_ext ?_
    simp
    norm_num

theorem ex_ctrl : Observable (toM (exSys 0).N (exSys 0).L (exSys 0).B)ᵀ (toM (exSys 0).N (exSys 0).N (exSys 0).A)ᵀ := by
  intro μ x hx _ h0
  refine hx (funext fun i => ?_)
  have := congrFun h0 0
  obtain rfl : i = 0 := Subsingleton.elim _ _
  simpa [mulVec, dotProduct, toM] using this

theorem ex_obs : Observable (toM (exSys 0).Nt (exSys 0).N (exSys 0).CT) (toM (exSys 0).N (exSys 0).N (exSys 0).A) := by
  intro μ x hx _ h0
  refine hx (funext fun i => ?_)
  have := congrFun h0 0
  obtain rfl : i = 0 := Subsingleton.elim _ _
  simpa [mulVec, dotProduct, toM] using this

theorem ex_eig_f : EigCare (careA (exSys 0)) (careB (exSys 0)) (careQ (exSys 0)) (careR (exSys 0) 1) exE exd 1 :=
  ex_eig (by rw [careA, ex_A, transpose_zero]) (by rw [cct_careB]; exact ex_cct) (mat1_ext (by simp [careQ, Matrix.mul_apply, toM]))

theorem ex_eig_b : EigCare (-careA (exSys 0)) (careB (exSys 0)) (careQ (exSys 0)) (careR (exSys 0) 1) exE exd 1 :=
  ex_eig (by rw [careA, ex_A, transpose_zero, neg_zero]) (by rw [cct_careB]; exact ex_cct)
    (mat1_ext (by simp [careQ, Matrix.mul_apply, toM]))

example : Hurwitz (tempAf (exSys 0) 1 1) := (C98_filters ex_eig_f ex_eig_b one_pos ex_ctrl ex_obs).2.2.2.1

example : IsUnit exE.toBlocks₁₁.det :=
  C98_invertible ex_eig_f.toEigBasis careQ_psd (careR_posDef one_pos) ex_ctrl.gram ex_obs

example : ∀ V', IsStabilising (careA (exSys 0)) (careB (exSys 0)) (careQ (exSys 0)) (careR (exSys 0) 1) V' → V' = 1 :=
  (C98_care ex_eig_f careQ_psd (careR_posDef one_pos) ex_ctrl.gram ex_obs).2.1

example : Filter.Tendsto (fun k : ℕ => (exC 0 1 2).Ab ^ k) Filter.atTop (nhds 0) :=
  (C98_decay ex_eig_f ex_eig_b one_pos ex_ctrl ex_obs one_pos (ex_common 1 2)).2

example (s : ℕ → Fin 1 → ℝ) (st : ℕ → State ℝ 1) (hst : ∀ k, (st k).cur = valued (s k)) :=
  C98_least_squares ex_eig_f ex_eig_b one_pos ex_ctrl ex_obs (ex_numerical (d := 0) 0).common (ex_numerical (d := 0) 0).regular
    zero_le_one rfl (fun _ => rfl) 100 s st hst

/-! ### two integrators -/

/-- Two integrators in a row, both states observed (an example, as in
`src/cbadc/analog_system/chain_of_integrators.py`). -/
noncomputable abbrev exDouble : Sys ℝ where
  N := 2
  L := 1
  M := 2
  Mt := 2
  Nt := 2
  A := fun i j => if i = 1 ∧ j = 0 then 1 else 0
  B := fun i _ => if i = 0 then 1 else 0
  CT := fun i j => if i = j then 1 else 0
  Gamma := some fun i j => if i = j then -1 else 0
  GammaT := some fun i j => if i = j then 1 else 0
  D := fun _ _ => 0
  Bt := fun _ _ => 0
  At := fun _ _ => 0

theorem exDouble_A : toM 2 2 exDouble.A = !![0, 0; 1, 0] := by
  ext i j
  fin_cases i <;> fin_cases j <;> simp [toM]

theorem exDouble_B : toM 2 1 exDouble.B = !![1; 0] := by
  ext i j
  fin_cases i <;> fin_cases j <;> simp [toM]

theorem exDouble_C : toM 2 2 exDouble.CT = 1 := by
  ext i j
  fin_cases i <;> fin_cases j <;> simp [toM]

theorem exDouble_R : (careR exDouble (1 / 4))⁻¹ = (4 : ℝ) • (1 : Matrix (Fin 2) (Fin 2) ℝ) := by
  refine inv_eq_right_inv ?_
  rw [careR, smul_mul_smul_comm, Matrix.mul_one]
  norm_num

theorem exDouble_G : careB exDouble * (careR exDouble (1 / 4))⁻¹ * (careB exDouble)ᵀ = (4 : ℝ) • (1 : Matrix (Fin 2) (Fin 2) ℝ) := by
  have : careB exDouble = 1 := by rw [careB]; exact (congrArg transpose exDouble_C).trans transpose_one
  rw [this, exDouble_R, transpose_one, Matrix.one_mul, Matrix.mul_one]

theorem exDouble_Q : careQ exDouble = !![1, 0; 0, 0] := by
  have : careQ exDouble = (!![1; 0] : Matrix (Fin 2) (Fin 1) ℝ) * (!![1; 0] : Matrix (Fin 2) (Fin 1) ℝ)ᵀ := by rw [careQ]; exact congrArg₂ (· * ·) exDouble_B (congrArg transpose exDouble_B)
  rw [this]
  ext i j
  fin_cases i <;> fin_cases j <;> simp [Matrix.mul_apply]

theorem exDouble_careA : careA exDouble = !![0, 1; 0, 0] := by
  have : careA exDouble = (!![0, 0; 1, 0])ᵀ := by rw [careA]; exact congrArg transpose exDouble_A
  rw [this]
  ext i j
  fin_cases i <;> fin_cases j <;> simp

theorem exDouble_defective {E : Matrix (Fin 2 ⊕ Fin 2) (Fin 2 ⊕ Fin 2) ℂ} {d : Fin 2 ⊕ Fin 2 → ℂ} :
    ¬EigBasis (careA exDouble) (careB exDouble) (careQ exDouble) (careR exDouble (1 / 4)) E d := by
  intro h
  have key : ∀ j, E (.inl 0) j = 2 * E (.inr 1) j := by
    intro j
    have hZ : hamiltonian (careA exDouble) (careB exDouble) (careQ exDouble) (careR exDouble (1 / 4)) =
        (fromBlocks !![0, 1; 0, 0] (-((4 : ℝ) • (1 : Matrix (Fin 2) (Fin 2) ℝ))) (-!![1, 0; 0, 0]) (-(!![0, 1; 0, 0])ᵀ)).map
          fun a => (a : ℂ) := by
      rw [hamiltonian, exDouble_G, exDouble_careA, exDouble_Q]
    have h1 := h.eig
    rw [hZ] at h1
    have e1 := congrFun₂ h1 (.inl 0) j
    have e2 := congrFun₂ h1 (.inl 1) j
    have e3 := congrFun₂ h1 (.inr 0) j
    have e4 := congrFun₂ h1 (.inr 1) j
    rw [mul_diagonal, Matrix.mul_apply, Fintype.sum_sum_type, Fin.sum_univ_two, Fin.sum_univ_two] at e1 e2 e3 e4
    simp at e1 e2 e3 e4
    have e5 : (d j ^ 2 - 2) ^ 2 * E (.inr 1) j = 0 := by
      linear_combination -d j * e1 - e2 + d j ^ 2 * e3 - (d j ^ 3 - 4 * d j) * e4
    rcases mul_eq_zero.1 e5 with h6 | h6
    · have h7 : d j ^ 2 = 2 := by linear_combination (pow_eq_zero_iff two_ne_zero).1 h6
      linear_combination -e3 - (-d j) * e4 + h7 * E (.inr 1) j
    · rw [h6] at e4 ⊢
      linear_combination -e3 + d j * e4
  have hE : E * E⁻¹ = 1 := mul_nonsing_inv _ h.basis
  have h1 := congrFun₂ hE (.inl 0) (.inl 0)
  have h2 := congrFun₂ hE (.inr 1) (.inl 0)
  rw [Matrix.mul_apply] at h1 h2
  simp only [key, mul_assoc, ← Finset.mul_sum] at h1
  rw [h2] at h1
  simp at h1

theorem exDouble_stabilising : IsStabilising (careA exDouble) (careB exDouble) (careQ exDouble) (careR exDouble (1 / 4))
    !![√2 / 3, 1 / 6; 1 / 6, √2 / 6] := by
  have h2 : √2 * √2 = 2 := Real.mul_self_sqrt (by norm_num)
  refine ⟨⟨?_, ?_⟩, ?_⟩
  · have e : ∀ V : Matrix (Fin 2) (Fin 2) ℝ, V * careB exDouble * (careR exDouble (1 / 4))⁻¹ * (careB exDouble)ᵀ * V =
        V * (careB exDouble * (careR exDouble (1 / 4))⁻¹ * (careB exDouble)ᵀ) * V := fun V => by simp only [Matrix.mul_assoc]
    refine (congrArg (fun X => _ - X + _) (e _)).trans ?_
    rw [exDouble_G, exDouble_careA, exDouble_Q]
    ext i j
    fin_cases i <;> fin_cases j <;> simp [Matrix.mul_apply, Fin.sum_univ_two] <;> nlinarith
  · ext i j
    fin_cases i <;> fin_cases j <;> rfl
  · intro μ x hx hμ
    rw [exDouble_G, exDouble_careA] at hμ
    have h2c : (√2 : ℂ) * (√2 : ℂ) = 2 := by exact_mod_cast h2
    have e0 := congrFun hμ 0
    have e1 := congrFun hμ 1
    simp [mulVec, dotProduct, Fin.sum_univ_two] at e0 e1
    have h5 : (μ + (√2 : ℂ)) ^ 2 * x 0 = 0 := by
      linear_combination -(μ + 2 * (√2 : ℂ) / 3) * e0 - (1 / 3) * e1 + (1 / 9) * x 0 * h2c
    have h6 : x 0 ≠ 0 := by
      intro h0
      rw [h0] at e0 e1
      refine hx (funext fun i => ?_)
      fin_cases i
      · exact h0
      · norm_num at e0
        exact e0
    have h7 := (pow_eq_zero_iff two_ne_zero).1 ((mul_eq_zero.1 h5).resolve_right h6)
    have h8 : μ = -(√2 : ℂ) := by linear_combination h7
    rw [h8, Complex.neg_re, Complex.ofReal_re]
    have : 0 < √2 := Real.sqrt_pos.2 (by norm_num)
    linarith

/-- **C98** is false of `care` as it is: for these two integrators and `eta2 = 1/4`, where all states can be reached and seen
and a stabilising solution exists, the Hamiltonian matrix has no basis of eigenvectors, and `diagonalize` raises. -/
theorem C98_defective_false : ∃ (g : Sys ℝ) (eta2 : ℝ), 0 < eta2 ∧ Observable (toM g.N g.L g.B)ᵀ (toM g.N g.N g.A)ᵀ ∧
    Observable (toM g.Nt g.N g.CT) (toM g.N g.N g.A) ∧
    (∃ V, IsStabilising (careA g) (careB g) (careQ g) (careR g eta2) V) ∧
    ∀ E d, ¬EigBasis (careA g) (careB g) (careQ g) (careR g eta2) E d := by
  refine ⟨exDouble, 1 / 4, by norm_num, ?_, ?_, ⟨_, exDouble_stabilising⟩, fun E d => exDouble_defective⟩
  · intro μ x hx h1 h2
    have a := congrFun h2 0
    have b := congrFun h1 0
    refine hx (funext fun i => ?_)
    simp [mulVec, dotProduct, toM, Fin.sum_univ_two] at a b
    fin_cases i
    · exact a
    · simpa [a] using b
  · intro μ x hx h1 h2
    refine hx (funext fun i => ?_)
    have a := congrFun h2 0
    have b := congrFun h2 1
    simp [mulVec, dotProduct, toM, Fin.sum_univ_two] at a b
    fin_cases i
    · exact a
    · exact b

end Cbadc.Filter
