import Verif.Lemmas.InputUnit
import Verif.Model.TransferFunction
import Verif.Props.Existence
import Verif.Props.RunExists
import Verif.Props.Simulator

/-! # The unit of the input does not matter (C152) -/

namespace Cbadc.InputUnit

open Matrix Set Filter.Spec Cbadc.Analog Cbadc.Control Cbadc.Estimator Cbadc.Simulate Cbadc.Filter Cbadc.Streams

/-- **C152** Simulations: with the inputs in another unit the simulations are literally the same. -/
theorem C152_simulation {M : ℕ} {b : ℝ} (hb : b ≠ 0) (c : Cfg M) (s : ℕ → St M) (φ : ℕ → ℝ → ℕ → ℝ) : Run (cfg b c) s φ ↔ Run c s φ :=
  forall_congr' fun _ => period hb c _ _ _

section care
variable {g : Sys ℝ} {M : ℕ} {G : ℕ → ℕ → ℝ} {d : DC ℝ M} {eta2 b : ℝ} {Vf Vb : Matrix (Fin g.N) (Fin g.N) ℝ} {c : Coeffs ℝ g.N M g.L}

theorem toM_B (b : ℝ) (g : Sys ℝ) : toM g.N g.L (sys b g).B = b • toM g.N g.L g.B := rfl

theorem careQ_sys (b : ℝ) (g : Sys ℝ) : careQ (sys b g) = b ^ 2 • careQ g := by
  show toM g.N g.L (sys b g).B * (toM g.N g.L (sys b g).B)ᵀ = _
  rw [toM_B, transpose_smul, Matrix.smul_mul, Matrix.mul_smul, smul_smul, ← pow_two]; rfl

theorem inv_careR (hb : b ≠ 0) (g : Sys ℝ) (eta2 : ℝ) : b ^ 2 • (careR (sys b g) (b ^ 2 * eta2))⁻¹ = (careR g eta2)⁻¹ := by
  have hb2 : b ^ 2 ≠ 0 := pow_ne_zero 2 hb
  show b ^ 2 • ((b ^ 2 * eta2) • (1 : Matrix (Fin g.Nt) (Fin g.Nt) ℝ))⁻¹ = (eta2 • (1 : Matrix (Fin g.Nt) (Fin g.Nt) ℝ))⁻¹
  rw [mul_smul]
  have : (b ^ 2 • (eta2 • (1 : Matrix (Fin g.Nt) (Fin g.Nt) ℝ)))⁻¹ = (b ^ 2)⁻¹ • (eta2 • (1 : Matrix (Fin g.Nt) (Fin g.Nt) ℝ))⁻¹ := by
    by_cases h : IsUnit (eta2 • (1 : Matrix (Fin g.Nt) (Fin g.Nt) ℝ)).det
    · refine inv_eq_right_inv ?_
      rw [Matrix.smul_mul, Matrix.mul_smul, smul_smul, mul_inv_cancel₀ hb2, one_smul, mul_nonsing_inv _ h]
    · have h' : ¬IsUnit (b ^ 2 • (eta2 • (1 : Matrix (Fin g.Nt) (Fin g.Nt) ℝ))).det := by
        rw [det_smul]
        exact fun k => h (isUnit_of_mul_isUnit_right k)
      rw [nonsing_inv_apply_not_isUnit _ h, nonsing_inv_apply_not_isUnit _ h', smul_zero]
  rw [this, smul_smul, mul_inv_cancel₀ hb2, one_smul]

theorem feedback (hb : b ≠ 0) (V : Matrix (Fin g.N) (Fin g.N) ℝ) :
    careB (sys b g) * (careR (sys b g) (b ^ 2 * eta2))⁻¹ * (careB (sys b g))ᵀ * (b ^ 2 • V) = careB g * (careR g eta2)⁻¹ * (careB g)ᵀ * V := by
  rw [← inv_careR hb g eta2, Matrix.mul_smul, Matrix.mul_smul, Matrix.smul_mul, Matrix.smul_mul]; rfl

theorem isCare (hb : b ≠ 0) {A V : Matrix (Fin g.N) (Fin g.N) ℝ} :
    IsCare A (careB (sys b g)) (careQ (sys b g)) (careR (sys b g) (b ^ 2 * eta2)) (b ^ 2 • V) ↔
      IsCare A (careB g) (careQ g) (careR g eta2) V := by
  have hb2 : b ^ 2 ≠ 0 := pow_ne_zero 2 hb
  have e : Aᵀ * (b ^ 2 • V) + (b ^ 2 • V) * A -
      (b ^ 2 • V) * careB (sys b g) * (careR (sys b g) (b ^ 2 * eta2))⁻¹ * (careB (sys b g))ᵀ * (b ^ 2 • V) + careQ (sys b g) =
      b ^ 2 • (Aᵀ * V + V * A - V * careB g * (careR g eta2)⁻¹ * (careB g)ᵀ * V + careQ g) := by
    have := feedback (g := g) (eta2 := eta2) hb V
    rw [careQ_sys]
    simp only [Matrix.mul_assoc] at this ⊢
    rw [this]
    simp only [Matrix.mul_smul, Matrix.smul_mul, smul_add, smul_sub]
  constructor
  · intro ⟨h1, h2⟩
    rw [e] at h1
    rw [transpose_smul] at h2
    exact ⟨(smul_eq_zero.1 h1).resolve_left hb2, smul_right_injective _ hb2 h2⟩
  · intro ⟨h1, h2⟩
    exact ⟨by rw [e, h1, smul_zero], by rw [transpose_smul, h2]⟩

theorem stabilising (hb : b ≠ 0) {A V : Matrix (Fin g.N) (Fin g.N) ℝ} :
    IsStabilising A (careB (sys b g)) (careQ (sys b g)) (careR (sys b g) (b ^ 2 * eta2)) (b ^ 2 • V) ↔
      IsStabilising A (careB g) (careQ g) (careR g eta2) V := by
  have e := feedback (g := g) (eta2 := eta2) hb V
  exact ⟨fun k => ⟨(isCare hb).1 k.care, e ▸ k.stable⟩, fun k => ⟨(isCare hb).2 k.care, e.symm ▸ k.stable⟩⟩

/-- **C152** Riccati equations: for inputs in another unit, and `eta2` in the square of it, the solutions are those of the original
ones in the square of the unit. -/
theorem C152_care (hb : b ≠ 0) :
    (IsStabilising (careA (sys b g)) (careB (sys b g)) (careQ (sys b g)) (careR (sys b g) (b ^ 2 * eta2)) (b ^ 2 • Vf) ↔
      IsStabilising (careA g) (careB g) (careQ g) (careR g eta2) Vf) ∧
    (IsStabilising (-careA (sys b g)) (careB (sys b g)) (careQ (sys b g)) (careR (sys b g) (b ^ 2 * eta2)) (b ^ 2 • Vb) ↔
      IsStabilising (-careA g) (careB g) (careQ g) (careR g eta2) Vb) :=
  ⟨stabilising (g := g) (A := careA g) hb, stabilising (g := g) (A := -careA g) hb⟩

theorem cct_sys (hb : b ≠ 0) (V : Matrix (Fin g.N) (Fin g.N) ℝ) : (b ^ 2 • V) * cct (sys b g) (b ^ 2 * eta2) = V * cct g eta2 := by
  show (b ^ 2 • V) * ((toM g.Nt g.N g.CT)ᵀ * ((careR (sys b g) (b ^ 2 * eta2))⁻¹ * toM g.Nt g.N g.CT)) =
    V * ((toM g.Nt g.N g.CT)ᵀ * ((careR g eta2)⁻¹ * toM g.Nt g.N g.CT))
  rw [← inv_careR hb g eta2, Matrix.smul_mul, Matrix.smul_mul, Matrix.mul_smul, Matrix.mul_smul]

theorem tempAf_sys (hb : b ≠ 0) (V : Matrix (Fin g.N) (Fin g.N) ℝ) : tempAf (sys b g) (b ^ 2 * eta2) (b ^ 2 • V) = tempAf g eta2 V := by
  show toM g.N g.N g.A - (b ^ 2 • V) * cct (sys b g) (b ^ 2 * eta2) = _
  rw [cct_sys hb]; rfl

theorem tempAb_sys (hb : b ≠ 0) (V : Matrix (Fin g.N) (Fin g.N) ℝ) : tempAb (sys b g) (b ^ 2 * eta2) (b ^ 2 • V) = tempAb g eta2 V := by
  show toM g.N g.N g.A + (b ^ 2 • V) * cct (sys b g) (b ^ 2 * eta2) = _
  rw [cct_sys hb]; rfl

theorem cares (hb : b ≠ 0) (h : Cares g eta2 Vf Vb) : Cares (sys b g) (b ^ 2 * eta2) (b ^ 2 • Vf) (b ^ 2 • Vb) :=
  ⟨(isCare hb).2 h.f, (isCare hb).2 h.b⟩

theorem common (hb : b ≠ 0) {T : ℝ} (h : Common g T eta2 Vf Vb c) :
    Common (sys b g) T (b ^ 2 * eta2) (b ^ 2 • Vf) (b ^ 2 • Vb) (coeffs b c) where
  Af := by rw [tempAf_sys hb]; exact h.Af
  Ab := by rw [tempAb_sys hb]; exact h.Ab
  WT := by
    have e : (b ^ 2 • Vf + b ^ 2 • Vb) * (b⁻¹ • c.WT)ᵀ - b • toM g.N g.L g.B = b • ((Vf + Vb) * c.WTᵀ - toM g.N g.L g.B) := by
      rw [← smul_add, transpose_smul, Matrix.smul_mul, Matrix.mul_smul, smul_smul, smul_sub, pow_two, mul_assoc, mul_inv_cancel₀ hb, mul_one]
    show (b ^ 2 • Vf + b ^ 2 • Vb)ᵀ * ((b ^ 2 • Vf + b ^ 2 • Vb) * (b⁻¹ • c.WT)ᵀ - b • toM g.N g.L g.B) = 0
    rw [e, ← smul_add, transpose_smul, Matrix.smul_mul, Matrix.mul_smul, h.WT, smul_zero, smul_zero]

theorem regular (hb : b ≠ 0) (h : Regular g G d eta2 Vf Vb c) :
    Regular (sys b g) G d (b ^ 2 * eta2) (b ^ 2 • Vf) (b ^ 2 • Vb) (coeffs b c) where
  Bf m := by rw [tempAf_sys hb]; exact h.Bf m
  Bb m := by rw [tempAb_sys hb]; exact h.Bb m

theorem midPoint (hb : b ≠ 0) (h : MidPoint g G d eta2 Vf Vb c) :
    MidPoint (sys b g) G d (b ^ 2 * eta2) (b ^ 2 • Vf) (b ^ 2 • Vb) (coeffs b c) where
  Bf := by rw [tempAf_sys hb]; exact h.Bf
  Bb := by rw [tempAb_sys hb]; exact h.Bb

/-- **C152** Filter coefficients: only `WT` depends on the unit of the input, with and without `mid_point`. -/
theorem C152_coefficients (hb : b ≠ 0) :
    (Numerical g G d eta2 Vf Vb c → Numerical (sys b g) G d (b ^ 2 * eta2) (b ^ 2 • Vf) (b ^ 2 • Vb) (coeffs b c)) ∧
    (NumericalMid g G d eta2 Vf Vb c → NumericalMid (sys b g) G d (b ^ 2 * eta2) (b ^ 2 • Vf) (b ^ 2 • Vb) (coeffs b c)) :=
  ⟨fun h => ⟨cares hb h.cares, common hb h.common, regular hb h.regular⟩, fun h => ⟨cares hb h.cares, common hb h.common, midPoint hb h.mid⟩⟩

theorem observable_smul {n p : ℕ} {C : Matrix (Fin p) (Fin n) ℝ} {A : Matrix (Fin n) (Fin n) ℝ} (hb : b ≠ 0) (h : Observable C A) :
    Observable (b • C) A := by
  intro μ x hx he h0
  refine h μ x hx he ?_
  have e : (b • C).map (fun a => (a : ℂ)) = (b : ℂ) • C.map fun a => (a : ℂ) := by
    ext i j; simp
  rw [e, smul_mulVec] at h0
  exact (smul_eq_zero.1 h0).resolve_left (by exact_mod_cast hb)

/-- **C152** Whatever the solvers return for the two units: the coefficients agree except for the unit of `WT`. -/
theorem C152_same (hb : b ≠ 0) (he : 0 < eta2) (hreach : Observable (toM g.N g.L g.B)ᵀ (toM g.N g.N g.A)ᵀ)
    (hobs : Observable (toM g.Nt g.N g.CT) (toM g.N g.N g.A)) (hT : 0 ≤ d.T) (hw : ∀ m, Waveform d.T (d.ir m).f)
    (h1 : IsStabilising (careA g) (careB g) (careQ g) (careR g eta2) Vf) (h2 : IsStabilising (-careA g) (careB g) (careQ g) (careR g eta2) Vb)
    (hc : Numerical g G d eta2 Vf Vb c) {Vf' Vb' : Matrix (Fin g.N) (Fin g.N) ℝ} {c' : Coeffs ℝ g.N M g.L}
    (h1' : IsStabilising (careA (sys b g)) (careB (sys b g)) (careQ (sys b g)) (careR (sys b g) (b ^ 2 * eta2)) Vf')
    (h2' : IsStabilising (-careA (sys b g)) (careB (sys b g)) (careQ (sys b g)) (careR (sys b g) (b ^ 2 * eta2)) Vb')
    (hc' : Numerical (sys b g) G d (b ^ 2 * eta2) Vf' Vb' c') : Vf' = b ^ 2 • Vf ∧ Vb' = b ^ 2 • Vb ∧ c' = coeffs b c := by
  have hr' : Observable (toM g.N g.L (sys b g).B)ᵀ (toM g.N g.N (sys b g).A)ᵀ := by
    rw [toM_B, transpose_smul]
    exact observable_smul hb hreach
  have he' : 0 < b ^ 2 * eta2 := mul_pos (by positivity) he
  obtain ⟨Wf, Wb, e, -, hu⟩ := C147_coefficients (g := sys b g) he' hr' hobs G d hT hw
  obtain ⟨a1, a2, a3⟩ := hu _ _ _ h1' h2' hc'
  obtain ⟨b1, b2, b3⟩ := hu _ _ _ ((C152_care (Vb := Vb) hb).1.2 h1) ((C152_care (Vf := Vf) hb).2.2 h2) ((C152_coefficients hb).1 hc)
  exact ⟨a1.trans b1.symm, a2.trans b2.symm, a3.trans b3.symm⟩

end care

section estimators
variable {K : Type*} [Field K] [LinearOrder K] [IsStrictOrderedRing K] {N M L : ℕ} {b : K} (c : Coeffs K N M L)

theorem eta2_neg (hb : b ≠ 0) (eta2 : K) : b ^ 2 * eta2 < 0 ↔ eta2 < 0 := by
  have : 0 < b ^ 2 := by positivity
  constructor
  · intro h
    by_contra k
    exact absurd h (not_lt.2 (mul_nonneg this.le (not_lt.1 k)))
  · exact fun h => mul_neg_of_pos_of_neg this h

/-- **C152** Estimators: for all control signals the estimates are those of the original converter in the new unit, and the exceptions
are the same.  (An offset given to the filter with finite response has to be in the new unit, too.) -/
theorem C152_estimates (hb : b ≠ 0) (K1 K2 ds : ℤ) (eta2 : K) (dn limit : ℕ) (mid : Bool) (offset : Option (Fin L → K))
    (src : ℕ → Res (Fin M → K)) (n : ℕ) :
    (FIR.new (coeffs b c) K1 K2 (b ^ 2 * eta2) mid dn limit (offset.map (b⁻¹ • ·))).map (fun f => call (f.next src) FIRState.init n) =
      (FIR.new c K1 K2 eta2 mid dn limit offset).map (fun f => (call (f.next src) FIRState.init n).map (b⁻¹ • ·)) ∧
    (IIR.new (coeffs b c) K2 (b ^ 2 * eta2) dn limit).map (fun f => call (f.next src) IIRState.init n) =
      (IIR.new c K2 eta2 dn limit).map (fun f => (call (f.next src) IIRState.init n).map (b⁻¹ • ·)) ∧
    (Batch.new (coeffs b c) K1 K2 (b ^ 2 * eta2) ds limit).map (fun f => call (f.next src) f.init n) =
      (Batch.new c K1 K2 eta2 ds limit).map (fun f => (call (f.next src) f.init n).map (b⁻¹ • ·)) := by
  refine ⟨?_, ?_, ?_⟩
  · unfold FIR.new
    simp only [eta2_neg hb]
    by_cases h1 : K1 < 0
    · rw [if_pos h1, if_pos h1]; rfl
    rw [if_neg h1, if_neg h1]
    by_cases h2 : K2 < 1
    · rw [if_pos h2, if_pos h2]; rfl
    rw [if_neg h2, if_neg h2]
    by_cases h3 : eta2 < 0
    · rw [if_pos h3, if_pos h3]; rfl
    rw [if_neg h3, if_neg h3]
    by_cases h4 : mid = true
    · rw [if_pos h4, if_pos h4]; rfl
    rw [if_neg h4, if_neg h4]
    refine congrArg Except.ok ?_
    have ho : (offset.map (b⁻¹ • ·)).getD 0 = b⁻¹ • offset.getD 0 := by
      cases offset with
      | none => exact (smul_zero _).symm
      | some o => rfl
    unfold coeffs
    rw [firTaps_eq, ho]
    exact call_map _ _ id _ (fir_next b⁻¹ (⟨K1.toNat, K2.toNat, dn, limit, firTaps c K1.toNat K2.toNat, offset.getD 0⟩ : FIR K M L) src)
      FIRState.init n
  · unfold IIR.new
    simp only [eta2_neg hb]
    by_cases h1 : K2 < 0
    · rw [if_pos h1, if_pos h1]; rfl
    rw [if_neg h1, if_neg h1]
    by_cases h2 : eta2 < 0
    · rw [if_pos h2, if_pos h2]; rfl
    rw [if_neg h2, if_neg h2]
    refine congrArg Except.ok ?_
    unfold coeffs
    rw [iirLookahead_eq]
    exact call_map _ _ id _ (iir_next b⁻¹ (⟨c, K2.toNat, dn, limit, (iirLookahead c K2.toNat).1⟩ : IIR K N M L) src) IIRState.init n
  · unfold Batch.new
    simp only [eta2_neg hb]
    by_cases h1 : K1 < 1
    · rw [if_pos h1, if_pos h1]; rfl
    rw [if_neg h1, if_neg h1]
    by_cases h2 : K2 < 0
    · rw [if_pos h2, if_pos h2]; rfl
    rw [if_neg h2, if_neg h2]
    by_cases h3 : eta2 < 0
    · rw [if_pos h3, if_pos h3]; rfl
    rw [if_neg h3, if_neg h3]
    by_cases h4 : ds ≠ 1
    · rw [if_pos h4, if_pos h4]; rfl
    rw [if_neg h4, if_neg h4]
    refine congrArg Except.ok ?_
    have := call_map _ _ (batchState b⁻¹) _ (batch_next b⁻¹ (⟨c, K1.toNat, K2.toNat, limit⟩ : Batch K N M L) src)
      (Batch.init ⟨c, K1.toNat, K2.toNat, limit⟩) n
    have e : batchState b⁻¹ (Batch.init (⟨c, K1.toNat, K2.toNat, limit⟩ : Batch K N M L)) = Batch.init ⟨c, K1.toNat, K2.toNat, limit⟩ := by
      unfold batchState Batch.init
      simp
    rw [e] at this
    exact this

end estimators

/-- **C152** `eta2` at a bandwidth is in the square of the unit, as the coefficients require. -/
theorem C152_eta2 {b : ℝ} (g : Sys ℂ) (BW : ℝ) : (sys (b : ℂ) g).eta2 BW = b ^ 2 * g.eta2 BW := by
  have e : ∀ s, (sys (b : ℂ) g).tfm s = (b : ℂ) • g.tfm s := by
    intro s
    show (b : ℂ) • toM g.Nt g.L g.D + toM g.Nt g.N g.CT * ((s • (1 : Matrix (Fin g.N) (Fin g.N) ℂ) - toM g.N g.N g.A)⁻¹ *
      ((b : ℂ) • toM g.N g.L g.B)) = _
    rw [Matrix.mul_smul, Matrix.mul_smul, ← smul_add]; rfl
  unfold Sys.eta2
  rw [e, Finset.mul_sum]
  refine Finset.sum_congr rfl fun n _ => ?_
  rw [Finset.mul_sum]
  refine Finset.sum_congr rfl fun l _ => ?_
  rw [Matrix.smul_apply, norm_smul, mul_pow, Complex.norm_real, Real.norm_eq_abs, sq_abs]

/-- **C152** The whole converter: with the inputs in another unit, it has the same control signals and its estimates are those of the
original converter in that unit. -/
theorem C152_converter {M : ℕ} {b : ℝ} (hb : b ≠ 0) (k : Cfg M) (hin : k.hasInput = true) (hT : 0 < k.dc.T)
    (hw : ∀ m, Waveform k.dc.T (k.dc.ir m).f) {eta2 : ℝ} (he : 0 < eta2)
    (hreach : Observable (toM k.sys.N k.sys.L k.sys.B)ᵀ (toM k.sys.N k.sys.N k.sys.A)ᵀ)
    (hobs : Observable (toM k.sys.Nt k.sys.N k.sys.CT) (toM k.sys.N k.sys.N k.sys.A))
    {s s' : ℕ → St M} {φ φ' : ℕ → ℝ → ℕ → ℝ} (hr : Run k s φ) (hr' : Run (cfg b k) s' φ')
    (h0 : (∀ n < k.sys.N, (s' 0).x n = (s 0).x n) ∧ (s' 0).c = (s 0).c ∧ (s' 0).t = (s 0).t ∧ (s' 0).ticks = (s 0).ticks)
    {G : ℕ → ℕ → ℝ} {Vf Vb Vf' Vb' : Matrix (Fin k.sys.N) (Fin k.sys.N) ℝ} {c c' : Coeffs ℝ k.sys.N M k.sys.L}
    (h1 : IsStabilising (careA k.sys) (careB k.sys) (careQ k.sys) (careR k.sys eta2) Vf)
    (h2 : IsStabilising (-careA k.sys) (careB k.sys) (careQ k.sys) (careR k.sys eta2) Vb) (hc : Numerical k.sys G k.dc eta2 Vf Vb c)
    (h1' : IsStabilising (careA (sys b k.sys)) (careB (sys b k.sys)) (careQ (sys b k.sys)) (careR (sys b k.sys) (b ^ 2 * eta2)) Vf')
    (h2' : IsStabilising (-careA (sys b k.sys)) (careB (sys b k.sys)) (careQ (sys b k.sys)) (careR (sys b k.sys) (b ^ 2 * eta2)) Vb')
    (hc' : Numerical (sys b k.sys) G k.dc (b ^ 2 * eta2) Vf' Vb' c') :
    (∀ i, signal (s' i).c = signal (s i).c) ∧
    ∀ (K1 K2 : ℤ) (limit n : ℕ),
      (Batch.new c' K1 K2 (b ^ 2 * eta2) 1 limit).map (fun f => call (f.next fun i => .ok (signal (s' (i + 1)).c)) f.init n) =
      (Batch.new c K1 K2 eta2 1 limit).map (fun f => (call (f.next fun i => .ok (signal (s (i + 1)).c)) f.init n).map (b⁻¹ • ·)) := by
  have e1 : ∀ i, (s' i).c = (s i).c := fun i =>
    (C28_deterministic k hin hT _ _ _ _ ((C152_simulation hb k s' φ').1 hr') hr h0 i).2.1
  have e2 := (C152_same hb he hreach hobs hT.le hw h1 h2 hc h1' h2' hc').2.2
  refine ⟨fun i => by rw [e1 i], fun K1 K2 limit n => ?_⟩
  rw [e2]
  simp only [e1]
  exact (C152_estimates c hb K1 K2 1 eta2 1 limit false none _ n).2.2

/-- C152_simulation, C152_care, C152_coefficients, C152_same, C152_converter: a second-order chain of integrators with its input in
millivolts meets the hypotheses -/
example (g : Sys ℝ) (hg : chainOfIntegrators [1, 1] [0, 0] (.mat 2 1 fun _ _ => -1) = .ok g) :
    ∃ (k : Cfg 2), k.sys = g ∧ k.hasInput = true ∧ 0 < k.dc.T ∧ (∀ m, Waveform k.dc.T (k.dc.ir m).f) ∧
    Observable (toM k.sys.N k.sys.L k.sys.B)ᵀ (toM k.sys.N k.sys.N k.sys.A)ᵀ ∧
    Observable (toM k.sys.Nt k.sys.N k.sys.CT) (toM k.sys.N k.sys.N k.sys.A) ∧
    ∃ s φ, Run k s φ ∧ (s 0).x 1 = 1 / 4 ∧ Run (cfg (1 / 1000) k) s φ ∧
      ∃ G Vf Vb c, k.sys.Gamma = some G ∧ IsStabilising (careA k.sys) (careB k.sys) (careQ k.sys) (careR k.sys 1) Vf ∧
        IsStabilising (-careA k.sys) (careB k.sys) (careQ k.sys) (careR k.sys 1) Vb ∧ Numerical k.sys G k.dc 1 Vf Vb c ∧
        Numerical (sys (1 / 1000) k.sys) G k.dc ((1 / 1000) ^ 2 * 1) ((1 / 1000 : ℝ) ^ 2 • Vf) ((1 / 1000 : ℝ) ^ 2 • Vb) (coeffs (1 / 1000) c) := by
  have hs : Fits (⟨g, ⟨1 / 2, 0, 0, fun _ => stepResponse 0, fun _ => 0⟩, fun _ t _ => Real.sin t, true⟩ : Cfg 2) :=
    EndToEnd.C148_structures [1, 1] [1] [0, 0] (fun _ _ => -1) (by simp) rfl rfl _ (.inl hg)
  have ho := EndToEnd.C144_chain [1, 1] [0, 0] (fun _ _ => -1) (by simp) rfl g hg
  have h1 := ho.1.2 (by simp)
  have hw : ∀ m : Fin 2, Waveform (1 / 2) ((fun _ : Fin 2 => stepResponse (0 : ℝ)) m).f := fun m => C147_waveforms (.step 0 1) (1 / 2)
  obtain ⟨s, φ, h0, hr⟩ := C148_run (⟨g, ⟨1 / 2, 0, 0, fun _ => stepResponse 0, fun _ => 0⟩, fun _ t _ => Real.sin t, true⟩ : Cfg 2)
    (by norm_num) (fun m => ⟨.step 0 1, rfl⟩) (fun _ _ => Real.continuous_sin) hs ⟨0, 0, fun _ => 1 / 4, fun _ => 0, fun _ => 0, fun _ => 0⟩
  obtain ⟨G, hG⟩ := Option.ne_none_iff_exists'.1 hs.gamma
  obtain ⟨Vf, Vb, c, ⟨k1, k2, k3⟩, -⟩ := C147_coefficients (eta2 := 1) one_pos h1 ho.2 G
    (⟨1 / 2, 0, 0, fun _ => stepResponse 0, fun _ => 0⟩ : DC ℝ 2) (by norm_num) hw
  exact ⟨_, rfl, rfl, by norm_num, hw, h1, ho.2, s, φ, hr, by rw [h0], (C152_simulation (by norm_num) _ s φ).2 hr, G, Vf, Vb, c, hG, k1, k2, k3,
    (C152_coefficients (by norm_num)).1 k3⟩

/-- C152_estimates: the taps of a first-order filter with its input in millivolts are a thousand times as large -/
example : (FIR.new (coeffs (1 / 1000) (⟨1, 1, 1, 1, 1⟩ : Coeffs ℚ 1 1 1)) 1 1 1 false 1 0 none).map (fun f => f.h 1 0 0) = .ok 1000 := by
  norm_num [FIR.new, firTaps, firLookahead, firLookback, coeffs, Except.map]

end Cbadc.InputUnit
