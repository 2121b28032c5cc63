import Verif.Lemmas.Numbering
import Verif.Model.TransferFunction
import Verif.Props.Existence
import Verif.Props.RunExists
import Verif.Props.Simulator

/-! # The numbering of inputs and controls does not matter (C156) -/

namespace Cbadc.Numbering

open Matrix Set Filter.Spec Cbadc.Analog Cbadc.Control Cbadc.Estimator Cbadc.Simulate Cbadc.Filter Cbadc.Streams

/-- **C156** Simulations: renumbering the inputs and the controls of a converter renumbers the decisions and leaves the states of the
analog system alone; there are no other simulations. -/
theorem C156_simulation {M : ℕ} (σ : Equiv.Perm (Fin M)) (c : Cfg M) (π : Equiv.Perm (Fin c.sys.L)) (s : ℕ → St M) (φ : ℕ → ℝ → ℕ → ℝ) :
    Run (config σ c π) (fun k => st σ (s k)) φ ↔ Run c s φ := by
  refine ⟨fun h k => ?_, fun h k => period σ c π (h k)⟩
  have := period σ⁻¹ (config σ c π) π⁻¹ (h k)
  rwa [config_inv, st_inv, st_inv] at this

/-- **C156** Digital controls: the control with renumbered waveforms and offsets can be made whenever the starting times of the
waveforms are still in order. -/
theorem C156_control {K : Type*} [Field K] [LinearOrder K] {M : ℕ} (σ : Equiv.Perm (Fin M)) (T tt2 tDelay : K) (ir : Fin M → IR K)
    (off : Fin M → K) {d : DC K M} (h : DC.new T tt2 M (some (List.ofFn ir)) tDelay (some (List.ofFn off)) = .ok d) :
    DC.new T tt2 M (some (List.ofFn (ir ∘ σ))) tDelay (some (List.ofFn (off ∘ σ))) =
      if anyDecrease (List.ofFn fun m => (ir (σ m)).t0) then .error .exception else .ok (control σ d) := by
  unfold DC.new initIR initOffsets at h ⊢
  by_cases h1 : tDelay < 0
  · simp [h1] at h
  rw [if_neg h1] at h ⊢
  dsimp only at h ⊢
  rw [dif_pos (List.length_ofFn), dif_pos (List.length_ofFn)] at h ⊢
  have hb : ∀ p : K → Bool, ((List.ofFn (ir ∘ σ)).map IR.t0).any p = ((List.ofFn ir).map IR.t0).any p := fun p => by
    rw [Bool.eq_iff_iff]
    simp only [List.any_eq_true, List.mem_map, List.mem_ofFn]
    constructor
    · rintro ⟨x, ⟨w, ⟨m, rfl⟩, rfl⟩, hx⟩
      exact ⟨_, ⟨_, ⟨σ m, rfl⟩, rfl⟩, hx⟩
    · rintro ⟨x, ⟨w, ⟨m, rfl⟩, rfl⟩, hx⟩
      exact ⟨_, ⟨_, ⟨σ⁻¹ m, by simp⟩, rfl⟩, hx⟩
  by_cases h2 : badPhases T ((List.ofFn ir).map IR.t0) = true
  · rw [if_pos h2] at h
    cases h
  rw [if_neg h2] at h
  unfold badPhases at h2 ⊢
  rw [hb, hb]
  simp only [Bool.or_eq_true, not_or, Bool.not_eq_true] at h2
  rw [h2.1.1, h2.1.2, Bool.false_or, Bool.false_or]
  have e : (List.ofFn (ir ∘ σ)).map IR.t0 = List.ofFn fun m => (ir (σ m)).t0 := by
    rw [List.map_ofFn]; rfl
  rw [e]
  by_cases h3 : anyDecrease (List.ofFn fun m => (ir (σ m)).t0) = true
  · rw [if_pos h3, if_pos h3]
  rw [if_neg h3, if_neg h3]
  dsimp only at h ⊢
  rw [← Except.ok.inj h]
  simp [control, Function.comp_def]

section coefficients
variable {g : Sys ℝ} {M : ℕ} {G : ℕ → ℕ → ℝ} {d : DC ℝ M} {eta2 : ℝ} {Vf Vb : Matrix (Fin g.N) (Fin g.N) ℝ} {c : Coeffs ℝ g.N M g.L}
  (σ : Equiv.Perm (Fin M)) (π : Equiv.Perm (Fin g.L))

theorem toM_cols {K : Type*} {n p : ℕ} (σ : Equiv.Perm (Fin p)) (X : ℕ → ℕ → K) : toM n p (fun i m => X i (up σ m)) = (toM n p X).submatrix id σ := by
  ext i m
  show X i (up σ m) = X i (σ m)
  rw [up_fin]

theorem gram_perm {R : Type*} [CommRing R] {n p q : ℕ} (π : Equiv.Perm (Fin p)) (X : Matrix (Fin n) (Fin p) R) (Y : Matrix (Fin p) (Fin q) R) :
    X.submatrix id π * Y.submatrix π id = X * Y := by
  ext i j
  exact Equiv.sum_comp π fun l => X i l * Y l j

theorem careQ_sys : careQ (sys σ g π) = careQ g := by
  show toM g.N g.L (fun i l => g.B i (up π l)) * (toM g.N g.L fun i l => g.B i (up π l))ᵀ = _
  rw [toM_cols]
  exact gram_perm π (toM g.N g.L g.B) (toM g.N g.L g.B)ᵀ

theorem cares (h : Cares g eta2 Vf Vb) : Cares (sys σ g π) eta2 Vf Vb where
  f := by rw [careQ_sys]; exact h.f
  b := by rw [careQ_sys]; exact h.b

theorem common {T : ℝ} (h : Common g T eta2 Vf Vb c) : Common (sys σ g π) T eta2 Vf Vb (coeffs σ π c) where
  Af := h.Af
  Ab := h.Ab
  WT := by
    have e : (Vf + Vb)ᵀ * ((Vf + Vb) * (coeffs σ π c).WTᵀ - toM g.N g.L fun i l => g.B i (up π l)) =
        ((Vf + Vb)ᵀ * ((Vf + Vb) * c.WTᵀ - toM g.N g.L g.B)).submatrix id π := by
      rw [toM_cols]
      rfl
    refine e.trans ?_
    rw [h.WT]
    rfl

theorem impulse_eq (m : Fin M) (t : ℝ) : impulseResponse (control σ d) m t = impulseResponse d (σ m) t ∘ σ := by
  funext i
  unfold impulseResponse
  show (if i = m ∧ 0 ≤ t ∧ t ≤ d.T then (d.ir (σ m)).f t else 0) = if σ i = σ m ∧ 0 ≤ t ∧ t ≤ d.T then (d.ir (σ m)).f t else 0
  simp only [EmbeddingLike.apply_eq_iff_eq]

theorem drive (m : Fin M) (t : ℝ) : toM g.N M (fun i m => G i (up σ m)) *ᵥ impulseResponse (control σ d) m t = toM g.N M G *ᵥ impulseResponse d (σ m) t := by
  rw [toM_cols, impulse_eq, mulVec_perm]

theorem regular (h : Regular g G d eta2 Vf Vb c) : Regular (sys σ g π) (fun i m => G i (up σ m)) (control σ d) eta2 Vf Vb (coeffs σ π c) where
  Bf m := by
    obtain ⟨ψ, h1, h2, h3⟩ := h.Bf (σ m)
    refine ⟨ψ, ?_, h2, h3⟩
    show Flow _ (fun t => toM g.N M (fun i m => G i (up σ m)) *ᵥ impulseResponse (control σ d) m t) _ _ _
    simp only [drive]
    exact h1
  Bb m := by
    obtain ⟨ψ, h1, h2, h3⟩ := h.Bb (σ m)
    refine ⟨ψ, ?_, h2, h3⟩
    show FlowLeft _ (fun t => -(toM g.N M (fun i m => G i (up σ m)) *ᵥ impulseResponse (control σ d) m (d.T - t))) _ _ _
    simp only [drive]
    exact h1

theorem midPoint (h : MidPoint g G d eta2 Vf Vb c) : MidPoint (sys σ g π) (fun i m => G i (up σ m)) (control σ d) eta2 Vf Vb (coeffs σ π c) where
  Bf := by
    obtain ⟨B, hB, e⟩ := h.Bf
    refine ⟨B.submatrix id σ, fun m => ?_, ?_⟩
    · obtain ⟨ψ, h1, h2, h3⟩ := hB (σ m)
      refine ⟨ψ, ?_, h2, h3⟩
      show Flow _ (fun t => toM g.N M (fun i m => G i (up σ m)) *ᵥ impulseResponse (control σ d) m t) _ _ _
      simp only [drive]
      exact h1
    · show c.Bf.submatrix id σ = _
      rw [e]
      rfl
  Bb := by
    obtain ⟨B, hB, e⟩ := h.Bb
    refine ⟨B.submatrix id σ, fun m => ?_, ?_⟩
    · obtain ⟨ψ, h1, h2, h3⟩ := hB (σ m)
      refine ⟨ψ, ?_, h2, h3⟩
      show FlowLeft _ (fun t => -(toM g.N M (fun i m => G i (up σ m)) *ᵥ impulseResponse (control σ d) m (d.T - t))) _ _ _
      simp only [drive]
      exact h1
    · show c.Bb.submatrix id σ = _
      rw [e]
      rfl

theorem mpSolver {T : ℝ} {dac : Fin M → Dac} (h : MpSolver g G T dac eta2 Vf Vb c) :
    MpSolver (sys σ g π) (fun i m => G i (up σ m)) T (dac ∘ σ) eta2 Vf Vb (coeffs σ π c) where
  common := common σ π h.common
  Bf m := by
    rw [up_fin]
    exact h.Bf (σ m)
  Bb m := by
    rw [up_fin]
    exact h.Bb (σ m)

theorem symSolver {T : ℝ} {dac : Fin M → Dac} (h : SymSolver g G T dac eta2 Vf Vb c) :
    SymSolver (sys σ g π) (fun i m => G i (up σ m)) T (dac ∘ σ) eta2 Vf Vb (coeffs σ π c) where
  common := common σ π h.common
  Bf m := by
    rw [up_fin]
    exact h.Bf (σ m)
  Bb m := by
    rw [up_fin]
    exact h.Bb (σ m)

/-- **C156** Riccati equations: they do not depend on the numbering. -/
theorem C156_care (A : Matrix (Fin g.N) (Fin g.N) ℝ) (B : Matrix (Fin g.N) (Fin g.Nt) ℝ) (R : Matrix (Fin g.Nt) (Fin g.Nt) ℝ)
    (V : Matrix (Fin g.N) (Fin g.N) ℝ) :
    careA (sys σ g π) = careA g ∧ careB (sys σ g π) = careB g ∧ careR (sys σ g π) eta2 = careR g eta2 ∧
    (IsStabilising A B (careQ (sys σ g π)) R V ↔ IsStabilising A B (careQ g) R V) :=
  ⟨rfl, rfl, rfl, by rw [careQ_sys]⟩

/-- **C156** Filter coefficients: with every backend, with and without `mid_point`, `Af` and `Ab` are unchanged, the columns of `Bf`
and `Bb` and the rows of `WT` are renumbered. -/
theorem C156_coefficients (be : Backend) (mid : Bool) (dac : Fin M → Dac) (h : Computed be mid g G d dac eta2 Vf Vb c) :
    Computed be mid (sys σ g π) (fun i m => G i (up σ m)) (control σ d) (dac ∘ σ) eta2 Vf Vb (coeffs σ π c) := by
  obtain ⟨h0, h1⟩ := h
  refine ⟨cares σ π h0, ?_⟩
  cases be <;> cases mid
  · exact ⟨cares σ π h0, common σ π h1.common, regular σ π h1.regular⟩
  · exact ⟨cares σ π h0, common σ π h1.common, midPoint σ π h1.mid⟩
  · exact symSolver σ π h1
  · exact h1
  · exact mpSolver σ π h1
  · exact mpSolver σ π h1

/-- **C156** Whatever the solvers return for the two numberings: the covariance matrices agree and the coefficients are renumbered. -/
theorem C156_same (he : 0 < eta2) (hreach : Observable (toM g.N g.L g.B)ᵀ (toM g.N g.N g.A)ᵀ)
    (hobs : Observable (toM g.Nt g.N g.CT) (toM g.N g.N g.A)) (hT : 0 ≤ d.T) (hw : ∀ m, Waveform d.T (d.ir m).f)
    (hf : IsStabilising (careA g) (careB g) (careQ g) (careR g eta2) Vf) (hb : IsStabilising (-careA g) (careB g) (careQ g) (careR g eta2) Vb)
    (hc : Numerical g G d eta2 Vf Vb c) {Vf' Vb' : Matrix (Fin g.N) (Fin g.N) ℝ} {c' : Coeffs ℝ g.N M g.L}
    (hf' : IsStabilising (careA (sys σ g π)) (careB (sys σ g π)) (careQ (sys σ g π)) (careR (sys σ g π) eta2) Vf')
    (hb' : IsStabilising (-careA (sys σ g π)) (careB (sys σ g π)) (careQ (sys σ g π)) (careR (sys σ g π) eta2) Vb')
    (hc' : Numerical (sys σ g π) (fun i m => G i (up σ m)) (control σ d) eta2 Vf' Vb' c') :
    Vf' = Vf ∧ Vb' = Vb ∧ c' = coeffs σ π c := by
  have e : Numerical (sys σ⁻¹ (sys σ g π) π⁻¹) (fun i m => G i (up σ (up σ⁻¹ m))) (control σ⁻¹ (control σ d)) eta2 Vf' Vb' (coeffs σ⁻¹ π⁻¹ c') :=
    ⟨cares (g := sys σ g π) σ⁻¹ π⁻¹ hc'.cares, common (g := sys σ g π) σ⁻¹ π⁻¹ hc'.common, regular (g := sys σ g π) σ⁻¹ π⁻¹ hc'.regular⟩
  have e' : Numerical g G d eta2 Vf' Vb' (coeffs σ⁻¹ π⁻¹ c') := by
    simp only [up_symm, control_inv] at e
    exact ⟨⟨by have := e.cares.f; rw [careQ_sys, careQ_sys] at this; exact this, by have := e.cares.b; rw [careQ_sys, careQ_sys] at this; exact this⟩,
      ⟨e.common.Af, e.common.Ab, by have := e.common.WT; simp only [up_symm] at this; exact this⟩, ⟨e.regular.Bf, e.regular.Bb⟩⟩
  rw [careQ_sys] at hf' hb'
  obtain ⟨Wf, Wb, w, -, hu⟩ := C147_coefficients he hreach hobs G d hT hw
  obtain ⟨a1, a2, a3⟩ := hu _ _ _ hf' hb' e'
  obtain ⟨b1, b2, b3⟩ := hu _ _ _ hf hb hc
  refine ⟨a1.trans b1.symm, a2.trans b2.symm, ?_⟩
  have h := a3.trans b3.symm
  rw [← h]
  unfold coeffs
  simp [Matrix.submatrix_submatrix]

end coefficients

section estimators
variable {K : Type*} [CommRing K] [LinearOrder K] {N M L : ℕ} (σ : Equiv.Perm (Fin M)) (π : Equiv.Perm (Fin L)) (c : Coeffs K N M L)

/-- **C156** Estimators: for renumbered control signals, estimators with renumbered coefficients return the renumbered estimates, or
raise the same exceptions. -/
theorem C156_estimates (K1 K2 ds : ℤ) (eta2 : K) (dn limit : ℕ) (mid : Bool) (offset : Option (Fin L → K)) (src : ℕ → Res (Fin M → K)) (n : ℕ) :
    (FIR.new (coeffs σ π c) K1 K2 eta2 mid dn limit (offset.map (· ∘ π))).map
        (fun f => call (f.next fun k => (src k).map (· ∘ σ)) FIRState.init n) =
      (FIR.new c K1 K2 eta2 mid dn limit offset).map (fun f => (call (f.next src) FIRState.init n).map (· ∘ π)) ∧
    (IIR.new (coeffs σ π c) K2 eta2 dn limit).map (fun f => call (f.next fun k => (src k).map (· ∘ σ)) IIRState.init n) =
      (IIR.new c K2 eta2 dn limit).map (fun f => (call (f.next src) IIRState.init n).map (· ∘ π)) ∧
    (Batch.new (coeffs σ π c) K1 K2 eta2 ds limit).map (fun f => call (f.next fun k => (src k).map (· ∘ σ)) f.init n) =
      (Batch.new c K1 K2 eta2 ds limit).map (fun f => (call (f.next src) f.init n).map (· ∘ π)) := by
  refine ⟨?_, ?_, ?_⟩
  · unfold FIR.new
    by_cases h1 : K1 < 0
    · rw [if_pos h1, if_pos h1]; rfl
    rw [if_neg h1, if_neg h1]
    by_cases h2 : K2 < 1
    · rw [if_pos h2, if_pos h2]; rfl
    rw [if_neg h2, if_neg h2]
    by_cases h3 : eta2 < 0
    · rw [if_pos h3, if_pos h3]; rfl
    rw [if_neg h3, if_neg h3]
    by_cases h4 : mid = true
    · rw [if_pos h4, if_pos h4]; rfl
    rw [if_neg h4, if_neg h4, taps_eq]
    refine congrArg Except.ok ?_
    have eo : (offset.map (· ∘ π)).getD (0 : Fin L → K) = offset.getD 0 ∘ π := by cases offset <;> rfl
    rw [eo]
    exact call_map _ _ (firState σ) (· ∘ π)
      (fir_next σ π (⟨K1.toNat, K2.toNat, dn, limit, firTaps c K1.toNat K2.toNat, offset.getD 0⟩ : FIR K M L) src) FIRState.init n
  · unfold IIR.new
    by_cases h1 : K2 < 0
    · rw [if_pos h1, if_pos h1]; rfl
    rw [if_neg h1, if_neg h1]
    by_cases h2 : eta2 < 0
    · rw [if_pos h2, if_pos h2]; rfl
    rw [if_neg h2, if_neg h2, iir_taps]
    refine congrArg Except.ok ?_
    exact call_map _ _ (iirState σ) (· ∘ π) (iir_next σ π (⟨c, K2.toNat, dn, limit, (iirLookahead c K2.toNat).1⟩ : IIR K N M L) src) IIRState.init n
  · unfold Batch.new
    by_cases h1 : K1 < 1
    · rw [if_pos h1, if_pos h1]; rfl
    rw [if_neg h1, if_neg h1]
    by_cases h2 : K2 < 0
    · rw [if_pos h2, if_pos h2]; rfl
    rw [if_neg h2, if_neg h2]
    by_cases h3 : eta2 < 0
    · rw [if_pos h3, if_pos h3]; rfl
    rw [if_neg h3, if_neg h3]
    by_cases h4 : ds ≠ 1
    · rw [if_pos h4, if_pos h4]; rfl
    rw [if_neg h4, if_neg h4]
    refine congrArg Except.ok ?_
    exact call_map _ _ (batchState σ π) (· ∘ π) (batch_next σ π (⟨c, K1.toNat, K2.toNat, limit⟩ : Batch K N M L) src)
      (Batch.init ⟨c, K1.toNat, K2.toNat, limit⟩) n

end estimators

/-- **C156** Frequency responses: the columns of the transfer function matrix are renumbered like the inputs, those of the transfer
functions of the control signals like the controls; `eta2` is the same, and the noise and signal transfer functions are
renumbered. -/
theorem C156_responses (g : Sys ℂ) (σ : Equiv.Perm (Fin g.M)) (π : Equiv.Perm (Fin g.L)) (s : ℂ) (BW eta2 : ℝ)
    (pinv : Matrix (Fin g.Nt) (Fin g.Nt) ℂ → Matrix (Fin g.Nt) (Fin g.Nt) ℂ) :
    (sys σ g π).tfm s = (g.tfm s).submatrix id π ∧
    (sys σ g π).ctfm s = (g.ctfm s).map (fun X => X.submatrix id σ) ∧
    (sys σ g π).eta2 BW = g.eta2 BW ∧
    ntf pinv eta2 ((sys σ g π).tfm s) = (ntf pinv eta2 (g.tfm s)).submatrix π id ∧
    stf pinv eta2 ((sys σ g π).tfm s) = stf pinv eta2 (g.tfm s) ∘ π := by
  have h1 : ∀ s, (sys σ g π).tfm s = (g.tfm s).submatrix id π := fun s => by
    show toM g.Nt g.L (fun i l => g.D i (up π l)) + toM g.Nt g.N g.CT * (_ * toM g.N g.L fun i l => g.B i (up π l)) = _
    rw [toM_cols, toM_cols]
    rfl
  have hg : gram eta2 ((g.tfm s).submatrix id π) = gram eta2 (g.tfm s) := by
    unfold gram
    congr 1
    exact gram_perm π (g.tfm s) (g.tfm s)ᴴ
  refine ⟨h1 s, ?_, ?_, ?_, ?_⟩
  · unfold Sys.ctfm
    dsimp only
    cases hG : g.Gamma with
    | none => rfl
    | some G =>
      show Except.ok ((sys σ g π).generalAtf s * toM g.N g.M fun i m => G i (up σ m)) = _
      rw [toM_cols]
      rfl
  · unfold Sys.eta2
    rw [h1]
    exact Finset.sum_congr rfl fun n _ => Equiv.sum_comp π fun l => ‖g.tfm (jw (2 * Real.pi * BW)) n l‖ ^ 2
  · unfold ntf
    rw [h1, hg]
    rfl
  · unfold stf
    rw [h1, hg]
    rfl

/-- **C156** The whole converter: two descriptions of the same circuit with different numberings, each simulated from corresponding
states with the same inputs, and with exactly computed coefficients, have the same control signals and give the same estimates, up
to the numbering. -/
theorem C156_converter {M : ℕ} (σ : Equiv.Perm (Fin M)) (cfg : Cfg M) (π : Equiv.Perm (Fin cfg.sys.L)) (hin : cfg.hasInput = true) (hT : 0 < cfg.dc.T)
    (hw : ∀ m, Waveform cfg.dc.T (cfg.dc.ir m).f) {eta2 : ℝ} (he : 0 < eta2)
    (hreach : Observable (toM cfg.sys.N cfg.sys.L cfg.sys.B)ᵀ (toM cfg.sys.N cfg.sys.N cfg.sys.A)ᵀ)
    (hobs : Observable (toM cfg.sys.Nt cfg.sys.N cfg.sys.CT) (toM cfg.sys.N cfg.sys.N cfg.sys.A))
    {s s' : ℕ → St M} {φ φ' : ℕ → ℝ → ℕ → ℝ} (hr : Run cfg s φ) (hr' : Run (config σ cfg π) s' φ')
    (h0 : (∀ n < cfg.sys.N, (s' 0).x n = (s 0).x n) ∧ (s' 0).c = state σ (s 0).c ∧ (s' 0).t = (s 0).t ∧ (s' 0).ticks = (s 0).ticks)
    {G : ℕ → ℕ → ℝ} {Vf Vb Vf' Vb' : Matrix (Fin cfg.sys.N) (Fin cfg.sys.N) ℝ} {c c' : Coeffs ℝ cfg.sys.N M cfg.sys.L}
    (hf : IsStabilising (careA cfg.sys) (careB cfg.sys) (careQ cfg.sys) (careR cfg.sys eta2) Vf)
    (hb : IsStabilising (-careA cfg.sys) (careB cfg.sys) (careQ cfg.sys) (careR cfg.sys eta2) Vb)
    (hc : Numerical cfg.sys G cfg.dc eta2 Vf Vb c)
    (hf' : IsStabilising (careA (sys σ cfg.sys π)) (careB (sys σ cfg.sys π)) (careQ (sys σ cfg.sys π)) (careR (sys σ cfg.sys π) eta2) Vf')
    (hb' : IsStabilising (-careA (sys σ cfg.sys π)) (careB (sys σ cfg.sys π)) (careQ (sys σ cfg.sys π)) (careR (sys σ cfg.sys π) eta2) Vb')
    (hc' : Numerical (sys σ cfg.sys π) (fun i m => G i (up σ m)) (control σ cfg.dc) eta2 Vf' Vb' c') :
    (∀ k, (∀ n < cfg.sys.N, (s' k).x n = (s k).x n) ∧ signal (s' k).c = signal (s k).c ∘ σ) ∧
    ∀ (K1 K2 : ℤ) (limit n : ℕ), (Batch.new c' K1 K2 eta2 1 limit).map (fun f => call (f.next fun k => .ok (signal (s' (k + 1)).c)) f.init n) =
      (Batch.new c K1 K2 eta2 1 limit).map (fun f => (call (f.next fun k => .ok (signal (s (k + 1)).c)) f.init n).map (· ∘ π)) := by
  have e1 := C28_deterministic (config σ cfg π) hin hT _ _ _ _ hr' ((C156_simulation σ cfg π s φ).2 hr) h0
  have e2 := (C156_same σ π he hreach hobs hT.le hw hf hb hc hf' hb' hc').2.2
  have e3 : ∀ k, signal (s' k).c = signal (s k).c ∘ σ := fun k => by rw [(e1 k).2.1]; rfl
  refine ⟨fun k => ⟨(e1 k).1, e3 k⟩, fun K1 K2 limit n => ?_⟩
  rw [e2]
  simp only [e3]
  exact (C156_estimates σ π c K1 K2 1 eta2 1 limit false none (fun k => .ok (signal (s (k + 1)).c)) n).2.2

/-- two integrators, each with an input and a control of its own, and gains that tell them apart -/
def exSys : Sys ℝ :=
  ⟨2, 2, 2, 2, 2, fun _ _ => 0, fun i l => if i = l then (i : ℝ) + 1 else 0, fun n i => if n = i then 1 else 0,
    some fun i m => if i = m then -(i : ℝ) - 2 else 0, some fun m i => if m = i then 1 else 0, fun _ _ => 0, fun _ _ => 0, fun _ _ => 0⟩

/-- their converter; the second control has an offset -/
noncomputable def exCfg : Cfg 2 :=
  ⟨exSys, ⟨1 / 2, 0, 0, fun _ => stepResponse 0, fun m => if m = 1 then 1 / 8 else 0⟩, fun _ t l => Real.sin (t + l), true⟩

theorem ex_reach : Observable (toM exSys.N exSys.L exSys.B)ᵀ (toM exSys.N exSys.N exSys.A)ᵀ := by
  intro μ x hx _ h
  change Fin 2 → ℂ at x
  have k : ∀ i : Fin 2, ∑ j : Fin 2, ((if (j : ℕ) = i then ((j : ℕ) : ℝ) + 1 else 0 : ℝ) : ℂ) * x j = 0 := fun i => congrFun h i
  have k0 := k 0
  have k1 := k 1
  simp [Fin.sum_univ_two] at k0 k1
  exact hx (funext fun i : Fin 2 => by fin_cases i <;> assumption)

theorem ex_obs : Observable (toM exSys.Nt exSys.N exSys.CT) (toM exSys.N exSys.N exSys.A) := by
  intro μ x hx _ h
  change Fin 2 → ℂ at x
  have k : ∀ i : Fin 2, ∑ j : Fin 2, ((if (i : ℕ) = j then 1 else 0 : ℝ) : ℂ) * x j = 0 := fun i => congrFun h i
  have k0 := k 0
  have k1 := k 1
  simp [Fin.sum_univ_two] at k0 k1
  exact hx (funext fun i : Fin 2 => by fin_cases i <;> assumption)

/-- C156_simulation, C156_care, C156_coefficients, C156_same, C156_converter: the two integrators, exchanged, meet the hypotheses, and the
exchange is a change -/
example : ∃ s φ, Run exCfg s φ ∧ (s 0).x 1 = 1 / 4 ∧
    Run (config (Equiv.swap 0 1) exCfg (Equiv.swap (0 : Fin 2) (1 : Fin 2))) (fun k => st (Equiv.swap 0 1) (s k)) φ ∧
    (sys (Equiv.swap (0 : Fin 2) 1) exSys (Equiv.swap (0 : Fin 2) (1 : Fin 2))).B ≠ exSys.B ∧
    ∃ G Vf Vb c, exSys.Gamma = some G ∧ IsStabilising (careA exSys) (careB exSys) (careQ exSys) (careR exSys 1) Vf ∧
      IsStabilising (-careA exSys) (careB exSys) (careQ exSys) (careR exSys 1) Vb ∧ Numerical exSys G exCfg.dc 1 Vf Vb c ∧
      Computed .numpy false exSys G exCfg.dc (fun _ => .step 0 1) 1 Vf Vb c ∧
      Numerical (sys (Equiv.swap (0 : Fin 2) 1) exSys (Equiv.swap (0 : Fin 2) (1 : Fin 2))) (fun i m => G i (up (Equiv.swap (0 : Fin 2) 1) m))
        (control (Equiv.swap 0 1) exCfg.dc) 1 Vf Vb (coeffs (Equiv.swap 0 1) (Equiv.swap (0 : Fin 2) (1 : Fin 2)) c) := by
  have hw : ∀ m : Fin 2, Waveform exCfg.dc.T (exCfg.dc.ir m).f := fun m => C147_waveforms (.step 0 1) (1 / 2)
  obtain ⟨s, φ, h0, hr⟩ := C148_run exCfg (by norm_num [exCfg]) (fun m => ⟨.step 0 1, rfl⟩)
    (fun _ l => Real.continuous_sin.comp (continuous_id.add continuous_const)) ⟨by simp [exCfg, exSys], rfl, by simp [exCfg, exSys], le_refl 2⟩
    ⟨0, 0, fun _ => 1 / 4, fun _ => 0, fun _ => 0, fun _ => 0⟩
  obtain ⟨Vf, Vb, c, ⟨k1, k2, k3⟩, -⟩ := C147_coefficients (eta2 := 1) one_pos ex_reach ex_obs (fun i m => if i = m then -(i : ℝ) - 2 else 0)
    exCfg.dc (by norm_num [exCfg]) hw
  have h := C156_coefficients (Equiv.swap (0 : Fin 2) 1) (Equiv.swap (0 : Fin 2) (1 : Fin 2)) .numpy false (fun _ => .step 0 1)
    (show Computed .numpy false exSys _ exCfg.dc (fun _ => .step 0 1) 1 Vf Vb c from ⟨k3.cares, k3⟩)
  refine ⟨s, φ, hr, by rw [h0], (C156_simulation _ _ _ s φ).2 hr, fun e => ?_, _, Vf, Vb, c, rfl, k1, k2, k3, ⟨k3.cares, k3⟩, h.2⟩
  have := congrFun₂ e 0 0
  simp [exSys, up] at this
  change 0 = ((Equiv.swap (0 : Fin 2) 1 0 : Fin 2) : ℕ) at this
  simp at this

/-- C156_control: with different starting times the exchanged control is refused -/
example : (∃ d, DC.new (1 : ℚ) 0 2 (some (List.ofFn ![stepResponse 0, stepResponse (1 / 2)])) 0 (some (List.ofFn ![0, 1])) = .ok d) ∧
    DC.new (1 : ℚ) 0 2 (some (List.ofFn (![stepResponse 0, stepResponse (1 / 2)] ∘ Equiv.swap 0 1))) 0 (some (List.ofFn (![0, 1] ∘ Equiv.swap 0 1))) =
      .error .exception ∧
    ∃ d, DC.new (1 : ℚ) 0 2 (some (List.ofFn ![stepResponse (1 / 2), ⟨1 / 2, fun t => t⟩])) 0 (some (List.ofFn ![0, 1])) = .ok d ∧
      DC.new (1 : ℚ) 0 2 (some (List.ofFn (![stepResponse (1 / 2), ⟨1 / 2, fun t => t⟩] ∘ Equiv.swap 0 1))) 0
        (some (List.ofFn (![0, 1] ∘ Equiv.swap 0 1))) = .ok (control (Equiv.swap 0 1) d) := by
  have a1 : ∃ d, DC.new (1 : ℚ) 0 2 (some (List.ofFn ![stepResponse 0, stepResponse (1 / 2)])) 0 (some (List.ofFn ![0, 1])) = .ok d := by
    refine ⟨⟨1, 0, 0, ![stepResponse 0, stepResponse (1 / 2)], ![0, 1]⟩, ?_⟩
    simp [DC.new, initIR, initOffsets, badPhases, anyDecrease, stepResponse]
    norm_num
    exact ⟨funext fun i => by fin_cases i <;> rfl, funext fun i => by fin_cases i <;> rfl⟩
  have a2 : ∃ d, DC.new (1 : ℚ) 0 2 (some (List.ofFn ![stepResponse (1 / 2), ⟨1 / 2, fun t => t⟩])) 0 (some (List.ofFn ![0, 1])) = .ok d := by
    refine ⟨⟨1, 0, 0, ![stepResponse (1 / 2), ⟨1 / 2, fun t => t⟩], ![0, 1]⟩, ?_⟩
    simp [DC.new, initIR, initOffsets, badPhases, anyDecrease, stepResponse]
    norm_num
    exact ⟨funext fun i => by fin_cases i <;> rfl, funext fun i => by fin_cases i <;> rfl⟩
  obtain ⟨d1, e1⟩ := a1
  obtain ⟨d2, e2⟩ := a2
  refine ⟨⟨d1, e1⟩, ?_, d2, e2, ?_⟩
  · rw [C156_control (Equiv.swap 0 1) 1 0 0 _ _ e1, if_pos]
    simp [anyDecrease, stepResponse]
  · rw [C156_control (Equiv.swap 0 1) 1 0 0 _ _ e2, if_neg]
    simp [anyDecrease, stepResponse]

/-- coefficients of a filter with two inputs and two controls -/
noncomputable def exC : Coeffs ℝ 2 2 2 :=
  ⟨1, 1, Matrix.of fun i j => (i : ℝ) + 2 * j, Matrix.of fun i j => (i : ℝ) + 2 * j, Matrix.of fun i j => (i : ℝ) + 3 * j⟩

/-- C156_estimates, C156_responses: renumbered coefficients, which do differ -/
example : coeffs (Equiv.swap 0 1) (Equiv.swap 0 1) exC ≠ exC ∧ (coeffs (Equiv.swap 0 1) 1 exC).Bf ≠ exC.Bf := by
  refine ⟨fun h => ?_, fun h => ?_⟩
  · have := congrFun₂ (congrArg Coeffs.WT h) 0 0
    simp [coeffs, exC] at this
  · have := congrFun₂ h 0 0
    simp [coeffs, exC] at this

end Cbadc.Numbering
