import Verif.Lemmas.Units
import Verif.Props.Existence

/-! # The unit of time does not matter (C150) -/

namespace Cbadc.Units

open Matrix Set Filter.Spec Cbadc.Analog Cbadc.Control Cbadc.Estimator Cbadc.Simulate Cbadc.Filter

/-- **C150** Simulations: running everything `r` times as fast (rates of the analog system, clock, waveforms and inputs) gives
exactly the simulations of the original converter, with the same states and the same control signals, only at other times. -/
theorem C150_simulation {M : ℕ} {r : ℝ} (hr : 0 < r) (c : Cfg M) (s : ℕ → St M) (φ : ℕ → ℝ → ℕ → ℝ) :
    Run (cfg r c) (fun k => ⟨(s k).ticks, (s k).t / r, (s k).x, (s k).c⟩) (fun k τ => φ k (r * τ)) ↔ Run c s φ := by
  constructor
  · intro h k
    have h1 := period (inv_pos.2 hr) (h k)
    have h2 := st_inv hr (s k)
    have h3 := st_inv hr (s (k + 1))
    have e' : ∀ a : ℝ, r * (r⁻¹ * a) = a := fun a => by field_simp
    rw [cfg_inv hr] at h1
    simp only [e'] at h1
    change Period c (st r⁻¹ (st r (s k))) _ (st r⁻¹ (st r (s (k + 1)))) at h1
    rwa [h2, h3] at h1
  · exact fun h k => period hr (h k)

section care
variable {N P : ℕ} {A : Matrix (Fin N) (Fin N) ℝ} {B : Matrix (Fin N) (Fin P) ℝ} {Q : Matrix (Fin N) (Fin N) ℝ}
  {R : Matrix (Fin P) (Fin P) ℝ} {V : Matrix (Fin N) (Fin N) ℝ} {r : ℝ}

theorem isCare (hr : 0 < r) : IsCare (r • A) B ((r * r) • Q) R (r • V) ↔ IsCare A B Q R V := by
  have h : (r • A)ᵀ * (r • V) + (r • V) * (r • A) - (r • V) * B * R⁻¹ * Bᵀ * (r • V) + (r * r) • Q =
      (r * r) • (Aᵀ * V + V * A - V * B * R⁻¹ * Bᵀ * V + Q) := by
    simp only [transpose_smul, Matrix.smul_mul, Matrix.mul_smul, smul_smul, smul_add, smul_sub]
  constructor
  · intro ⟨h1, h2⟩
    rw [h] at h1
    refine ⟨(smul_eq_zero.1 h1).resolve_left (mul_pos hr hr).ne', ?_⟩
    rw [transpose_smul] at h2
    exact smul_right_injective _ hr.ne' h2
  · intro ⟨h1, h2⟩
    exact ⟨by rw [h, h1, smul_zero], by rw [transpose_smul, h2]⟩

theorem hurwitz (hr : 0 < r) {X : Matrix (Fin N) (Fin N) ℝ} : Hurwitz (r • X) ↔ Hurwitz X := by
  have e : (r • X).map (fun a => (a : ℂ)) = (r : ℂ) • X.map fun a => (a : ℂ) := by
    ext i j
    simp
  constructor
  · intro h μ x hx he
    have h1 := h (r * μ) x hx (by rw [e, smul_mulVec, he, smul_smul])
    rw [Complex.re_ofReal_mul] at h1
    exact (mul_neg_iff.1 h1).elim (fun a => a.2) fun a => absurd a.1 (not_lt.2 hr.le)
  · intro h μ x hx he
    have h1 := h ((r : ℂ)⁻¹ * μ) x hx (by
      rw [e, smul_mulVec] at he
      rw [← smul_smul, ← he, smul_smul, inv_mul_cancel₀ (by exact_mod_cast hr.ne'), one_smul])
    rw [← Complex.ofReal_inv, Complex.re_ofReal_mul] at h1
    exact (mul_neg_iff.1 h1).elim (fun a => a.2) fun a => absurd a.1 (not_lt.2 (inv_pos.2 hr).le)

theorem stabilising (hr : 0 < r) : IsStabilising (r • A) B ((r * r) • Q) R (r • V) ↔ IsStabilising A B Q R V := by
  have e : r • A - B * R⁻¹ * Bᵀ * (r • V) = r • (A - B * R⁻¹ * Bᵀ * V) := by rw [Matrix.mul_smul, smul_sub]
  exact ⟨fun h => ⟨(isCare hr).1 h.care, (hurwitz hr).1 (e ▸ h.stable)⟩, fun h => ⟨(isCare hr).2 h.care, e ▸ (hurwitz hr).2 h.stable⟩⟩

end care

section flows
variable {N : ℕ} {X : Matrix (Fin N) (Fin N) ℝ} {v v' : ℝ → Fin N → ℝ} {r T : ℝ} {p : (Fin N → ℝ) → Prop}

theorem flow_iff (hr : 0 < r) (hv : ∀ t, v' t = r • v (r * t)) :
    (∃ ψ, Flow (r • X) v' 0 (T / r) ψ ∧ ψ 0 = 0 ∧ p (ψ (T / r))) ↔ ∃ ψ, Flow X v 0 T ψ ∧ ψ 0 = 0 ∧ p (ψ T) := by
  have e' : ∀ a : ℝ, r * (r⁻¹ * a) = a := fun a => by field_simp
  constructor
  · rintro ⟨ψ, h, h0, h1⟩
    have := flow (inv_pos.2 hr) h
    simp only [hv, e', smul_smul, inv_mul_cancel₀ hr.ne', one_smul, zero_mul, div_inv_eq_mul, div_mul_cancel₀ _ hr.ne'] at this
    exact ⟨_, this, by rw [mul_zero]; exact h0, by rw [inv_mul_eq_div]; exact h1⟩
  · rintro ⟨ψ, h, h0, h1⟩
    have := flow hr h
    simp only [zero_div] at this
    exact ⟨_, by rw [funext hv]; exact this, by rw [mul_zero]; exact h0, by rw [mul_div_cancel₀ _ hr.ne']; exact h1⟩

theorem flowLeft_iff (hr : 0 < r) (hv : ∀ t, v' t = r • v (r * t)) :
    (∃ ψ, FlowLeft (r • X) v' 0 (T / r) ψ ∧ ψ 0 = 0 ∧ p (ψ (T / r))) ↔ ∃ ψ, FlowLeft X v 0 T ψ ∧ ψ 0 = 0 ∧ p (ψ T) := by
  have e' : ∀ a : ℝ, r * (r⁻¹ * a) = a := fun a => by field_simp
  constructor
  · rintro ⟨ψ, h, h0, h1⟩
    have := flowLeft (inv_pos.2 hr) h
    simp only [hv, e', smul_smul, inv_mul_cancel₀ hr.ne', one_smul, zero_mul, div_inv_eq_mul, div_mul_cancel₀ _ hr.ne'] at this
    exact ⟨_, this, by rw [mul_zero]; exact h0, by rw [inv_mul_eq_div]; exact h1⟩
  · rintro ⟨ψ, h, h0, h1⟩
    have := flowLeft hr h
    simp only [zero_div] at this
    exact ⟨_, by rw [funext hv]; exact this, by rw [mul_zero]; exact h0, by rw [mul_div_cancel₀ _ hr.ne']; exact h1⟩

end flows

section coefficients
variable {g : Sys ℝ} {M : ℕ} {G : ℕ → ℕ → ℝ} {d : DC ℝ M} {eta2 r : ℝ} {Vf Vb : Matrix (Fin g.N) (Fin g.N) ℝ} {c : Coeffs ℝ g.N M g.L}

theorem toM_mul (r : ℝ) (m n : ℕ) (A : ℕ → ℕ → ℝ) : toM m n (fun i j => r * A i j) = r • toM m n A := rfl

theorem careA_sys (r : ℝ) (g : Sys ℝ) : careA (sys r g) = r • careA g := rfl

theorem careQ_sys (r : ℝ) (g : Sys ℝ) : careQ (sys r g) = (r * r) • careQ g := by
  show (r • toM g.N g.L g.B) * (r • toM g.N g.L g.B)ᵀ = _
  rw [transpose_smul, Matrix.smul_mul, Matrix.mul_smul, smul_smul]; rfl

theorem tempAf_sys (r : ℝ) (g : Sys ℝ) (eta2 : ℝ) (V : Matrix (Fin g.N) (Fin g.N) ℝ) : tempAf (sys r g) eta2 (r • V) = r • tempAf g eta2 V := by
  show r • toM g.N g.N g.A - (r • V) * cct g eta2 = _
  rw [Matrix.smul_mul, ← smul_sub]; rfl

theorem tempAb_sys (r : ℝ) (g : Sys ℝ) (eta2 : ℝ) (V : Matrix (Fin g.N) (Fin g.N) ℝ) : tempAb (sys r g) eta2 (r • V) = r • tempAb g eta2 V := by
  show r • toM g.N g.N g.A + (r • V) * cct g eta2 = _
  rw [Matrix.smul_mul, ← smul_add]; rfl

theorem cares (hr : 0 < r) : Cares (sys r g) eta2 (r • Vf) (r • Vb) ↔ Cares g eta2 Vf Vb := by
  have h1 : IsCare (careA (sys r g)) (careB g) (careQ (sys r g)) (careR g eta2) (r • Vf) ↔ IsCare (careA g) (careB g) (careQ g) (careR g eta2) Vf := by
    rw [careA_sys, careQ_sys]; exact isCare hr
  have h2 : IsCare (-careA (sys r g)) (careB g) (careQ (sys r g)) (careR g eta2) (r • Vb) ↔ IsCare (-careA g) (careB g) (careQ g) (careR g eta2) Vb := by
    rw [careA_sys, careQ_sys, ← smul_neg]; exact isCare hr
  exact ⟨fun h => ⟨h1.1 h.f, h2.1 h.b⟩, fun h => ⟨h1.2 h.f, h2.2 h.b⟩⟩

theorem common (hr : 0 < r) (T : ℝ) : Common (sys r g) (T / r) eta2 (r • Vf) (r • Vb) c ↔ Common g T eta2 Vf Vb c := by
  have e1 : (T / r) • tempAf (sys r g) eta2 (r • Vf) = T • tempAf g eta2 Vf := by
    rw [tempAf_sys, smul_smul, div_mul_cancel₀ _ hr.ne']
  have e2 : (T / r) • -tempAb (sys r g) eta2 (r • Vb) = T • -tempAb g eta2 Vb := by
    rw [tempAb_sys, ← smul_neg, smul_smul, div_mul_cancel₀ _ hr.ne']
  have e3 : (r • Vf + r • Vb)ᵀ * ((r • Vf + r • Vb) * c.WTᵀ - r • toM g.N g.L g.B) =
      (r * r) • ((Vf + Vb)ᵀ * ((Vf + Vb) * c.WTᵀ - toM g.N g.L g.B)) := by
    rw [← smul_add, transpose_smul, Matrix.smul_mul r (Vf + Vb) c.WTᵀ, ← smul_sub, Matrix.smul_mul, Matrix.mul_smul, smul_smul]
  constructor
  · intro ⟨h1, h2, h3⟩
    refine ⟨h1.trans (by rw [e1]), h2.trans (by rw [e2]), ?_⟩
    exact (smul_eq_zero.1 (e3.symm.trans h3)).resolve_left (mul_pos hr hr).ne'
  · intro ⟨h1, h2, h3⟩
    refine ⟨h1.trans (by rw [e1]), h2.trans (by rw [e2]), ?_⟩
    refine e3.trans ?_
    rw [h3, smul_zero]

theorem drive (hr : 0 < r) (m : Fin M) (t : ℝ) :
    toM g.N M (fun i j => r * G i j) *ᵥ impulseResponse (dc r d) m t = r • (toM g.N M G *ᵥ impulseResponse d m (r * t)) := by
  rw [impulse hr, toM_mul, smul_mulVec]

theorem drive_back (hr : 0 < r) (m : Fin M) (t : ℝ) :
    -(toM g.N M (fun i j => r * G i j) *ᵥ impulseResponse (dc r d) m (d.T / r - t)) =
      r • -(toM g.N M G *ᵥ impulseResponse d m (d.T - r * t)) := by
  rw [drive hr, mul_sub, mul_div_cancel₀ _ hr.ne', smul_neg]

theorem regular (hr : 0 < r) : Regular (sys r g) (fun i j => r * G i j) (dc r d) eta2 (r • Vf) (r • Vb) c ↔ Regular g G d eta2 Vf Vb c := by
  have h1 : ∀ m : Fin M, (∃ ψ, Flow (tempAf (sys r g) eta2 (r • Vf))
      (fun t => toM g.N M (fun i j => r * G i j) *ᵥ impulseResponse (dc r d) m t) 0 (d.T / r) ψ ∧ ψ 0 = 0 ∧ ∀ n, c.Bf n m = ψ (d.T / r) n) ↔
      ∃ ψ, Flow (tempAf g eta2 Vf) (fun t => toM g.N M G *ᵥ impulseResponse d m t) 0 d.T ψ ∧ ψ 0 = 0 ∧ ∀ n, c.Bf n m = ψ d.T n := fun m => by
    rw [tempAf_sys]
    exact flow_iff (p := fun y => ∀ n, c.Bf n m = y n) hr (drive hr m)
  have h2 : ∀ m : Fin M, (∃ ψ, FlowLeft (-tempAb (sys r g) eta2 (r • Vb))
      (fun t => -(toM g.N M (fun i j => r * G i j) *ᵥ impulseResponse (dc r d) m (d.T / r - t))) 0 (d.T / r) ψ ∧ ψ 0 = 0 ∧
        ∀ n, c.Bb n m = ψ (d.T / r) n) ↔
      ∃ ψ, FlowLeft (-tempAb g eta2 Vb) (fun t => -(toM g.N M G *ᵥ impulseResponse d m (d.T - t))) 0 d.T ψ ∧ ψ 0 = 0 ∧
        ∀ n, c.Bb n m = ψ d.T n := fun m => by
    rw [tempAb_sys, ← smul_neg]
    exact flowLeft_iff (p := fun y => ∀ n, c.Bb n m = y n) hr (drive_back hr m)
  exact ⟨fun h => ⟨fun m => (h1 m).1 (h.Bf m), fun m => (h2 m).1 (h.Bb m)⟩, fun h => ⟨fun m => (h1 m).2 (h.Bf m), fun m => (h2 m).2 (h.Bb m)⟩⟩

/-- **C150** Filter coefficients: the coefficients of a converter that runs `r` times as fast are those of the original one. -/
theorem C150_coefficients (hr : 0 < r) :
    (IsStabilising (careA (sys r g)) (careB (sys r g)) (careQ (sys r g)) (careR (sys r g) eta2) (r • Vf) ↔
      IsStabilising (careA g) (careB g) (careQ g) (careR g eta2) Vf) ∧
    (IsStabilising (-careA (sys r g)) (careB (sys r g)) (careQ (sys r g)) (careR (sys r g) eta2) (r • Vb) ↔
      IsStabilising (-careA g) (careB g) (careQ g) (careR g eta2) Vb) ∧
    (Numerical (sys r g) (fun i j => r * G i j) (dc r d) eta2 (r • Vf) (r • Vb) c ↔ Numerical g G d eta2 Vf Vb c) := by
  refine ⟨?_, ?_, ?_⟩
  · rw [careA_sys, careQ_sys]; exact stabilising hr
  · rw [careA_sys, careQ_sys, ← smul_neg]; exact stabilising hr
  · exact ⟨fun h => ⟨(cares hr).1 h.cares, (common hr d.T).1 h.common, (regular hr).1 h.regular⟩,
      fun h => ⟨(cares hr).2 h.cares, (common hr d.T).2 h.common, (regular hr).2 h.regular⟩⟩

/-- **C150** The same for the coefficients computed with `mid_point=True`. -/
theorem C150_mid_point (hr : 0 < r) :
    NumericalMid (sys r g) (fun i j => r * G i j) (dc r d) eta2 (r • Vf) (r • Vb) c ↔ NumericalMid g G d eta2 Vf Vb c := by
  have hT : (dc r d).T / 2 = d.T / 2 / r := by show d.T / r / 2 = _; ring
  have e1 : (d.T / 2 / r) • tempAf (sys r g) eta2 (r • Vf) = (d.T / 2) • tempAf g eta2 Vf := by
    rw [tempAf_sys, smul_smul, div_mul_cancel₀ _ hr.ne']
  have e2 : (d.T / 2 / r) • tempAb (sys r g) eta2 (r • Vb) = (d.T / 2) • tempAb g eta2 Vb := by
    rw [tempAb_sys, smul_smul, div_mul_cancel₀ _ hr.ne']
  have h1 : ∀ (B : Matrix (Fin g.N) (Fin M) ℝ) (m : Fin M), (∃ ψ, Flow (tempAf (sys r g) eta2 (r • Vf))
      (fun t => toM g.N M (fun i j => r * G i j) *ᵥ impulseResponse (dc r d) m t) 0 (d.T / 2 / r) ψ ∧ ψ 0 = 0 ∧
        ∀ n, B n m = ψ (d.T / 2 / r) n) ↔
      ∃ ψ, Flow (tempAf g eta2 Vf) (fun t => toM g.N M G *ᵥ impulseResponse d m t) 0 (d.T / 2) ψ ∧ ψ 0 = 0 ∧
        ∀ n, B n m = ψ (d.T / 2) n := fun B m => by
    rw [tempAf_sys]
    exact flow_iff (p := fun y => ∀ n, B n m = y n) hr (drive hr m)
  have h2 : ∀ (B : Matrix (Fin g.N) (Fin M) ℝ) (m : Fin M), (∃ ψ, FlowLeft (-tempAb (sys r g) eta2 (r • Vb))
      (fun t => -(toM g.N M (fun i j => r * G i j) *ᵥ impulseResponse (dc r d) m (d.T / r - t))) 0 (d.T / 2 / r) ψ ∧ ψ 0 = 0 ∧
        ∀ n, B n m = ψ (d.T / 2 / r) n) ↔
      ∃ ψ, FlowLeft (-tempAb g eta2 Vb) (fun t => -(toM g.N M G *ᵥ impulseResponse d m (d.T - t))) 0 (d.T / 2) ψ ∧ ψ 0 = 0 ∧
        ∀ n, B n m = ψ (d.T / 2) n := fun B m => by
    rw [tempAb_sys, ← smul_neg]
    exact flowLeft_iff (p := fun y => ∀ n, B n m = y n) hr (drive_back hr m)
  have h3 : MidPoint (sys r g) (fun i j => r * G i j) (dc r d) eta2 (r • Vf) (r • Vb) c ↔ MidPoint g G d eta2 Vf Vb c := by
    constructor
    · rintro ⟨⟨B, hB, hc⟩, ⟨B', hB', hc'⟩⟩
      rw [hT, e1] at hc
      rw [hT, e2] at hc'
      rw [hT] at hB hB'
      exact ⟨⟨B, fun m => (h1 B m).1 (hB m), hc⟩, ⟨B', fun m => (h2 B' m).1 (hB' m), hc'⟩⟩
    · rintro ⟨⟨B, hB, hc⟩, ⟨B', hB', hc'⟩⟩
      refine ⟨⟨B, ?_, ?_⟩, ⟨B', ?_, ?_⟩⟩
      · rw [hT]; exact fun m => (h1 B m).2 (hB m)
      · rw [hT, e1]; exact hc
      · rw [hT]; exact fun m => (h2 B' m).2 (hB' m)
      · rw [hT, e2]; exact hc'
  exact ⟨fun h => ⟨(cares hr).1 h.cares, (common hr d.T).1 h.common, h3.1 h.mid⟩,
    fun h => ⟨(cares hr).2 h.cares, (common hr d.T).2 h.common, h3.2 h.mid⟩⟩

/-- **C150** Whatever the solvers return for the two converters: the coefficients agree. -/
theorem C150_same (hr : 0 < r) (he : 0 < eta2) (hreach : Observable (toM g.N g.L g.B)ᵀ (toM g.N g.N g.A)ᵀ)
    (hobs : Observable (toM g.Nt g.N g.CT) (toM g.N g.N g.A)) (hT : 0 ≤ d.T) (hw : ∀ m, Waveform d.T (d.ir m).f)
    (hf : IsStabilising (careA g) (careB g) (careQ g) (careR g eta2) Vf) (hb : IsStabilising (-careA g) (careB g) (careQ g) (careR g eta2) Vb)
    (h : Numerical g G d eta2 Vf Vb c) {Vf' Vb' : Matrix (Fin g.N) (Fin g.N) ℝ} {c' : Coeffs ℝ g.N M g.L}
    (hf' : IsStabilising (careA (sys r g)) (careB (sys r g)) (careQ (sys r g)) (careR (sys r g) eta2) Vf')
    (hb' : IsStabilising (-careA (sys r g)) (careB (sys r g)) (careQ (sys r g)) (careR (sys r g) eta2) Vb')
    (h' : Numerical (sys r g) (fun i j => r * G i j) (dc r d) eta2 Vf' Vb' c') : Vf' = r • Vf ∧ Vb' = r • Vb ∧ c' = c := by
  obtain ⟨Wf, Wb, e, -, hu⟩ := C147_coefficients he hreach hobs G d hT hw
  have e1 : ∀ V : Matrix (Fin g.N) (Fin g.N) ℝ, r • (r⁻¹ • V) = V := fun V => by rw [smul_smul, mul_inv_cancel₀ hr.ne', one_smul]
  have hf'' := (C150_coefficients (Vf := r⁻¹ • Vf') (Vb := r⁻¹ • Vb') (c := c') (G := G) (d := d) (g := g) (eta2 := eta2) hr)
  rw [e1, e1] at hf''
  obtain ⟨a1, a2, a3⟩ := hu _ _ _ hf hb h
  obtain ⟨b1, b2, b3⟩ := hu _ _ _ (hf''.1.1 hf') (hf''.2.1.1 hb') (hf''.2.2.1 h')
  exact ⟨by rw [a1, ← b1, e1], by rw [a2, ← b2, e1], b3.trans a3.symm⟩

end coefficients

/-- C150_coefficients, C150_same: an integrator and the one that runs 1000 times as fast have the same coefficients -/
example : ∃ Vf Vb c, Numerical (exSys 0) (fun _ _ => -1) (exDC 0 (.nrz 0 (1 / 2) 2)) 3 Vf Vb c ∧
    Numerical (sys 1000 (exSys 0)) (fun _ _ => 1000 * -1) (dc 1000 (exDC 0 (.nrz 0 (1 / 2) 2))) 3 ((1000 : ℝ) • Vf) ((1000 : ℝ) • Vb) c ∧
    ∀ Vf' Vb' c', IsStabilising (careA (sys 1000 (exSys 0))) (careB (sys 1000 (exSys 0))) (careQ (sys 1000 (exSys 0))) (careR (sys 1000 (exSys 0)) 3) Vf' →
      IsStabilising (-careA (sys 1000 (exSys 0))) (careB (sys 1000 (exSys 0))) (careQ (sys 1000 (exSys 0))) (careR (sys 1000 (exSys 0)) 3) Vb' →
      Numerical (sys 1000 (exSys 0)) (fun _ _ => 1000 * -1) (dc 1000 (exDC 0 (.nrz 0 (1 / 2) 2))) 3 Vf' Vb' c' → c' = c := by
  have hr : Observable (toM (exSys 0).N (exSys 0).L (exSys 0).B)ᵀ (toM (exSys 0).N (exSys 0).N (exSys 0).A)ᵀ := ex_ctrl
  obtain ⟨Vf, Vb, c, ⟨h1, h2, h3⟩, -⟩ := C147_coefficients (eta2 := 3) (by norm_num) hr ex_obs (fun _ _ => -1)
    (exDC 0 (.nrz 0 (1 / 2) 2)) zero_le_one fun _ => C147_waveforms (.nrz 0 (1 / 2) 2) 1
  exact ⟨Vf, Vb, c, h3, (C150_coefficients (r := 1000) (by norm_num)).2.2.2 h3, fun Vf' Vb' c' a1 a2 a3 =>
    (C150_same (r := 1000) (by norm_num) (by norm_num) hr ex_obs zero_le_one (fun _ => C147_waveforms (.nrz 0 (1 / 2) 2) 1) h1 h2 h3 a1 a2 a3).2.2⟩

end Cbadc.Units
