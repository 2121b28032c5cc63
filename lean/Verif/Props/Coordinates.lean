import Verif.Lemmas.Coordinates
import Verif.Model.TransferFunction
import Verif.Props.Existence
import Verif.Props.RunExists
import Verif.Props.Simulator

/-! # The choice of the state variables does not matter (C151) -/

namespace Cbadc.Coordinates

open Matrix Set Filter.Spec Cbadc.Analog Cbadc.Control Cbadc.Estimator Cbadc.Simulate Cbadc.Filter Cbadc.Streams

/-- **C151** Simulations: if a linear map takes the states of one analog system to those of another one (same inputs, same
controls, same control observations), then it takes the simulations of the first one to simulations of the second one, with
exactly the same decisions. -/
theorem C151_maps {M : ℕ} {P : ℕ → ℕ → ℝ} {c c' : Cfg M} (h : Maps P c.sys c'.sys) (hd : c'.dc = c.dc) (hi : c'.input = c.input)
    (hb : c'.hasInput = c.hasInput) {s : ℕ → St M} {φ : ℕ → ℝ → ℕ → ℝ} (hr : Run c s φ) :
    Run c' (fun k => ⟨(s k).ticks, (s k).t, dot c.sys.N P (s k).x, (s k).c⟩) (fun k τ => dot c.sys.N P (φ k τ)) :=
  fun k => period h hd hi hb (hr k)

/-- **C151** Simulations with other state variables: each simulation of one converter is one of the other, with the same
decisions, and vice versa. -/
theorem C151_simulation {M : ℕ} {S R : ℕ → ℕ → ℝ} (c : Cfg M) (h : Inverse c.sys.N S R) (s : ℕ → St M) (φ : ℕ → ℝ → ℕ → ℝ) :
    (Run c s φ → Run ⟨sys S R c.sys, c.dc, c.input, c.hasInput⟩ (fun k => ⟨(s k).ticks, (s k).t, dot c.sys.N S (s k).x, (s k).c⟩)
      fun k τ => dot c.sys.N S (φ k τ)) ∧
    (Run ⟨sys S R c.sys, c.dc, c.input, c.hasInput⟩ s φ → Run c (fun k => ⟨(s k).ticks, (s k).t, dot c.sys.N R (s k).x, (s k).c⟩)
      fun k τ => dot c.sys.N R (φ k τ)) :=
  ⟨fun hr => C151_maps (c' := ⟨sys S R c.sys, c.dc, c.input, c.hasInput⟩) (maps_sys h) rfl rfl rfl hr,
    fun hr => C151_maps (c := ⟨sys S R c.sys, c.dc, c.input, c.hasInput⟩) (maps_back h) rfl rfl rfl hr⟩

section care
variable {N P : ℕ} {A : Matrix (Fin N) (Fin N) ℝ} {B : Matrix (Fin N) (Fin P) ℝ} {Q : Matrix (Fin N) (Fin N) ℝ}
  {W : Matrix (Fin P) (Fin P) ℝ} {V : Matrix (Fin N) (Fin N) ℝ} {S R : Matrix (Fin N) (Fin N) ℝ}

theorem cancelT (h : S * R = 1) {p : ℕ} (X : Matrix (Fin N) (Fin p) ℝ) : Sᵀ * (Rᵀ * X) = X := by
  rw [← Matrix.mul_assoc, ← transpose_mul, mul_eq_one_comm.1 h, transpose_one, Matrix.one_mul]

theorem sandwich (h : S * R = 1) {X : Matrix (Fin N) (Fin N) ℝ} : S * X * Sᵀ = 0 ↔ X = 0 := by
  have h' := mul_eq_one_comm.1 h
  constructor
  · intro e
    have : R * (S * X * Sᵀ) * Rᵀ = X := by
      rw [Matrix.mul_assoc S, cancel h', Matrix.mul_assoc, ← transpose_mul, h', transpose_one, Matrix.mul_one]
    rw [← this, e, Matrix.mul_zero, Matrix.zero_mul]
  · intro e
    rw [e, Matrix.mul_zero, Matrix.zero_mul]

theorem isCare (h : S * R = 1) : IsCare (Rᵀ * A * Sᵀ) (Rᵀ * B) (S * Q * Sᵀ) W (S * V * Sᵀ) ↔ IsCare A B Q W V := by
  have h' := mul_eq_one_comm.1 h
  have e : (Rᵀ * A * Sᵀ)ᵀ * (S * V * Sᵀ) + (S * V * Sᵀ) * (Rᵀ * A * Sᵀ) - (S * V * Sᵀ) * (Rᵀ * B) * W⁻¹ * (Rᵀ * B)ᵀ * (S * V * Sᵀ) +
      S * Q * Sᵀ = S * (Aᵀ * V + V * A - V * B * W⁻¹ * Bᵀ * V + Q) * Sᵀ := by
    simp only [transpose_mul, transpose_transpose, Matrix.mul_assoc, cancel h', cancelT h, Matrix.mul_add, Matrix.add_mul, Matrix.mul_sub,
      Matrix.sub_mul]
  have e' : (S * V * Sᵀ)ᵀ = S * Vᵀ * Sᵀ := by simp only [transpose_mul, transpose_transpose, Matrix.mul_assoc]
  constructor
  · intro ⟨h1, h2⟩
    rw [e] at h1
    rw [e', ← sub_eq_zero, ← Matrix.sub_mul, ← Matrix.mul_sub] at h2
    exact ⟨(sandwich h).1 h1, sub_eq_zero.1 ((sandwich h).1 h2)⟩
  · intro ⟨h1, h2⟩
    exact ⟨by rw [e, h1, Matrix.mul_zero, Matrix.zero_mul], by rw [e', h2]⟩

theorem hurwitz_of (h : S * R = 1) {X : Matrix (Fin N) (Fin N) ℝ} (hX : Hurwitz X) : Hurwitz (S * X * R) := by
  intro μ x hx he
  have h' := mul_eq_one_comm.1 h
  have m : ∀ Y Z : Matrix (Fin N) (Fin N) ℝ, (Y * Z).map (fun a => (a : ℂ)) = Y.map (fun a => (a : ℂ)) * Z.map fun a => (a : ℂ) :=
    fun Y Z => Matrix.map_mul (f := Complex.ofRealHom)
  have m1 : (1 : Matrix (Fin N) (Fin N) ℝ).map (fun a => (a : ℂ)) = 1 := Matrix.map_one _ Complex.ofReal_zero Complex.ofReal_one
  refine hX μ (R.map (fun a => (a : ℂ)) *ᵥ x) (fun h0 => hx ?_) ?_
  · have : S.map (fun a => (a : ℂ)) *ᵥ (R.map (fun a => (a : ℂ)) *ᵥ x) = x := by rw [mulVec_mulVec, ← m, h, m1, one_mulVec]
    rw [← this, h0, mulVec_zero]
  · have := congrArg (R.map (fun a => (a : ℂ)) *ᵥ ·) he
    simp only [mulVec_mulVec, ← m, mulVec_smul] at this
    rw [Matrix.mul_assoc S, cancel h', m, ← mulVec_mulVec] at this
    exact this

theorem observable (h : S * R = 1) {C : Matrix (Fin P) (Fin N) ℝ} {X : Matrix (Fin N) (Fin N) ℝ} (hX : Observable C X) :
    Observable (C * R) (S * X * R) := by
  intro μ x hx he
  have h' := mul_eq_one_comm.1 h
  have m : ∀ {p : ℕ} (Y : Matrix (Fin p) (Fin N) ℝ) (Z : Matrix (Fin N) (Fin N) ℝ),
      (Y * Z).map (fun a => (a : ℂ)) = Y.map (fun a => (a : ℂ)) * Z.map fun a => (a : ℂ) := fun Y Z => Matrix.map_mul (f := Complex.ofRealHom)
  have m1 : (1 : Matrix (Fin N) (Fin N) ℝ).map (fun a => (a : ℂ)) = 1 := Matrix.map_one _ Complex.ofReal_zero Complex.ofReal_one
  rw [m, ← mulVec_mulVec]
  refine hX μ (R.map (fun a => (a : ℂ)) *ᵥ x) (fun h0 => hx ?_) ?_
  · have : S.map (fun a => (a : ℂ)) *ᵥ (R.map (fun a => (a : ℂ)) *ᵥ x) = x := by rw [mulVec_mulVec, ← m, h, m1, one_mulVec]
    rw [← this, h0, mulVec_zero]
  · have := congrArg (R.map (fun a => (a : ℂ)) *ᵥ ·) he
    simp only [mulVec_mulVec, ← m, mulVec_smul] at this
    rw [Matrix.mul_assoc S, cancel h', m, ← mulVec_mulVec] at this
    exact this

theorem hurwitz (h : S * R = 1) {X : Matrix (Fin N) (Fin N) ℝ} : Hurwitz (Rᵀ * X * Sᵀ) ↔ Hurwitz X := by
  have h1 : Rᵀ * Sᵀ = 1 := by rw [← transpose_mul, h, transpose_one]
  have h2 : Sᵀ * Rᵀ = 1 := mul_eq_one_comm.1 h1
  refine ⟨fun hX => ?_, hurwitz_of h1⟩
  have := hurwitz_of h2 hX
  rwa [Matrix.mul_assoc, Matrix.mul_assoc, Matrix.mul_assoc, h2, Matrix.mul_one, ← Matrix.mul_assoc, h2, Matrix.one_mul] at this

theorem stabilising (h : S * R = 1) :
    IsStabilising (Rᵀ * A * Sᵀ) (Rᵀ * B) (S * Q * Sᵀ) W (S * V * Sᵀ) ↔ IsStabilising A B Q W V := by
  have h' := mul_eq_one_comm.1 h
  have e : Rᵀ * A * Sᵀ - Rᵀ * B * W⁻¹ * (Rᵀ * B)ᵀ * (S * V * Sᵀ) = Rᵀ * (A - B * W⁻¹ * Bᵀ * V) * Sᵀ := by
    simp only [transpose_mul, transpose_transpose, Matrix.mul_assoc, cancel h', Matrix.mul_sub, Matrix.sub_mul]
  exact ⟨fun k => ⟨(isCare h).1 k.care, (hurwitz h).1 (e ▸ k.stable)⟩, fun k => ⟨(isCare h).2 k.care, e ▸ (hurwitz h).2 k.stable⟩⟩

theorem exp_sandwich (h : S * R = 1) (t : ℝ) (X : Matrix (Fin N) (Fin N) ℝ) :
    NormedSpace.exp (t • (S * X * R)) = S * NormedSpace.exp (t • X) * R := by
  have hu : IsUnit S := (isUnit_iff_exists_and_exists).2 ⟨⟨R, h⟩, ⟨R, mul_eq_one_comm.1 h⟩⟩
  have hi : S⁻¹ = R := inv_eq_right_inv h
  rw [← hi, ← Matrix.exp_conj _ _ hu, Matrix.mul_smul, Matrix.smul_mul]

end care

section flows
variable {N : ℕ} {X : Matrix (Fin N) (Fin N) ℝ} {v v' : ℝ → Fin N → ℝ} {x : ℝ → Fin N → ℝ} {a b : ℝ} {S R : Matrix (Fin N) (Fin N) ℝ}

theorem deriv_mulVec (S : Matrix (Fin N) (Fin N) ℝ) {d : Fin N → ℝ} {s : Set ℝ} {t : ℝ} (h : HasDerivWithinAt x d s t) :
    HasDerivWithinAt (fun t => S *ᵥ x t) (S *ᵥ d) s t := by
  rw [hasDerivWithinAt_pi] at h ⊢
  intro i
  show HasDerivWithinAt (fun t => ∑ j, S i j * x t j) (∑ j, S i j * d j) s t
  exact HasDerivWithinAt.fun_sum fun j _ => (h j).const_mul (S i j)

theorem cont_mulVec (S : Matrix (Fin N) (Fin N) ℝ) {s : Set ℝ} (h : ContinuousOn x s) : ContinuousOn (fun t => S *ᵥ x t) s := by
  rw [continuousOn_pi] at h ⊢
  intro i
  show ContinuousOn (fun t => ∑ j, S i j * x t j) s
  exact continuousOn_finsetSum _ fun j _ => continuousOn_const.mul (h j)

theorem flow (h : S * R = 1) (hv : ∀ t, v' t = S *ᵥ v t) (hf : Flow X v a b x) : Flow (S * X * R) v' a b fun t => S *ᵥ x t where
  cont := cont_mulVec S hf.cont
  ode t ht := by
    have := deriv_mulVec S (hf.ode t ht)
    rwa [mulVec_add, ← hv, mulVec_mulVec, ← Matrix.mul_one (S * X), ← mul_eq_one_comm.1 h, ← Matrix.mul_assoc, ← mulVec_mulVec] at this

theorem flowLeft (h : S * R = 1) (hv : ∀ t, v' t = S *ᵥ v t) (hf : FlowLeft X v a b x) : FlowLeft (S * X * R) v' a b fun t => S *ᵥ x t where
  cont := cont_mulVec S hf.cont
  ode t ht := by
    have := deriv_mulVec S (hf.ode t ht)
    rwa [mulVec_add, ← hv, mulVec_mulVec, ← Matrix.mul_one (S * X), ← mul_eq_one_comm.1 h, ← Matrix.mul_assoc, ← mulVec_mulVec] at this

end flows

section coefficients
variable {g : Sys ℝ} {M : ℕ} {G : ℕ → ℕ → ℝ} {d : DC ℝ M} {eta2 : ℝ} {Vf Vb : Matrix (Fin g.N) (Fin g.N) ℝ} {c : Coeffs ℝ g.N M g.L}
  {S R : ℕ → ℕ → ℝ}

/-- a covariance matrix for the state variables `S x` -/
def cov {n : ℕ} (S : ℕ → ℕ → ℝ) (V : Matrix (Fin n) (Fin n) ℝ) : Matrix (Fin n) (Fin n) ℝ := toM n n S * V * (toM n n S)ᵀ

theorem toM_A (S R : ℕ → ℕ → ℝ) (g : Sys ℝ) : toM g.N g.N (sys S R g).A = toM g.N g.N S * toM g.N g.N g.A * toM g.N g.N R := by
  rw [toM_mul, toM_mul]

theorem careA_sys (S R : ℕ → ℕ → ℝ) (g : Sys ℝ) : careA (sys S R g) = (toM g.N g.N R)ᵀ * careA g * (toM g.N g.N S)ᵀ := by
  show (toM g.N g.N (sys S R g).A)ᵀ = _
  rw [toM_A, transpose_mul, transpose_mul, Matrix.mul_assoc]; rfl

theorem careB_sys (S R : ℕ → ℕ → ℝ) (g : Sys ℝ) : careB (sys S R g) = (toM g.N g.N R)ᵀ * careB g := by
  show (toM g.Nt g.N (mul g.N g.CT R))ᵀ = _
  rw [toM_mul, transpose_mul]; rfl

theorem careQ_sys (S R : ℕ → ℕ → ℝ) (g : Sys ℝ) : careQ (sys S R g) = cov S (careQ g) := by
  show toM g.N g.L (mul g.N S g.B) * (toM g.N g.L (mul g.N S g.B))ᵀ = toM g.N g.N S * (toM g.N g.L g.B * (toM g.N g.L g.B)ᵀ) * (toM g.N g.N S)ᵀ
  rw [toM_mul, transpose_mul]
  simp only [Matrix.mul_assoc]

theorem cct_sys (S R : ℕ → ℕ → ℝ) (g : Sys ℝ) (eta2 : ℝ) : cct (sys S R g) eta2 = (toM g.N g.N R)ᵀ * cct g eta2 * toM g.N g.N R := by
  show (toM g.Nt g.N (mul g.N g.CT R))ᵀ * ((careR g eta2)⁻¹ * toM g.Nt g.N (mul g.N g.CT R)) = _
  unfold cct
  rw [toM_mul, transpose_mul]
  simp only [Matrix.mul_assoc]

theorem cov_cct (h : toM g.N g.N S * toM g.N g.N R = 1) (V : Matrix (Fin g.N) (Fin g.N) ℝ) :
    cov S V * cct (sys S R g) eta2 = toM g.N g.N S * (V * cct g eta2) * toM g.N g.N R := by
  rw [cct_sys]
  unfold cov
  simp only [Matrix.mul_assoc, cancelT h]

theorem tempAf_sys (h : toM g.N g.N S * toM g.N g.N R = 1) (V : Matrix (Fin g.N) (Fin g.N) ℝ) :
    tempAf (sys S R g) eta2 (cov S V) = toM g.N g.N S * tempAf g eta2 V * toM g.N g.N R := by
  show toM g.N g.N (sys S R g).A - cov S V * cct (sys S R g) eta2 = _
  rw [toM_A, cov_cct h, ← Matrix.sub_mul, ← Matrix.mul_sub]; rfl

theorem tempAb_sys (h : toM g.N g.N S * toM g.N g.N R = 1) (V : Matrix (Fin g.N) (Fin g.N) ℝ) :
    tempAb (sys S R g) eta2 (cov S V) = toM g.N g.N S * tempAb g eta2 V * toM g.N g.N R := by
  show toM g.N g.N (sys S R g).A + cov S V * cct (sys S R g) eta2 = _
  rw [toM_A, cov_cct h, ← Matrix.add_mul, ← Matrix.mul_add]; rfl

theorem neg_sandwich {n : ℕ} (S X R : Matrix (Fin n) (Fin n) ℝ) : -(S * X * R) = S * -X * R := by
  rw [Matrix.mul_neg, Matrix.neg_mul]

theorem cares (h : toM g.N g.N S * toM g.N g.N R = 1) (hc : Cares g eta2 Vf Vb) : Cares (sys S R g) eta2 (cov S Vf) (cov S Vb) where
  f := by rw [careA_sys, careB_sys, careQ_sys]; exact (isCare h).2 hc.f
  b := by rw [careA_sys, careB_sys, careQ_sys, neg_sandwich]; exact (isCare h).2 hc.b

theorem normal {n p : ℕ} {V : Matrix (Fin n) (Fin n) ℝ} (hV : IsUnit V.det) (Y : Matrix (Fin n) (Fin p) ℝ) : Vᵀ * Y = 0 ↔ Y = 0 := by
  constructor
  · intro h
    have hVt : IsUnit Vᵀ.det := by rwa [det_transpose]
    rw [← Matrix.one_mul Y, ← nonsing_inv_mul _ hVt, Matrix.mul_assoc, h, Matrix.mul_zero]
  · intro h
    rw [h, Matrix.mul_zero]

theorem common (h : toM g.N g.N S * toM g.N g.N R = 1) (hV : IsUnit (Vf + Vb).det) {T : ℝ} (hc : Common g T eta2 Vf Vb c) :
    Common (sys S R g) T eta2 (cov S Vf) (cov S Vb) (coeffs (toM g.N g.N S) (toM g.N g.N R) c) where
  Af := by
    rw [tempAf_sys h, exp_sandwich h]
    show toM g.N g.N S * c.Af * toM g.N g.N R = _
    rw [hc.Af]
  Ab := by
    rw [tempAb_sys h, neg_sandwich, exp_sandwich h]
    show toM g.N g.N S * c.Ab * toM g.N g.N R = _
    rw [hc.Ab]
  WT := by
    have e := sub_eq_zero.1 ((normal hV _).1 hc.WT)
    show _ * ((cov S Vf + cov S Vb) * (c.WT * toM g.N g.N R)ᵀ - toM g.N g.L (mul g.N S g.B)) = 0
    have : (cov S Vf + cov S Vb) * (c.WT * toM g.N g.N R)ᵀ = toM g.N g.N S * ((Vf + Vb) * c.WTᵀ) := by
      unfold cov
      rw [← Matrix.add_mul, ← Matrix.mul_add, transpose_mul]
      simp only [Matrix.mul_assoc, cancelT h]
    rw [this, e, toM_mul, sub_self, Matrix.mul_zero]

theorem drive (S G : ℕ → ℕ → ℝ) (n : ℕ) (v : Fin M → ℝ) : toM n M (mul n S G) *ᵥ v = toM n n S *ᵥ (toM n M G *ᵥ v) := by
  rw [toM_mul, mulVec_mulVec]

theorem regular (h : toM g.N g.N S * toM g.N g.N R = 1) (hc : Regular g G d eta2 Vf Vb c) :
    Regular (sys S R g) (mul g.N S G) d eta2 (cov S Vf) (cov S Vb) (coeffs (toM g.N g.N S) (toM g.N g.N R) c) where
  Bf m := by
    obtain ⟨ψ, h1, h2, h3⟩ := hc.Bf m
    refine ⟨fun t => toM g.N g.N S *ᵥ ψ t, ?_, by beta_reduce; rw [h2, mulVec_zero], fun n => ?_⟩
    · rw [tempAf_sys h]
      exact flow h (fun t => drive S G g.N _) h1
    · show ∑ k, toM g.N g.N S n k * c.Bf k m = ∑ k, toM g.N g.N S n k * ψ d.T k
      exact Finset.sum_congr rfl fun k _ => by rw [h3 k]
  Bb m := by
    obtain ⟨ψ, h1, h2, h3⟩ := hc.Bb m
    refine ⟨fun t => toM g.N g.N S *ᵥ ψ t, ?_, by beta_reduce; rw [h2, mulVec_zero], fun n => ?_⟩
    · rw [tempAb_sys h, neg_sandwich]
      refine flowLeft h (fun t => ?_) h1
      rw [mulVec_neg]
      exact congrArg _ (drive S G g.N _)
    · show ∑ k, toM g.N g.N S n k * c.Bb k m = ∑ k, toM g.N g.N S n k * ψ d.T k
      exact Finset.sum_congr rfl fun k _ => by rw [h3 k]

/-- **C151** Riccati equations: with the state variables `S x` the solutions are `S V Sᵀ`, and stabilising ones remain so. -/
theorem C151_care (h : Inverse g.N S R) :
    (IsStabilising (careA (sys S R g)) (careB (sys S R g)) (careQ (sys S R g)) (careR (sys S R g) eta2) (cov S Vf) ↔
      IsStabilising (careA g) (careB g) (careQ g) (careR g eta2) Vf) ∧
    (IsStabilising (-careA (sys S R g)) (careB (sys S R g)) (careQ (sys S R g)) (careR (sys S R g) eta2) (cov S Vb) ↔
      IsStabilising (-careA g) (careB g) (careQ g) (careR g eta2) Vb) := by
  have h' := inverse_iff.1 h
  refine ⟨?_, ?_⟩
  · rw [careA_sys, careB_sys, careQ_sys]; exact stabilising h'
  · rw [careA_sys, careB_sys, careQ_sys, neg_sandwich]; exact stabilising h'

/-- **C151** Filter coefficients: with the state variables `S x` they are those of the original variables, transformed.  (The sum
of the two covariance matrices has to be invertible, which it is for the stabilising solutions of a reachable system.) -/
theorem C151_coefficients (h : Inverse g.N S R) (hV : IsUnit (Vf + Vb).det) (hc : Numerical g G d eta2 Vf Vb c) :
    Numerical (sys S R g) (mul g.N S G) d eta2 (cov S Vf) (cov S Vb) (coeffs (toM g.N g.N S) (toM g.N g.N R) c) :=
  have h' := inverse_iff.1 h
  ⟨cares h' hc.cares, common h' hV hc.common, regular h' hc.regular⟩

/-- **C151** Whatever the solvers return for the two descriptions: the coefficients are transforms of each other. -/
theorem C151_same (h : Inverse g.N S R) (he : 0 < eta2) (hreach : Observable (toM g.N g.L g.B)ᵀ (toM g.N g.N g.A)ᵀ)
    (hobs : Observable (toM g.Nt g.N g.CT) (toM g.N g.N g.A)) (hT : 0 ≤ d.T) (hw : ∀ m, Waveform d.T (d.ir m).f)
    (hf : IsStabilising (careA g) (careB g) (careQ g) (careR g eta2) Vf) (hb : IsStabilising (-careA g) (careB g) (careQ g) (careR g eta2) Vb)
    (hc : Numerical g G d eta2 Vf Vb c) {Vf' Vb' : Matrix (Fin g.N) (Fin g.N) ℝ} {c' : Coeffs ℝ g.N M g.L}
    (hf' : IsStabilising (careA (sys S R g)) (careB (sys S R g)) (careQ (sys S R g)) (careR (sys S R g) eta2) Vf')
    (hb' : IsStabilising (-careA (sys S R g)) (careB (sys S R g)) (careQ (sys S R g)) (careR (sys S R g) eta2) Vb')
    (hc' : Numerical (sys S R g) (mul g.N S G) d eta2 Vf' Vb' c') :
    Vf' = cov S Vf ∧ Vb' = cov S Vb ∧ c' = coeffs (toM g.N g.N S) (toM g.N g.N R) c := by
  have h' := inverse_iff.1 h
  have hr' : Observable (toM g.N g.L (sys S R g).B)ᵀ (toM g.N g.N (sys S R g).A)ᵀ := by
    have := observable (S := (toM g.N g.N R)ᵀ) (R := (toM g.N g.N S)ᵀ) (by rw [← transpose_mul, h', transpose_one]) hreach
    rw [toM_A, toM_mul, transpose_mul, transpose_mul, transpose_mul, ← Matrix.mul_assoc]
    exact this
  have ho' : Observable (toM g.Nt g.N (sys S R g).CT) (toM g.N g.N (sys S R g).A) := by
    rw [toM_A, toM_mul]
    exact observable h' hobs
  have o1 : Observable (careQ g) (careA g) := hreach.gram
  have pf := (C144_stabilising hf careQ_psd (careR_posDef he) o1).2
  have pb := (C144_stabilising hb careQ_psd (careR_posDef he) o1.neg).2
  obtain ⟨Wf, Wb, e, -, hu⟩ := C147_coefficients (g := sys S R g) he hr' ho' (mul g.N S G) d hT hw
  obtain ⟨a1, a2, a3⟩ := hu _ _ _ hf' hb' hc'
  obtain ⟨b1, b2, b3⟩ := hu _ _ _ ((C151_care (Vb := Vb) h).1.2 hf) ((C151_care (Vf := Vf) h).2.2 hb)
    (C151_coefficients h (pf.add pb).det_pos.ne'.isUnit hc)
  exact ⟨a1.trans b1.symm, a2.trans b2.symm, a3.trans b3.symm⟩

end coefficients

section estimators
variable {K : Type*} [CommRing K] [LinearOrder K] {N M L : ℕ} {S R : Matrix (Fin N) (Fin N) K} (c : Coeffs K N M L)

/-- **C151** Estimators: transformed coefficients make estimators that give the same estimates, or raise the same exceptions, for all
control signals; the filters with finite response have the same taps. -/
theorem C151_estimates (h : S * R = 1) (K1 K2 ds : ℤ) (eta2 : K) (dn limit : ℕ) (mid : Bool) (offset : Option (Fin L → K))
    (src : ℕ → Res (Fin M → K)) (n : ℕ) :
    FIR.new (coeffs S R c) K1 K2 eta2 mid dn limit offset = FIR.new c K1 K2 eta2 mid dn limit offset ∧
    (IIR.new (coeffs S R c) K2 eta2 dn limit).map (fun f => call (f.next src) IIRState.init n) =
      (IIR.new c K2 eta2 dn limit).map (fun f => call (f.next src) IIRState.init n) ∧
    (Batch.new (coeffs S R c) K1 K2 eta2 ds limit).map (fun f => call (f.next src) f.init n) =
      (Batch.new c K1 K2 eta2 ds limit).map (fun f => call (f.next src) f.init n) := by
  have h' := mul_eq_one_comm.1 h
  refine ⟨?_, ?_, ?_⟩
  · unfold FIR.new
    rw [firTaps_eq c h']
  · unfold IIR.new
    by_cases h1 : K2 < 0
    · rw [if_pos h1, if_pos h1]
    rw [if_neg h1, if_neg h1]
    by_cases h2 : eta2 < 0
    · rw [if_pos h2, if_pos h2]
    rw [if_neg h2, if_neg h2, iirLookahead_eq c h']
    refine congrArg Except.ok ?_
    have := call_map (fun st => (IIR.next (⟨c, K2.toNat, dn, limit, (iirLookahead c K2.toNat).1⟩ : IIR K N M L) src st)) _ (iirState S)
      (iir_next h' (⟨c, K2.toNat, dn, limit, (iirLookahead c K2.toNat).1⟩ : IIR K N M L) src) IIRState.init n
    have e : iirState S (IIRState.init : IIRState K N M) = IIRState.init := by
      unfold iirState IIRState.init
      simp
    rw [e] at this
    exact this
  · unfold Batch.new
    by_cases h1 : K1 < 1
    · rw [if_pos h1, if_pos h1]
    rw [if_neg h1, if_neg h1]
    by_cases h2 : K2 < 0
    · rw [if_pos h2, if_pos h2]
    rw [if_neg h2, if_neg h2]
    by_cases h3 : eta2 < 0
    · rw [if_pos h3, if_pos h3]
    rw [if_neg h3, if_neg h3]
    by_cases h4 : ds ≠ 1
    · rw [if_pos h4, if_pos h4]
    rw [if_neg h4, if_neg h4]
    refine congrArg Except.ok ?_
    have := call_map (fun st => (Batch.next (⟨c, K1.toNat, K2.toNat, limit⟩ : Batch K N M L) src st)) _ (batchState S)
      (batch_next h' (⟨c, K1.toNat, K2.toNat, limit⟩ : Batch K N M L) src) (Batch.init ⟨c, K1.toNat, K2.toNat, limit⟩) n
    have e : batchState S (Batch.init (⟨c, K1.toNat, K2.toNat, limit⟩ : Batch K N M L)) = Batch.init ⟨c, K1.toNat, K2.toNat, limit⟩ := by
      unfold batchState Batch.init
      simp
    rw [e] at this
    exact this

end estimators

/-- **C151** Frequency responses: the transfer function matrix does not depend on the state variables, hence neither do `eta2` and the
noise and signal transfer functions, which are functions of it. -/
theorem C151_responses {K : Type*} [Field K] {S R : ℕ → ℕ → K} (g : Sys K) (h : Inverse g.N S R) (s : K) : (sys S R g).tfm s = g.tfm s := by
  have h' := inverse_iff.1 h
  have h2 := mul_eq_one_comm.1 h'
  have e : s • (1 : Matrix (Fin g.N) (Fin g.N) K) - toM g.N g.N (sys S R g).A =
      toM g.N g.N S * (s • (1 : Matrix (Fin g.N) (Fin g.N) K) - toM g.N g.N g.A) * toM g.N g.N R := by
    rw [toM_mul, toM_mul, Matrix.mul_sub, Matrix.sub_mul, Matrix.mul_smul, Matrix.smul_mul, Matrix.mul_one, h']
  show toM g.Nt g.L g.D + toM g.Nt g.N (mul g.N g.CT R) *
    ((s • (1 : Matrix (Fin g.N) (Fin g.N) K) - toM g.N g.N (sys S R g).A)⁻¹ * toM g.N g.L (mul g.N S g.B)) = _
  rw [e, Matrix.mul_inv_rev, Matrix.mul_inv_rev, inv_eq_right_inv h', inv_eq_right_inv h2, toM_mul, toM_mul]
  simp only [Matrix.mul_assoc, cancel h2]
  rfl

/-- **C151** `eta2` at a bandwidth does not depend on the state variables. -/
theorem C151_eta2 {S R : ℕ → ℕ → ℂ} (g : Sys ℂ) (h : Inverse g.N S R) (BW : ℝ) : (sys S R g).eta2 BW = g.eta2 BW := by
  unfold Sys.eta2
  rw [C151_responses g h]

/-- **C151** The whole converter: two descriptions of the same circuit with different state variables, each simulated from
corresponding states with the same inputs, and with exactly computed coefficients, have the same control signals and give the same
estimates. -/
theorem C151_converter {M : ℕ} {S R : ℕ → ℕ → ℝ} (cfg : Cfg M) (h : Inverse cfg.sys.N S R) (hin : cfg.hasInput = true) (hT : 0 < cfg.dc.T)
    (hw : ∀ m, Waveform cfg.dc.T (cfg.dc.ir m).f) {eta2 : ℝ} (he : 0 < eta2)
    (hreach : Observable (toM cfg.sys.N cfg.sys.L cfg.sys.B)ᵀ (toM cfg.sys.N cfg.sys.N cfg.sys.A)ᵀ)
    (hobs : Observable (toM cfg.sys.Nt cfg.sys.N cfg.sys.CT) (toM cfg.sys.N cfg.sys.N cfg.sys.A))
    {s s' : ℕ → St M} {φ φ' : ℕ → ℝ → ℕ → ℝ} (hr : Run cfg s φ) (hr' : Run ⟨sys S R cfg.sys, cfg.dc, cfg.input, cfg.hasInput⟩ s' φ')
    (h0 : (∀ n < cfg.sys.N, (s' 0).x n = dot cfg.sys.N S (s 0).x n) ∧ (s' 0).c = (s 0).c ∧ (s' 0).t = (s 0).t ∧ (s' 0).ticks = (s 0).ticks)
    {G : ℕ → ℕ → ℝ} {Vf Vb Vf' Vb' : Matrix (Fin cfg.sys.N) (Fin cfg.sys.N) ℝ} {c c' : Coeffs ℝ cfg.sys.N M cfg.sys.L}
    (hf : IsStabilising (careA cfg.sys) (careB cfg.sys) (careQ cfg.sys) (careR cfg.sys eta2) Vf)
    (hb : IsStabilising (-careA cfg.sys) (careB cfg.sys) (careQ cfg.sys) (careR cfg.sys eta2) Vb)
    (hc : Numerical cfg.sys G cfg.dc eta2 Vf Vb c)
    (hf' : IsStabilising (careA (sys S R cfg.sys)) (careB (sys S R cfg.sys)) (careQ (sys S R cfg.sys)) (careR (sys S R cfg.sys) eta2) Vf')
    (hb' : IsStabilising (-careA (sys S R cfg.sys)) (careB (sys S R cfg.sys)) (careQ (sys S R cfg.sys)) (careR (sys S R cfg.sys) eta2) Vb')
    (hc' : Numerical (sys S R cfg.sys) (mul cfg.sys.N S G) cfg.dc eta2 Vf' Vb' c') :
    (∀ k, signal (s' k).c = signal (s k).c) ∧
    ∀ (K1 K2 : ℤ) (limit n : ℕ), (Batch.new c' K1 K2 eta2 1 limit).map (fun f => call (f.next fun k => .ok (signal (s' (k + 1)).c)) f.init n) =
      (Batch.new c K1 K2 eta2 1 limit).map (fun f => call (f.next fun k => .ok (signal (s (k + 1)).c)) f.init n) := by
  have e1 : ∀ k, (s' k).c = (s k).c := fun k =>
    (C28_deterministic ⟨sys S R cfg.sys, cfg.dc, cfg.input, cfg.hasInput⟩ hin hT _ _ _ _ hr' ((C151_simulation cfg h s φ).1 hr) h0 k).2.1
  have e2 := (C151_same h he hreach hobs hT.le hw hf hb hc hf' hb' hc').2.2
  refine ⟨fun k => by rw [e1 k], fun K1 K2 limit n => ?_⟩
  rw [e2]
  simp only [e1]
  exact (C151_estimates c (inverse_iff.1 h) K1 K2 1 eta2 1 limit false none _ n).2.2

/-- the state variables of the example: the first integrator, and the sum of both, the second one counted twice -/
def exS : ℕ → ℕ → ℝ := fun i j => if i = 0 then (if j = 0 then 1 else 0) else (if j = 0 then 1 else 2)

/-- the inverse transformation -/
noncomputable def exR : ℕ → ℕ → ℝ := fun i j => if i = 0 then (if j = 0 then 1 else 0) else (if j = 0 then -(1 / 2) else 1 / 2)

theorem ex_inverse : Inverse 2 exS exR := by
  intro i hi j hj
  interval_cases i <;> interval_cases j <;> norm_num [mul, exS, exR, Finset.sum_range_succ]

/-- C151_simulation, C151_care, C151_coefficients, C151_same, C151_converter: a second-order chain of integrators meets the hypotheses -/
example (g : Sys ℝ) (hg : chainOfIntegrators [1, 1] [0, 0] (.mat 2 1 fun _ _ => -1) = .ok g) :
    ∃ (cfg : Cfg 2), cfg.sys = g ∧ cfg.hasInput = true ∧ Inverse cfg.sys.N exS exR ∧ (∀ m, Waveform cfg.dc.T (cfg.dc.ir m).f) ∧
    Observable (toM cfg.sys.N cfg.sys.L cfg.sys.B)ᵀ (toM cfg.sys.N cfg.sys.N cfg.sys.A)ᵀ ∧
    Observable (toM cfg.sys.Nt cfg.sys.N cfg.sys.CT) (toM cfg.sys.N cfg.sys.N cfg.sys.A) ∧
    ∃ s φ, Run cfg s φ ∧ (s 0).x 1 = 1 / 4 ∧
      Run ⟨sys exS exR cfg.sys, cfg.dc, cfg.input, cfg.hasInput⟩
        (fun k => ⟨(s k).ticks, (s k).t, dot cfg.sys.N exS (s k).x, (s k).c⟩) (fun k τ => dot cfg.sys.N exS (φ k τ)) ∧
      ∃ G Vf Vb c, cfg.sys.Gamma = some G ∧ IsStabilising (careA cfg.sys) (careB cfg.sys) (careQ cfg.sys) (careR cfg.sys 1) Vf ∧
        IsStabilising (-careA cfg.sys) (careB cfg.sys) (careQ cfg.sys) (careR cfg.sys 1) Vb ∧ Numerical cfg.sys G cfg.dc 1 Vf Vb c ∧
        IsStabilising (careA (sys exS exR cfg.sys)) (careB (sys exS exR cfg.sys)) (careQ (sys exS exR cfg.sys))
          (careR (sys exS exR cfg.sys) 1) (cov exS Vf) ∧
        Numerical (sys exS exR cfg.sys) (mul cfg.sys.N exS G) cfg.dc 1 (cov exS Vf) (cov exS Vb)
          (coeffs (toM cfg.sys.N cfg.sys.N exS) (toM cfg.sys.N cfg.sys.N exR) c) := by
  have hs : Fits (⟨g, ⟨1 / 2, 0, 0, fun _ => stepResponse 0, fun _ => 0⟩, fun _ t _ => Real.sin t, true⟩ : Cfg 2) :=
    EndToEnd.C148_structures [1, 1] [1] [0, 0] (fun _ _ => -1) (by simp) rfl rfl _ (.inl hg)
  have ho := EndToEnd.C144_chain [1, 1] [0, 0] (fun _ _ => -1) (by simp) rfl g hg
  have h1 := ho.1.2 (by simp)
  have hw : ∀ m : Fin 2, Waveform (1 / 2) ((fun _ : Fin 2 => stepResponse (0 : ℝ)) m).f := fun m => C147_waveforms (.step 0 1) (1 / 2)
  obtain ⟨s, φ, h0, hr⟩ := C148_run (⟨g, ⟨1 / 2, 0, 0, fun _ => stepResponse 0, fun _ => 0⟩, fun _ t _ => Real.sin t, true⟩ : Cfg 2)
    (by norm_num) (fun m => ⟨.step 0 1, rfl⟩) (fun _ _ => Real.continuous_sin) hs ⟨0, 0, fun _ => 1 / 4, fun _ => 0, fun _ => 0, fun _ => 0⟩
  have hN : g.N = 2 := by
    have := (chain_eq [1, 1] [0, 0] (by simp) rfl fun _ _ => -1).symm.trans hg
    rw [← Except.ok.inj this]; rfl
  have hi : Inverse g.N exS exR := hN ▸ ex_inverse
  obtain ⟨G, hG⟩ := Option.ne_none_iff_exists'.1 hs.gamma
  obtain ⟨Vf, Vb, c, ⟨k1, k2, k3⟩, -⟩ := C147_coefficients (eta2 := 1) one_pos h1 ho.2 G
    (⟨1 / 2, 0, 0, fun _ => stepResponse 0, fun _ => 0⟩ : DC ℝ 2) (by norm_num) hw
  have o1 : Observable (careQ g) (careA g) := h1.gram
  have pf := (C144_stabilising k1 careQ_psd (careR_posDef one_pos) o1).2
  have pb := (C144_stabilising k2 careQ_psd (careR_posDef one_pos) o1.neg).2
  exact ⟨_, rfl, rfl, hi, hw, h1, ho.2, s, φ, hr, by rw [h0], (C151_simulation _ hi s φ).1 hr, G, Vf, Vb, c, hG, k1, k2, k3,
    (C151_care (Vb := Vb) hi).1.2 k1, C151_coefficients hi (pf.add pb).det_pos.ne'.isUnit k3⟩

/-- C151_maps: a state that is never observed can be left out -/
example : Maps (fun _ j => if j = 0 then 1 else 0)
    (⟨2, 1, 1, 1, 1, fun i j => if i = 1 ∧ j = 0 then 3 else 0, fun i _ => if i = 0 then 1 else 5, fun _ _ => 0, some fun i _ => if i = 0 then -1 else 7,
      some fun _ j => if j = 0 then 1 else 0, fun _ _ => 0, fun _ _ => 0, fun _ _ => 0⟩ : Sys ℝ)
    ⟨1, 1, 1, 1, 1, fun _ _ => 0, fun _ _ => 1, fun _ _ => 0, some fun _ _ => -1, some fun _ _ => 1, fun _ _ => 0, fun _ _ => 0, fun _ _ => 0⟩ where
  L := rfl
  M := rfl
  Mt := rfl
  A i hi j hj := by
    have hj : j < 2 := hj
    interval_cases j <;> simp [mul]
  B i hi l hl := by simp [mul, Finset.sum_range_succ]
  Gamma G hG := by
    obtain rfl := Option.some.inj hG
    exact ⟨_, rfl, fun i hi m hm => by simp [mul, Finset.sum_range_succ]⟩
  GammaT G hG := by
    obtain rfl := Option.some.inj hG
    refine ⟨_, rfl, fun i hi j hj => ?_⟩
    have hj : j < 2 := hj
    interval_cases j <;> simp [mul]
  Bt _ _ _ _ := rfl
  At _ _ _ _ := rfl

/-- coefficients of a second-order filter -/
noncomputable def exC : Coeffs ℝ 2 1 1 := ⟨1, 1, Matrix.of fun i _ => (i : ℝ), Matrix.of fun i _ => (i : ℝ), Matrix.of fun _ i => (i : ℝ)⟩

/-- C151_estimates, C151_responses, C151_eta2: coefficients in other variables, which do differ -/
example : coeffs (toM 2 2 exS) (toM 2 2 exR) exC ≠ exC ∧
    FIR.new (coeffs (toM 2 2 exS) (toM 2 2 exR) exC) 3 4 1 false 1 0 none = FIR.new exC 3 4 1 false 1 0 none := by
  refine ⟨fun h => ?_, (C151_estimates _ (inverse_iff.1 ex_inverse) 3 4 1 1 1 0 false none (fun _ => .error .exception) 0).1⟩
  have := congrFun₂ (congrArg Coeffs.Bf h) 1 0
  simp [coeffs, exC, toM, exS, Matrix.mul_apply] at this

end Cbadc.Coordinates
