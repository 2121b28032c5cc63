import Mathlib.LinearAlgebra.Matrix.Charpoly.Basic
import Mathlib.Algebra.Polynomial.Roots
import Mathlib.Analysis.SpecialFunctions.ExpDeriv
import Mathlib.Analysis.Complex.RealDeriv
import Mathlib.Tactic.LinearCombination
import Verif.Model.Resonance
import Verif.Model.PreComputed
import Verif.Spec.Resonance
import Verif.Lemmas.TransferFunction

/-! # Lemmas about transfer functions at resonances -/

namespace Cbadc.Analog

open Matrix Spec

/-- The pencil `jωI - A`. -/
noncomputable abbrev pencil (g : Sys ℂ) (ω : ℝ) : Matrix (Fin g.N) (Fin g.N) ℂ :=
  jw ω • (1 : Matrix (Fin g.N) (Fin g.N) ℂ) - toM g.N g.N g.A

theorem pencil_mulVec (g : Sys ℂ) (ω : ℝ) (x : Fin g.N → ℂ) (i : Fin g.N) :
    (pencil g ω *ᵥ x) i = ω * Complex.I * x i - ∑ k : Fin g.N, g.A i k * x k := by
  rw [pencil, Matrix.sub_mulVec, Matrix.smul_mulVec, Matrix.one_mulVec]
  rfl

theorem isResponse_iff (g : Sys ℂ) (ω : ℝ) (b x : Fin g.N → ℂ) :
    IsResponse (fun i k : Fin g.N => g.A i k) b ω x ↔ pencil g ω *ᵥ x = b := by
  constructor
  · intro h
    funext i
    rw [pencil_mulVec, h i]; ring
  · intro h i
    have := congrFun h i
    rw [pencil_mulVec] at this
    linear_combination this

theorem noResonance_isUnit (g : Sys ℂ) (ω : ℝ) (h : NoResonance (fun i k : Fin g.N => g.A i k) ω) :
    IsUnit (pencil g ω) := by
  rw [← Matrix.mulVec_injective_iff_isUnit]
  intro x y hxy
  have : x - y = 0 := by
    apply h
    rw [isResponse_iff, Matrix.mulVec_sub]
    rw [hxy, sub_self]; rfl
  exact sub_eq_zero.1 this

theorem isUnit_noResonance (g : Sys ℂ) (ω : ℝ) (h : IsUnit (pencil g ω)) :
    NoResonance (fun i k : Fin g.N => g.A i k) ω := by
  intro x hx
  rw [isResponse_iff] at hx
  exact Matrix.mulVec_injective_iff_isUnit.2 h (hx.trans (Matrix.mulVec_zero _).symm)

/-- Column of a product. -/
theorem mul_col {n m p : ℕ} (X : Matrix (Fin n) (Fin m) ℂ) (Y : Matrix (Fin m) (Fin p) ℂ) (l : Fin p) :
    (fun i => (X * Y) i l) = X *ᵥ fun k => Y k l := rfl

theorem sqLen_eq {n : ℕ} (x : Fin n → ℂ) : (sqLen x : ℂ) = star x ⬝ᵥ x := by
  unfold sqLen
  rw [dotProduct, Complex.ofReal_sum]
  refine Finset.sum_congr rfl fun i _ => ?_
  rw [Pi.star_apply, Complex.star_def, ← Complex.normSq_eq_conj_mul_self, Complex.normSq_eq_norm_sq]

/-- The Moore-Penrose solution solves a solvable system and is the shortest solution. -/
theorem pinv_least {n : ℕ} {X P : Matrix (Fin n) (Fin n) ℂ} (h : IsPinv X P) (b y : Fin n → ℂ) (hy : X *ᵥ y = b) :
    X *ᵥ (P *ᵥ b) = b ∧ sqLen (P *ᵥ b) ≤ sqLen y := by
  obtain ⟨h1, h2, -, h4⟩ := h
  have hs : X *ᵥ (P *ᵥ b) = b := by
    rw [← hy, Matrix.mulVec_mulVec, Matrix.mulVec_mulVec, h1]
  refine ⟨hs, ?_⟩
  set x := P *ᵥ b with hx
  -- `y - x` is orthogonal to `x`
  have hxx : (P * X) *ᵥ x = x := by
    rw [hx, Matrix.mulVec_mulVec, h2]
  have hd : (P * X) *ᵥ (y - x) = 0 := by
    rw [Matrix.mulVec_sub, hxx, ← Matrix.mulVec_mulVec, hy, ← hx, sub_self]
  have horth : star x ⬝ᵥ (y - x) = 0 := by
    have e : star x = star x ᵥ* (P * X) := by
      conv_lhs => rw [← hxx, Matrix.star_mulVec, h4]
    rw [e, ← Matrix.dotProduct_mulVec, hd, dotProduct_zero]
  have horth' : star (y - x) ⬝ᵥ x = 0 := by
    have := congrArg star horth
    rwa [Matrix.star_dotProduct, star_star, star_zero] at this
  have e : sqLen y = sqLen x + sqLen (y - x) := by
    have : (sqLen y : ℂ) = sqLen x + sqLen (y - x) := by
      rw [sqLen_eq, sqLen_eq, sqLen_eq]
      have : y = x + (y - x) := by abel
      conv_lhs => rw [this]
      rw [star_add, add_dotProduct, dotProduct_add, dotProduct_add, horth, horth']
      ring
    exact_mod_cast this
  rw [e]
  have : 0 ≤ sqLen (y - x) := Finset.sum_nonneg fun _ _ => sq_nonneg _
  linarith

/-- Where nothing of the right-hand side is in the range, the Moore-Penrose solution is zero. -/
theorem pinv_orth {n : ℕ} {X P : Matrix (Fin n) (Fin n) ℂ} (h : IsPinv X P) (b : Fin n → ℂ) (hb : Xᴴ *ᵥ b = 0) :
    P *ᵥ b = 0 := by
  obtain ⟨-, h2, h3, -⟩ := h
  have : P *ᵥ b = P *ᵥ ((X * P)ᴴ *ᵥ b) := by
    rw [h3, Matrix.mulVec_mulVec, ← Matrix.mul_assoc, h2]
  rw [this, Matrix.conjTranspose_mul, ← Matrix.mulVec_mulVec, hb, Matrix.mulVec_zero, Matrix.mulVec_zero]

/-! ### Fractions -/

/-- `r` has the value `v` at `z`. -/
def HasValue (z : ℂ) (r : RatFunc ℂ) (v : ℂ) : Prop :=
  ∃ p q : Polynomial ℂ, q.eval z ≠ 0 ∧
    r * algebraMap (Polynomial ℂ) (RatFunc ℂ) q = algebraMap (Polynomial ℂ) (RatFunc ℂ) p ∧ v * q.eval z = p.eval z

theorem HasValue.unique {z : ℂ} {r : RatFunc ℂ} {v w : ℂ} (h : HasValue z r v) (h' : HasValue z r w) : v = w := by
  obtain ⟨p, q, hq, hr, hv⟩ := h
  obtain ⟨p', q', hq', hr', hv'⟩ := h'
  have e : p * q' = p' * q := by
    apply RatFunc.algebraMap_injective (K := ℂ)
    rw [map_mul, map_mul, ← hr, ← hr']; ring
  have e' := congrArg (Polynomial.eval z) e
  rw [Polynomial.eval_mul, Polynomial.eval_mul, ← hv, ← hv'] at e'
  have : (v - w) * (q.eval z * q'.eval z) = 0 := by linear_combination e'
  rcases mul_eq_zero.1 this with h | h
  · exact sub_eq_zero.1 h
  · exact absurd h (mul_ne_zero hq hq')

theorem HasValue.add {z : ℂ} {r s : RatFunc ℂ} {v w : ℂ} (h : HasValue z r v) (h' : HasValue z s w) :
    HasValue z (r + s) (v + w) := by
  obtain ⟨p, q, hq, hr, hv⟩ := h
  obtain ⟨p', q', hq', hr', hv'⟩ := h'
  refine ⟨p * q' + p' * q, q * q', by rw [Polynomial.eval_mul]; exact mul_ne_zero hq hq', ?_, ?_⟩
  · rw [map_add, map_mul, map_mul, map_mul, ← hr, ← hr']; ring
  · rw [Polynomial.eval_add, Polynomial.eval_mul, Polynomial.eval_mul, Polynomial.eval_mul, ← hv, ← hv']; ring

theorem HasValue.mul {z : ℂ} {r s : RatFunc ℂ} {v w : ℂ} (h : HasValue z r v) (h' : HasValue z s w) :
    HasValue z (r * s) (v * w) := by
  obtain ⟨p, q, hq, hr, hv⟩ := h
  obtain ⟨p', q', hq', hr', hv'⟩ := h'
  refine ⟨p * p', q * q', by rw [Polynomial.eval_mul]; exact mul_ne_zero hq hq', ?_, ?_⟩
  · rw [map_mul, map_mul, ← hr, ← hr']; ring
  · rw [Polynomial.eval_mul, Polynomial.eval_mul, ← hv, ← hv']; ring

theorem HasValue.poly (z : ℂ) (p : Polynomial ℂ) : HasValue z (algebraMap (Polynomial ℂ) (RatFunc ℂ) p) (p.eval z) :=
  ⟨p, 1, by simp, by simp, by simp⟩

theorem HasValue.const (z c : ℂ) : HasValue z (RatFunc.C c) c := by
  have := HasValue.poly z (Polynomial.C c)
  rwa [RatFunc.algebraMap_C, Polynomial.eval_C] at this

theorem HasValue.sum {ι : Type*} (z : ℂ) (s : Finset ι) (r : ι → RatFunc ℂ) (v : ι → ℂ)
    (h : ∀ i ∈ s, HasValue z (r i) (v i)) : HasValue z (∑ i ∈ s, r i) (∑ i ∈ s, v i) := by
  classical
  induction s using Finset.induction_on with
  | empty => simpa using HasValue.const z 0
  | insert a s ha ih =>
    rw [Finset.sum_insert ha, Finset.sum_insert ha]
    exact (h a (Finset.mem_insert_self _ _)).add (ih fun i hi => h i (Finset.mem_insert_of_mem hi))

theorem Frac.hasValue (f : Frac) (ω : ℝ) (v : ℂ) (h : f.at ω = some v) : HasValue (ω : ℂ) f.val v := by
  unfold Frac.at at h
  by_cases hq : f.den.eval (ω : ℂ) = 0
  · rw [if_pos hq] at h; cases h
  · rw [if_neg hq] at h
    obtain rfl := Option.some.inj h
    refine ⟨f.num, f.den, hq, ?_, div_mul_cancel₀ _ hq⟩
    unfold Frac.val
    apply div_mul_cancel₀
    intro h0
    rw [map_eq_zero_iff _ (RatFunc.algebraMap_injective (K := ℂ))] at h0
    rw [h0] at hq
    simp at hq

/-! ### The symbolic pencil -/

/-- The pencil as a matrix of polynomials. -/
noncomputable def Sys.pencilPoly (g : Sys ℂ) : Matrix (Fin g.N) (Fin g.N) (Polynomial ℂ) :=
  (Polynomial.C Complex.I * Polynomial.X) • (1 : Matrix (Fin g.N) (Fin g.N) (Polynomial ℂ)) -
    (toM g.N g.N g.A).map Polynomial.C

theorem pencilSym_eq (g : Sys ℂ) : g.pencilSym = g.pencilPoly.map (algebraMap (Polynomial ℂ) (RatFunc ℂ)) := by
  ext i j
  unfold Sys.pencilSym Sys.pencilPoly
  simp only [Matrix.sub_apply, Matrix.smul_apply, Matrix.map_apply, Matrix.one_apply, smul_eq_mul, map_sub, map_mul,
    RatFunc.algebraMap_C, RatFunc.algebraMap_X]
  by_cases h : i = j <;> simp [h]

theorem pencilPoly_eval (g : Sys ℂ) (z : ℂ) :
    g.pencilPoly.map (Polynomial.eval z) = (z * Complex.I) • (1 : Matrix (Fin g.N) (Fin g.N) ℂ) - toM g.N g.N g.A := by
  ext i j
  unfold Sys.pencilPoly
  by_cases h : i = j
  · subst h
    simp
    ring
  · simp [h]

theorem pencilPoly_det_eval (g : Sys ℂ) (z : ℂ) :
    g.pencilPoly.det.eval z = ((z * Complex.I) • (1 : Matrix (Fin g.N) (Fin g.N) ℂ) - toM g.N g.N g.A).det := by
  rw [← pencilPoly_eval, ← Polynomial.coe_evalRingHom, RingHom.map_det]
  rfl

theorem pencilPoly_det_ne (g : Sys ℂ) : g.pencilPoly.det ≠ 0 := by
  intro h
  have hz : ∀ z, (toM g.N g.N g.A).charpoly.eval z = 0 := by
    intro z
    have := pencilPoly_det_eval g (-(z * Complex.I))
    rw [h, Polynomial.eval_zero] at this
    rw [Matrix.eval_charpoly, this]
    congr 1
    have e : -(z * Complex.I) * Complex.I = z := by
      rw [neg_mul, mul_assoc, Complex.I_mul_I]; ring
    rw [e]
    ext i j
    by_cases hij : i = j <;> simp [hij, Matrix.scalar_apply]
  have : (toM g.N g.N g.A).charpoly = 0 := Polynomial.funext fun z => by rw [hz, Polynomial.eval_zero]
  exact (Matrix.charpoly_monic _).ne_zero this

theorem pencilSym_isUnit (g : Sys ℂ) : IsUnit g.pencilSym.det := by
  rw [pencilSym_eq, ← RingHom.mapMatrix_apply, ← RingHom.map_det, isUnit_iff_ne_zero]
  intro h
  rw [map_eq_zero_iff _ (RatFunc.algebraMap_injective (K := ℂ))] at h
  exact pencilPoly_det_ne g h

/-- The simplifier keeps the value. -/
theorem right_val {simp : RatFunc ℂ → Frac} (h : RightFraction (fun r => (simp r).num) fun r => (simp r).den) (r : RatFunc ℂ) :
    (simp r).val = r := (h r).2

theorem general_val (g : Sys ℂ) {simp : RatFunc ℂ → Frac} (h : RightFraction (fun r => (simp r).num) fun r => (simp r).den) :
    (g.generalAtfSym simp).map Frac.val = g.pencilSym⁻¹ := by
  ext i j
  exact right_val h _

theorem atfSym_eq (g : Sys ℂ) {simp : RatFunc ℂ → Frac} (h : RightFraction (fun r => (simp r).num) fun r => (simp r).den) :
    g.atfSym simp = (g.pencilSym⁻¹ * (toM g.N g.L g.B).map RatFunc.C).map simp := by
  unfold Sys.atfSym
  rw [general_val g h]

theorem atfSym_solves (g : Sys ℂ) {simp : RatFunc ℂ → Frac} (h : RightFraction (fun r => (simp r).num) fun r => (simp r).den)
    (i : Fin g.N) (l : Fin g.L) :
    ∑ k, g.pencilSym i k * (g.atfSym simp k l).val = RatFunc.C (g.B i l) := by
  have e : ∀ k, (g.atfSym simp k l).val = (g.pencilSym⁻¹ * (toM g.N g.L g.B).map RatFunc.C) k l := by
    intro k
    rw [atfSym_eq g h]
    exact right_val h _
  rw [Finset.sum_congr rfl fun k _ => by rw [e k]]
  have : (g.pencilSym * (g.pencilSym⁻¹ * (toM g.N g.L g.B).map RatFunc.C)) i l = RatFunc.C (g.B i l) := by
    rw [← Matrix.mul_assoc, Matrix.mul_nonsing_inv _ (pencilSym_isUnit g), Matrix.one_mul]
    rfl
  rw [← this, Matrix.mul_apply]

theorem allSome_some {n : ℕ} {f : Fin n → Option ℂ} {x : Fin n → ℂ} (h : allSome f = some x) (k : Fin n) : f k = some (x k) := by
  unfold allSome at h
  by_cases hk : ∀ k, (f k).isSome
  · rw [dif_pos hk] at h
    rw [← Option.some.inj h, Option.some_get]
  · rw [dif_neg hk] at h; cases h

theorem allSome_of {n : ℕ} {f : Fin n → Option ℂ} {x : Fin n → ℂ} (h : ∀ k, f k = some (x k)) : allSome f = some x := by
  unfold allSome
  rw [dif_pos fun k => by rw [h k]; rfl]
  congr 1
  funext k
  simp [h k]

/-- Where the symbolic expressions can be evaluated, they are a response. -/
theorem atfSymAt_response (g : Sys ℂ) {simp : RatFunc ℂ → Frac}
    (h : RightFraction (fun r => (simp r).num) fun r => (simp r).den) (ω : ℝ) (l : Fin g.L) (x : Fin g.N → ℂ)
    (hx : g.atfSymAt simp ω l = some x) : IsResponse (fun i k : Fin g.N => g.A i k) (fun i => g.B i l) ω x := by
  rw [isResponse_iff]
  funext i
  have hv : ∀ k, HasValue (ω : ℂ) (g.atfSym simp k l).val (x k) := fun k => Frac.hasValue _ _ _ (allSome_some hx k)
  have hp : ∀ k, HasValue (ω : ℂ) (g.pencilSym i k) (pencil g ω i k) := by
    intro k
    have := HasValue.poly (ω : ℂ) (g.pencilPoly i k)
    rw [pencilSym_eq]
    have e : pencil g ω i k = (g.pencilPoly i k).eval (ω : ℂ) := by
      have := congrFun (congrFun (pencilPoly_eval g (ω : ℂ)) i) k
      rw [Matrix.map_apply] at this
      rw [this]; rfl
    rw [e]
    exact this
  have hs := HasValue.sum (ω : ℂ) Finset.univ _ _ fun k _ => (hp k).mul (hv k)
  rw [atfSym_solves g h] at hs
  exact hs.unique (HasValue.const _ _)

/-- Fractions in lowest terms can be evaluated away from resonances. -/
theorem atfSymAt_some (g : Sys ℂ) {simp : RatFunc ℂ → Frac}
    (h : RightFraction (fun r => (simp r).num) fun r => (simp r).den) (hc : ∀ r, IsCoprime (simp r).num (simp r).den)
    (ω : ℝ) (hu : IsUnit (pencil g ω)) (l : Fin g.L) : ∃ x, g.atfSymAt simp ω l = some x := by
  suffices hd : ∀ k, (g.atfSym simp k l).den.eval (ω : ℂ) ≠ 0 by
    refine ⟨fun k => (g.atfSym simp k l).num.eval (ω : ℂ) / (g.atfSym simp k l).den.eval (ω : ℂ), allSome_of fun k => ?_⟩
    unfold Frac.at
    rw [if_neg (hd k)]
  intro k hk
  set f := g.atfSym simp k l with hf
  have hcop : IsCoprime f.num f.den := by
    rw [hf, atfSym_eq g h]; exact hc _
  -- `f * det` is a polynomial
  have hval : f.val = (g.pencilSym⁻¹ * (toM g.N g.L g.B).map RatFunc.C) k l := by
    rw [hf, atfSym_eq g h]; exact right_val h _
  have hden : f.den ≠ 0 := by
    rw [hf, atfSym_eq g h]; exact (h _).1
  have hdet : g.pencilSym.det = algebraMap (Polynomial ℂ) (RatFunc ℂ) g.pencilPoly.det := by
    rw [pencilSym_eq, ← RingHom.mapMatrix_apply, ← RingHom.map_det]
  have hadj : g.pencilSym.det • (g.pencilSym⁻¹ * (toM g.N g.L g.B).map RatFunc.C) =
      (g.pencilPoly.adjugate * (toM g.N g.L g.B).map Polynomial.C).map (algebraMap (Polynomial ℂ) (RatFunc ℂ)) := by
    rw [Matrix.map_mul, ← Matrix.smul_mul]
    congr 1
    rw [Matrix.inv_def, smul_smul, Ring.mul_inverse_cancel _ (pencilSym_isUnit g), one_smul, pencilSym_eq,
      ← RingHom.mapMatrix_apply, ← RingHom.map_adjugate, RingHom.mapMatrix_apply]
  set a := (g.pencilPoly.adjugate * (toM g.N g.L g.B).map Polynomial.C) k l with ha
  have hfa : g.pencilPoly.det * f.num = a * f.den := by
    apply RatFunc.algebraMap_injective (K := ℂ)
    have e := congrFun (congrFun hadj k) l
    rw [Matrix.smul_apply, ← hval, Matrix.map_apply, ← ha, hdet, smul_eq_mul] at e
    unfold Frac.val at e
    have hne : algebraMap (Polynomial ℂ) (RatFunc ℂ) f.den ≠ 0 := by
      intro h0
      rw [map_eq_zero_iff _ (RatFunc.algebraMap_injective (K := ℂ))] at h0
      exact hden h0
    rw [map_mul, map_mul, ← e]
    field_simp
  have hdvd : f.den ∣ g.pencilPoly.det := by
    apply hcop.symm.dvd_of_dvd_mul_right
    exact ⟨a, by rw [hfa]; ring⟩
  obtain ⟨c, hc'⟩ := hdvd
  have hz : g.pencilPoly.det.eval (ω : ℂ) = 0 := by
    rw [hc', Polynomial.eval_mul, hk, zero_mul]
  rw [pencilPoly_det_eval] at hz
  have := (Matrix.isUnit_iff_isUnit_det _).1 hu
  rw [isUnit_iff_ne_zero] at this
  exact this hz

/-! ### One input for every state -/

/-- The system with one input into the derivative of every state and no direct path. -/
abbrev Sys.everyInput (g : Sys ℂ) : Sys ℂ := { g with L := g.N, B := fun i k => if i = k then 1 else 0, D := fun _ _ => 0 }

theorem everyInput_B (g : Sys ℂ) : toM g.N g.N g.everyInput.B = 1 := by
  ext i k
  simp [toM, Matrix.one_apply, Fin.ext_iff]

theorem generalTfmAt_eq (g : Sys ℂ) (pinv : Matrix (Fin g.N) (Fin g.N) ℂ → Matrix (Fin g.N) (Fin g.N) ℂ) (ω : ℝ)
    (n : Fin g.Nt) (k : Fin g.N) : g.generalTfmAt pinv ω n k = g.everyInput.tfmAt pinv ω n k := by
  have e : g.everyInput.atfAt pinv ω = pinv (jw ω • (1 : Matrix (Fin g.N) (Fin g.N) ℂ) - toM g.N g.N g.A) := by
    exact (congrArg (pinv (jw ω • (1 : Matrix (Fin g.N) (Fin g.N) ℂ) - toM g.N g.N g.A) * ·) (everyInput_B g)).trans
      (Matrix.mul_one _)
  have h : g.everyInput.tfmAt pinv ω n k = 0 + (toM g.Nt g.N g.CT * (g.everyInput.atfAt pinv ω :
      Matrix (Fin g.N) (Fin g.N) ℂ)) n k := rfl
  rw [h, e, zero_add]
  rfl

theorem generalTfmSymAt_eq (g : Sys ℂ) {simp : RatFunc ℂ → Frac}
    (hs : RightFraction (fun r => (simp r).num) fun r => (simp r).den) (ω : ℝ) (n : Fin g.Nt) (k : Fin g.N) :
    g.generalTfmSymAt simp ω n k = g.everyInput.tfmSymAt simp ω n k := by
  have e : g.everyInput.atfSym simp = g.generalAtfSym simp := by
    show ((g.generalAtfSym simp).map Frac.val * (toM g.N g.N g.everyInput.B).map RatFunc.C).map simp = _
    rw [everyInput_B, Matrix.map_one _ (map_zero _) (map_one _), Matrix.mul_one]
    ext1 i j
    show simp (Frac.val (simp (g.pencilSym⁻¹ i j))) = simp (g.pencilSym⁻¹ i j)
    exact congrArg simp (hs _).2
  show _ = Option.map (fun x => (0 : ℂ) + ∑ i : Fin g.N, g.CT n i * x i) (allSome fun i => (g.everyInput.atfSym simp i k).at ω)
  rw [e]
  unfold Sys.generalTfmSymAt
  simp only [zero_add]

end Cbadc.Analog
