import Mathlib.Tactic.Positivity
import Mathlib.Topology.Algebra.Polynomial
import Verif.Lemmas.Resonance
import Verif.Lemmas.Pinv
import Verif.Lemmas.Structures
import Verif.Props.TransferFunction

/-! # C159: the transfer function answers what happens to a sinusoid, at every frequency -/

namespace Cbadc.Analog

open Matrix Spec Cbadc.Simulate Filter
open scoped Topology

/-- **C159** What the amplitudes mean: a response at `ω` of a real system gives waveforms that solve the differential
equation for the input `cos (ω t)`. -/
theorem C159_sinusoid (g : Sys ℝ) (ω : ℝ) (l : Fin g.L) (x : Fin g.N → ℂ)
    (h : IsResponse (fun i k : Fin g.N => (cplx g).A i k) (fun i : Fin g.N => (cplx g).B i l) ω x) :
    SolvesCosine (fun i k : Fin g.N => g.A i k) (fun i : Fin g.N => g.B i l) ω
      fun t i => (x i * Complex.exp (t * (ω * Complex.I))).re := by
  intro t i
  have h1 : HasDerivAt (fun z : ℂ => x i * Complex.exp (z * (ω * Complex.I)))
      (x i * (Complex.exp (t * (ω * Complex.I)) * (ω * Complex.I))) (t : ℂ) := by
    have := ((hasDerivAt_id (t : ℂ)).mul_const (ω * Complex.I)).cexp.const_mul (x i)
    simpa using this
  have h2 := h1.real_of_complex
  have e : (x i * (Complex.exp (t * (ω * Complex.I)) * (ω * Complex.I))).re =
      ∑ k : Fin g.N, g.A i k * (x k * Complex.exp (t * (ω * Complex.I))).re + g.B i l * Real.cos (ω * t) := by
    have hi := h i
    have e1 : x i * (Complex.exp (t * (ω * Complex.I)) * (ω * Complex.I)) =
        ∑ k : Fin g.N, (g.A i k : ℂ) * (x k * Complex.exp (t * (ω * Complex.I))) +
          (g.B i l : ℂ) * Complex.exp (t * (ω * Complex.I)) := by
      calc x i * (Complex.exp (t * (ω * Complex.I)) * (ω * Complex.I))
          = (ω * Complex.I * x i) * Complex.exp (t * (ω * Complex.I)) := by ring
        _ = _ := by
          rw [hi, add_mul, Finset.sum_mul]
          congr 1
          refine Finset.sum_congr rfl fun k _ => ?_
          rw [mul_assoc]
          rfl
    have e2 : (Complex.exp (t * (ω * Complex.I))).re = Real.cos (ω * t) := by
      have : (t : ℂ) * (ω * Complex.I) = ((ω * t : ℝ) : ℂ) * Complex.I := by push_cast; ring
      rw [this, Complex.exp_ofReal_mul_I_re]
    rw [e1, Complex.add_re, Complex.re_sum, Complex.re_ofReal_mul, e2]
    congr 1
    exact Finset.sum_congr rfl fun k _ => Complex.re_ofReal_mul _ _
  rw [e] at h2
  exact h2

/-- **C159** At every frequency at which the system does not oscillate by itself, `transfer_function_matrix(omega)` is made
of the one response there is. -/
theorem C159_regular (g : Sys ℂ) (ω : ℝ) (pinv : Matrix (Fin g.N) (Fin g.N) ℂ → Matrix (Fin g.N) (Fin g.N) ℂ)
    (hp : ∀ X, IsPinv X (pinv X)) (hω : NoResonance (fun i k : Fin g.N => g.A i k) ω) (l : Fin g.L) :
    ∃ x, IsResponse (fun i k : Fin g.N => g.A i k) (fun i : Fin g.N => g.B i l) ω x ∧
      (∀ y, IsResponse (fun i k : Fin g.N => g.A i k) (fun i : Fin g.N => g.B i l) ω y → y = x) ∧
      ∀ n : Fin g.Nt, g.tfmAt pinv ω n l = g.D n l + ∑ k : Fin g.N, g.CT n k * x k := by
  have hu := noResonance_isUnit g ω hω
  have hdet := (Matrix.isUnit_iff_isUnit_det _).1 hu
  have he : pinv (pencil g ω) = (pencil g ω)⁻¹ := pinv_eq_inv hu (hp _)
  refine ⟨fun k => g.atfAt pinv ω k l, ?_, ?_, fun n => rfl⟩
  · rw [isResponse_iff]
    show pencil g ω *ᵥ (pinv (pencil g ω) *ᵥ fun k => toM g.N g.L g.B k l) = _
    rw [he, Matrix.mulVec_mulVec, Matrix.mul_nonsing_inv _ hdet, Matrix.one_mulVec]
    rfl
  · intro y hy
    rw [isResponse_iff] at hy
    show y = pinv (pencil g ω) *ᵥ fun k => toM g.N g.L g.B k l
    have : (fun k => toM g.N g.L g.B k l) = fun i : Fin g.N => g.B i l := rfl
    rw [this, ← hy, he, Matrix.mulVec_mulVec, Matrix.nonsing_inv_mul _ hdet, Matrix.one_mulVec]

/-- At those frequencies it is also the transfer function of `Sys.tfm`, which the other properties are about. -/
theorem tfmAt_eq (g : Sys ℂ) (ω : ℝ) (pinv : Matrix (Fin g.N) (Fin g.N) ℂ → Matrix (Fin g.N) (Fin g.N) ℂ)
    (hp : ∀ X, IsPinv X (pinv X)) (hω : NoResonance (fun i k : Fin g.N => g.A i k) ω) : g.tfmAt pinv ω = g.tfm (jw ω) := by
  have hu := noResonance_isUnit g ω hω
  unfold Sys.tfmAt Sys.tfm Sys.atfAt Sys.atf
  rw [show pinv (jw ω • (1 : Matrix (Fin g.N) (Fin g.N) ℂ) - toM g.N g.N g.A) = _ from pinv_eq_inv hu (hp _)]

/-- **C159** At any frequency: if there is a response at all, then `transfer_function_matrix(omega)` is made of one, of least
length. -/
theorem C159_least_partial (g : Sys ℂ) (ω : ℝ) (pinv : Matrix (Fin g.N) (Fin g.N) ℂ → Matrix (Fin g.N) (Fin g.N) ℂ)
    (hp : ∀ X, IsPinv X (pinv X)) (l : Fin g.L) (y : Fin g.N → ℂ)
    (hy : IsResponse (fun i k : Fin g.N => g.A i k) (fun i : Fin g.N => g.B i l) ω y) :
    ∃ x, IsResponse (fun i k : Fin g.N => g.A i k) (fun i : Fin g.N => g.B i l) ω x ∧ sqLen x ≤ sqLen y ∧
      ∀ n : Fin g.Nt, g.tfmAt pinv ω n l = g.D n l + ∑ k : Fin g.N, g.CT n k * x k := by
  rw [isResponse_iff] at hy
  obtain ⟨h1, h2⟩ := pinv_least (hp (pencil g ω)) _ _ hy
  exact ⟨fun k => g.atfAt pinv ω k l, (isResponse_iff _ _ _ _).2 h1, h2, fun n => rfl⟩

/-- **C159** With `symbolic=True`: whatever form the simplifier gives the expressions, a finite answer is made of a response. -/
theorem C159_symbolic (g : Sys ℂ) (simp : RatFunc ℂ → Frac)
    (hs : RightFraction (fun r => (simp r).num) fun r => (simp r).den) (ω : ℝ) (l : Fin g.L) (v : Fin g.Nt → ℂ)
    (hv : ∀ n, g.tfmSymAt simp ω n l = some (v n)) (hN : 0 < g.Nt) :
    ∃ x, IsResponse (fun i k : Fin g.N => g.A i k) (fun i : Fin g.N => g.B i l) ω x ∧
      ∀ n : Fin g.Nt, v n = g.D n l + ∑ k : Fin g.N, g.CT n k * x k := by
  have h0 := hv ⟨0, hN⟩
  unfold Sys.tfmSymAt at h0
  rw [Option.map_eq_some_iff] at h0
  obtain ⟨x, hx, -⟩ := h0
  refine ⟨x, atfSymAt_response g hs ω l x hx, fun n => ?_⟩
  have := hv n
  unfold Sys.tfmSymAt at this
  rw [hx] at this
  exact (Option.some.inj this).symm

/-- **C159** Numerical and symbolic answers agree away from resonances; with fractions in lowest terms the symbolic answer is
finite there. -/
theorem C159_agree (g : Sys ℂ) (simp : RatFunc ℂ → Frac)
    (hs : RightFraction (fun r => (simp r).num) fun r => (simp r).den) (ω : ℝ)
    (pinv : Matrix (Fin g.N) (Fin g.N) ℂ → Matrix (Fin g.N) (Fin g.N) ℂ) (hp : ∀ X, IsPinv X (pinv X))
    (hω : NoResonance (fun i k : Fin g.N => g.A i k) ω) (n : Fin g.Nt) (l : Fin g.L) :
    (∀ v, g.tfmSymAt simp ω n l = some v → v = g.tfmAt pinv ω n l) ∧
      ((∀ r, IsCoprime (simp r).num (simp r).den) → g.tfmSymAt simp ω n l = some (g.tfmAt pinv ω n l)) := by
  obtain ⟨x, -, hx2, hx3⟩ := C159_regular g ω pinv hp hω l
  have key : ∀ v, g.tfmSymAt simp ω n l = some v → v = g.tfmAt pinv ω n l := by
    intro v hv
    unfold Sys.tfmSymAt at hv
    rw [Option.map_eq_some_iff] at hv
    obtain ⟨y, hy, rfl⟩ := hv
    rw [hx3, hx2 y (atfSymAt_response g hs ω l y hy)]
  refine ⟨key, fun hc => ?_⟩
  obtain ⟨y, hy⟩ := atfSymAt_some g hs hc ω (noResonance_isUnit g ω hω) l
  have : g.tfmSymAt simp ω n l = some (g.D n l + ∑ k : Fin g.N, g.CT n k * y k) := by
    unfold Sys.tfmSymAt; rw [hy]; rfl
  rw [this, key _ this]

/-- **C159** With `general=True`: at every frequency at which the system does not oscillate by itself, the column of a state
is made of the one response to a sinusoid of amplitude one that is added to the derivative of that state (the direct path
left out); with `symbolic=True` a finite answer is the same, and with fractions in lowest terms it is finite. -/
theorem C159_general (g : Sys ℂ) (simp : RatFunc ℂ → Frac)
    (hs : RightFraction (fun r => (simp r).num) fun r => (simp r).den) (ω : ℝ)
    (pinv : Matrix (Fin g.N) (Fin g.N) ℂ → Matrix (Fin g.N) (Fin g.N) ℂ) (hp : ∀ X, IsPinv X (pinv X))
    (hω : NoResonance (fun i k : Fin g.N => g.A i k) ω) (k : Fin g.N) :
    (∃ x, IsResponse (fun i k : Fin g.N => g.A i k) (fun i => if i = k then 1 else 0) ω x ∧
      (∀ y, IsResponse (fun i k : Fin g.N => g.A i k) (fun i => if i = k then 1 else 0) ω y → y = x) ∧
      ∀ n : Fin g.Nt, g.generalTfmAt pinv ω n k = ∑ i : Fin g.N, g.CT n i * x i) ∧
    ∀ n : Fin g.Nt, (∀ v, g.generalTfmSymAt simp ω n k = some v → v = g.generalTfmAt pinv ω n k) ∧
      ((∀ r, IsCoprime (simp r).num (simp r).den) → g.generalTfmSymAt simp ω n k = some (g.generalTfmAt pinv ω n k)) := by
  constructor
  · obtain ⟨x, h1, h2, h3⟩ := C159_regular g.everyInput ω pinv hp hω k
    have hb : (fun i : Fin g.N => g.everyInput.B i k) = fun i => if i = k then 1 else 0 := by
      funext i
      simp [Fin.ext_iff]
    refine ⟨x, hb ▸ h1, fun y hy => h2 y (hb.symm ▸ hy), fun n => ?_⟩
    exact (generalTfmAt_eq g pinv ω n k).trans ((h3 n).trans (zero_add _))
  · intro n
    have h := C159_agree g.everyInput simp hs ω pinv hp hω n k
    rwa [← generalTfmSymAt_eq g hs, ← generalTfmAt_eq] at h

/-- **C159** Both numerical answers belong together at every frequency, resonances included: the signal transfer function is
the direct path plus the general one behind the input matrix. -/
theorem C159_general_input (g : Sys ℂ) (ω : ℝ) (pinv : Matrix (Fin g.N) (Fin g.N) ℂ → Matrix (Fin g.N) (Fin g.N) ℂ)
    (n : Fin g.Nt) (l : Fin g.L) :
    g.tfmAt pinv ω n l = g.D n l + ∑ k : Fin g.N, g.generalTfmAt pinv ω n k * g.B k l := by
  unfold Sys.tfmAt Sys.atfAt Sys.generalTfmAt
  rw [← Matrix.mul_assoc]
  rfl

/-- **C159** Where there is no response the symbolic answer is not finite. -/
theorem C159_symbolic_none (g : Sys ℂ) (simp : RatFunc ℂ → Frac)
    (hs : RightFraction (fun r => (simp r).num) fun r => (simp r).den) (ω : ℝ) (n : Fin g.Nt) (l : Fin g.L)
    (h : ¬ ∃ x, IsResponse (fun i k : Fin g.N => g.A i k) (fun i : Fin g.N => g.B i l) ω x) :
    g.tfmSymAt simp ω n l = none := by
  cases hv : g.tfmSymAt simp ω n l with
  | none => rfl
  | some v =>
    unfold Sys.tfmSymAt at hv
    rw [Option.map_eq_some_iff] at hv
    obtain ⟨y, hy, -⟩ := hv
    exact absurd ⟨y, atfSymAt_response g hs ω l y hy⟩ h

/-- Away from finitely many frequencies there is no resonance. -/
theorem eventually_noResonance (g : Sys ℂ) (ω : ℝ) :
    ∀ᶠ ω' : ℝ in 𝓝[≠] ω, NoResonance (fun i k : Fin g.N => g.A i k) ω' := by
  have hfin : {ω' : ℝ | g.pencilPoly.det.IsRoot (ω' : ℂ)}.Finite :=
    (Polynomial.finite_setOfPred_isRoot (pencilPoly_det_ne g)).preimage Complex.ofReal_injective.injOn
  have hmem : ({ω' : ℝ | g.pencilPoly.det.IsRoot (ω' : ℂ)} \ {ω})ᶜ ∈ 𝓝 ω :=
    (hfin.subset Set.sdiff_subset).isClosed.isOpen_compl.mem_nhds (fun h => h.2 rfl)
  rw [eventually_nhdsWithin_iff]
  filter_upwards [hmem] with ω' h hne
  apply isUnit_noResonance
  rw [Matrix.isUnit_iff_isUnit_det, isUnit_iff_ne_zero]
  intro h0
  refine h ⟨?_, hne⟩
  show g.pencilPoly.det.eval (ω' : ℂ) = 0
  rw [pencilPoly_det_eval]
  exact h0

/-- **C159** A finite symbolic answer is the limit of the numerical answers at neighbouring frequencies. -/
theorem C159_symbolic_limit (g : Sys ℂ) (simp : RatFunc ℂ → Frac)
    (hs : RightFraction (fun r => (simp r).num) fun r => (simp r).den)
    (pinv : Matrix (Fin g.N) (Fin g.N) ℂ → Matrix (Fin g.N) (Fin g.N) ℂ) (hp : ∀ X, IsPinv X (pinv X))
    (ω : ℝ) (n : Fin g.Nt) (l : Fin g.L) (v : ℂ) (hv : g.tfmSymAt simp ω n l = some v) :
    Tendsto (fun ω' => g.tfmAt pinv ω' n l) (𝓝[≠] ω) (𝓝 v) := by
  unfold Sys.tfmSymAt at hv
  rw [Option.map_eq_some_iff] at hv
  obtain ⟨x, hx, rfl⟩ := hv
  have hden : ∀ k, (g.atfSym simp k l).den.eval (ω : ℂ) ≠ 0 := by
    intro k h0
    have := allSome_some hx k
    unfold Frac.at at this
    rw [if_pos h0] at this
    cases this
  have hxk : ∀ k, x k = (g.atfSym simp k l).num.eval (ω : ℂ) / (g.atfSym simp k l).den.eval (ω : ℂ) := by
    intro k
    have := allSome_some hx k
    unfold Frac.at at this
    rw [if_neg (hden k)] at this
    exact (Option.some.inj this).symm
  have hcont : ∀ p : Polynomial ℂ, Continuous fun ω' : ℝ => p.eval (ω' : ℂ) := fun p =>
    p.continuous.comp Complex.continuous_ofReal
  have hlim : Tendsto (fun ω' : ℝ => g.D n l + ∑ k : Fin g.N, g.CT n k *
      ((g.atfSym simp k l).num.eval (ω' : ℂ) / (g.atfSym simp k l).den.eval (ω' : ℂ))) (𝓝[≠] ω)
      (𝓝 (g.D n l + ∑ k : Fin g.N, g.CT n k * x k)) := by
    apply Tendsto.mono_left _ nhdsWithin_le_nhds
    refine Tendsto.const_add _ (tendsto_finsetSum _ fun k _ => Tendsto.const_mul _ ?_)
    rw [hxk]
    exact ((hcont _).tendsto ω).div ((hcont _).tendsto ω) (hden k)
  refine hlim.congr' ?_
  have hev : ∀ᶠ ω' : ℝ in 𝓝[≠] ω, ∀ k, (g.atfSym simp k l).den.eval (ω' : ℂ) ≠ 0 := by
    apply Filter.Eventually.filter_mono nhdsWithin_le_nhds
    rw [Filter.eventually_all]
    exact fun k => (hcont _).continuousAt.eventually_ne (hden k)
  filter_upwards [hev, eventually_noResonance g ω] with ω' h1 h2
  apply (C159_agree g simp hs ω' pinv hp h2 n l).1
  unfold Sys.tfmSymAt Sys.atfSymAt
  rw [allSome_of (x := fun k => (g.atfSym simp k l).num.eval (ω' : ℂ) / (g.atfSym simp k l).den.eval (ω' : ℂ))]
  · rfl
  · intro k
    unfold Frac.at
    rw [if_neg (h1 k)]

/-! ### Chains of integrators at zero frequency -/

/-- The chain does not oscillate by itself at any frequency but zero. -/
theorem chain_noResonance (N : ℕ) (A : ℕ → ℕ → ℝ) (hA : ∀ r c, r < c → A r c = 0) (ω : ℝ) (hω : ω ≠ 0) :
    NoResonance (fun i k : Fin N => ((A i k : ℝ) : ℂ)) ω := by
  intro x hx
  suffices h : ∀ m : ℕ, ∀ hm : m < N, x ⟨m, hm⟩ = 0 from funext fun i => h i i.2
  intro m
  induction m using Nat.strong_induction_on with
  | _ m ih =>
    intro hm
    have h := hx ⟨m, hm⟩
    rw [Finset.sum_eq_single (⟨m, hm⟩ : Fin N)] at h
    · have h' : ((ω : ℂ) * Complex.I - (A m m : ℝ)) * x ⟨m, hm⟩ = 0 := by linear_combination h
      rcases mul_eq_zero.1 h' with h'' | h''
      · have := congrArg Complex.im h''
        simp at this
        exact absurd this hω
      · exact h''
    · intro k _ hk
      rcases Nat.lt_or_gt_of_ne (fun e : (k : ℕ) = m => hk (Fin.ext e)) with h1 | h1
      · rw [ih k h1 k.2, mul_zero]
      · show ((A m k : ℝ) : ℂ) * x k = 0
        rw [hA m k h1, Complex.ofReal_zero, zero_mul]
    · intro h; exact absurd (Finset.mem_univ _) h

/-- A system with one input that drives one state with no row in the system matrix, at zero frequency. -/
theorem dc_general (g : Sys ℂ) (hL : g.L = 1) (i0 : Fin g.N) (n0 : Fin g.Nt) (b : ℝ) (hb : b ≠ 0)
    (hrow : ∀ k : Fin g.N, g.A i0 k = 0) (l : Fin g.L) (hB0 : g.B i0 l = (b : ℂ))
    (hB : ∀ i : Fin g.N, i ≠ i0 → g.B i l = 0) (hD : ∀ n : Fin g.Nt, g.D n l = 0)
    (hC : ∀ k : Fin g.N, g.CT n0 k = if k = i0 then 1 else 0)
    (hreg : ∀ ω, ω ≠ 0 → NoResonance (fun i k : Fin g.N => g.A i k) ω)
    (pinv : Matrix (Fin g.N) (Fin g.N) ℂ → Matrix (Fin g.N) (Fin g.N) ℂ) (hp : ∀ X, IsPinv X (pinv X))
    (pinv' : Matrix (Fin g.Nt) (Fin g.Nt) ℂ → Matrix (Fin g.Nt) (Fin g.Nt) ℂ)
    (hp' : ∀ X, IsPinv X (pinv' X)) (eta2 : ℝ) (he : 0 < eta2) :
    (¬ ∃ x, IsResponse (fun i k : Fin g.N => g.A i k) (fun i : Fin g.N => g.B i l) 0 x) ∧
      (∀ n, g.tfmAt pinv 0 n l = 0) ∧ stf pinv' eta2 (g.tfmAt pinv 0) l = 0 ∧
      ∀ ω, ω ≠ 0 → 1 - eta2 * ω ^ 2 / b ^ 2 ≤ stf pinv' eta2 (g.tfmAt pinv ω) l := by
  have hres : ¬ ∃ x, IsResponse (fun i k : Fin g.N => g.A i k) (fun i : Fin g.N => g.B i l) 0 x := by
    rintro ⟨x, hx⟩
    have h := hx i0
    simp only [Complex.ofReal_zero, zero_mul] at h
    rw [Finset.sum_eq_zero fun k _ => by rw [hrow, zero_mul], zero_add, hB0] at h
    exact hb (Complex.ofReal_eq_zero.1 h.symm)
  have hz : ∀ n, g.tfmAt pinv 0 n l = 0 := by
    have hx : pinv (pencil g 0) *ᵥ (fun k => toM g.N g.L g.B k l) = 0 := by
      apply pinv_orth (hp _)
      funext i
      rw [Matrix.mulVec, dotProduct]
      refine Finset.sum_eq_zero fun k _ => ?_
      by_cases hk : k = i0
      · have e : pencil g 0 k i = 0 := by
          have : jw 0 = 0 := by simp [jw]
          rw [pencil, this, zero_smul, zero_sub, Matrix.neg_apply]
          show -g.A (k : ℕ) i = 0
          rw [hk, hrow, neg_zero]
        rw [Matrix.conjTranspose_apply, e, star_zero, zero_mul]
      · have e : toM g.N g.L g.B k l = 0 := hB k hk
        rw [e, mul_zero]
    intro n
    have : g.tfmAt pinv 0 n l = g.D n l + ∑ k : Fin g.N, g.CT n k *
        (pinv (pencil g 0) *ᵥ (fun k => toM g.N g.L g.B k l)) k := rfl
    rw [this, hx, hD, zero_add]
    exact Finset.sum_eq_zero fun k _ => mul_zero _
  have hstf : ∀ G : Matrix (Fin g.Nt) (Fin g.L) ℂ,
      stf pinv' eta2 G l = (∑ n, ‖G n l‖ ^ 2) / (∑ n, ‖G n l‖ ^ 2 + eta2) := fun G =>
    (C41_single_input he hL G pinv' (hp' _) l).1
  refine ⟨hres, hz, ?_, ?_⟩
  · rw [hstf, Finset.sum_eq_zero fun n _ => by rw [hz n]; simp, zero_div]
  · intro ω hω
    obtain ⟨x, hx, -, hx3⟩ := C159_regular g ω pinv hp (hreg ω hω) l
    have hx0 : (ω : ℂ) * Complex.I * x i0 = (b : ℂ) := by
      have h := hx i0
      dsimp only at h
      rw [Finset.sum_eq_zero fun k _ => by rw [hrow, zero_mul], zero_add, hB0] at h
      exact h
    have hG0 : g.tfmAt pinv ω n0 l = x i0 := by
      rw [hx3, hD, zero_add, Finset.sum_eq_single i0]
      · rw [hC, if_pos rfl, one_mul]
      · intro k _ hk
        rw [hC, if_neg hk, zero_mul]
      · intro h; exact absurd (Finset.mem_univ _) h
    have hn : ω ^ 2 * ‖x i0‖ ^ 2 = b ^ 2 := by
      have := congrArg (fun z : ℂ => ‖z‖ ^ 2) hx0
      simp only [norm_mul, Complex.norm_I, mul_one, Complex.norm_real, Real.norm_eq_abs, mul_pow, sq_abs] at this
      exact this
    rw [hstf]
    set S := ∑ n, ‖g.tfmAt pinv ω n l‖ ^ 2 with hS
    have hle : ‖x i0‖ ^ 2 ≤ S := by
      rw [← hG0, hS]
      exact Finset.single_le_sum (f := fun n => ‖g.tfmAt pinv ω n l‖ ^ 2) (fun _ _ => sq_nonneg _) (Finset.mem_univ n0)
    have hβ2 : 0 < b ^ 2 := by positivity
    have hω2 : 0 < ω ^ 2 := by positivity
    have hS0 : 0 ≤ S := le_trans (sq_nonneg _) hle
    have hSω : b ^ 2 ≤ ω ^ 2 * S := by
      rw [← hn]; exact mul_le_mul_of_nonneg_left hle hω2.le
    rw [le_div_iff₀ (by linarith), sub_mul, one_mul]
    have : eta2 ≤ eta2 * ω ^ 2 / b ^ 2 * (S + eta2) := by
      rw [div_mul_eq_mul_div, le_div_iff₀ hβ2]
      have h1 : eta2 * b ^ 2 ≤ eta2 * (ω ^ 2 * S) := mul_le_mul_of_nonneg_left hSω he.le
      have h2 : 0 ≤ eta2 * ω ^ 2 * eta2 := by positivity
      nlinarith
    linarith

/-- **C159 is false at resonances**: for every chain of integrators whose first integrator does not leak, the reported
transfer function at zero frequency is zero for every state, and the signal transfer function of the estimator is reported
as zero there, although it is `1 - O(ω²)` at every other frequency.  (There is no response at zero frequency.) -/
theorem C159_dc_false (beta rho : List ℝ) (kappa : ℕ → ℕ → ℝ) (hb : beta ≠ []) (hr : rho.length = beta.length)
    (h0 : rho.getD 0 0 = 0) (hβ : beta.getD 0 0 ≠ 0) (g : Sys ℝ)
    (hg : chainOfIntegrators beta rho (.mat beta.length 1 kappa) = .ok g)
    (pinv : Matrix (Fin (cplx g).N) (Fin (cplx g).N) ℂ → Matrix (Fin (cplx g).N) (Fin (cplx g).N) ℂ)
    (hp : ∀ X, IsPinv X (pinv X))
    (pinv' : Matrix (Fin (cplx g).Nt) (Fin (cplx g).Nt) ℂ → Matrix (Fin (cplx g).Nt) (Fin (cplx g).Nt) ℂ)
    (hp' : ∀ X, IsPinv X (pinv' X)) (eta2 : ℝ) (he : 0 < eta2) (l : Fin (cplx g).L) :
    (¬ ∃ x, IsResponse (fun i k : Fin (cplx g).N => (cplx g).A i k) (fun i : Fin (cplx g).N => (cplx g).B i l) 0 x) ∧
      (∀ n, (cplx g).tfmAt pinv 0 n l = 0) ∧
      stf pinv' eta2 ((cplx g).tfmAt pinv 0) l = 0 ∧
      ∀ ω, ω ≠ 0 → 1 - eta2 * ω ^ 2 / beta.getD 0 0 ^ 2 ≤ stf pinv' eta2 ((cplx g).tfmAt pinv ω) l := by
  have hN : 0 < beta.length := List.length_pos_of_ne_nil hb
  rw [chain_eq beta rho hb hr kappa] at hg
  obtain ⟨h1, h2, h3, hA, hB, hC, hD⟩ : g.N = beta.length ∧ g.L = 1 ∧ g.Nt = beta.length ∧
      g.A = (fun r c => (if r = c then rho.getD r 0 else 0) + (if r = c + 1 then beta.tail.getD c 0 else 0)) ∧
      g.B = (fun i _ => if i = 0 then beta.getD 0 0 else 0) ∧ g.CT = (fun i j => if i = j then 1 else 0) ∧
      g.D = fun _ _ => 0 := by
    rw [← Except.ok.inj hg]
    exact ⟨rfl, rfl, rfl, rfl, rfl, rfl, rfl⟩
  have htri : ∀ r c, r < c → g.A r c = 0 := by
    intro r c hrc
    rw [hA]
    dsimp only
    rw [if_neg (by omega), if_neg (by omega), add_zero]
  refine dc_general (cplx g) h2 ⟨0, by show 0 < g.N; omega⟩ ⟨0, by show 0 < g.Nt; omega⟩ (beta.getD 0 0) hβ ?_ l ?_ ?_ ?_ ?_
    (fun ω hω => chain_noResonance g.N g.A htri ω hω) pinv hp pinv' hp' eta2 he
  · intro k
    show ((g.A 0 k : ℝ) : ℂ) = 0
    rw [hA]
    dsimp only
    rw [h0]; simp
  · show ((g.B 0 l : ℝ) : ℂ) = _
    rw [hB]; rfl
  · intro i hi
    show ((g.B i l : ℝ) : ℂ) = _
    rw [hB]
    dsimp only
    rw [if_neg (fun e => hi (Fin.ext e)), Complex.ofReal_zero]
  · intro n
    show ((g.D n l : ℝ) : ℂ) = _
    rw [hD]; simp
  · intro k
    show ((g.CT 0 k : ℝ) : ℂ) = _
    rw [hC]
    dsimp only
    by_cases hk : k = ⟨0, by show 0 < g.N; omega⟩
    · rw [if_pos hk, if_pos (by rw [hk]), Complex.ofReal_one]
    · rw [if_neg hk, if_neg (fun e => hk (Fin.ext e.symm)), Complex.ofReal_zero]

/-- A chain of integrators has such inverses to work with. -/
theorem exists_pinv_fun (n : ℕ) : ∃ pinv : Matrix (Fin n) (Fin n) ℂ → Matrix (Fin n) (Fin n) ℂ, ∀ X, IsPinv X (pinv X) :=
  ⟨fun X => (exists_pinv X).choose, fun X => (exists_pinv X).choose_spec⟩

/-- A simplifier that returns fractions in lowest terms. -/
theorem exists_simp : ∃ simp : RatFunc ℂ → Frac, RightFraction (fun r => (simp r).num) (fun r => (simp r).den) ∧
    ∀ r, IsCoprime (simp r).num (simp r).den :=
  ⟨fun r => ⟨r.num, r.denom⟩, fun r => ⟨r.denom_ne_zero, r.num_div_denom⟩, fun r => r.isCoprime_num_denom⟩

/-- The hypotheses of `C159_dc_false` are met: two integrators, the second leaking. -/
example : ∃ (g : Sys ℝ) (pinv : Matrix (Fin (cplx g).N) (Fin (cplx g).N) ℂ → Matrix (Fin (cplx g).N) (Fin (cplx g).N) ℂ)
    (pinv' : Matrix (Fin (cplx g).Nt) (Fin (cplx g).Nt) ℂ → Matrix (Fin (cplx g).Nt) (Fin (cplx g).Nt) ℂ) (l : Fin (cplx g).L),
    chainOfIntegrators [100, 100] [0, -1] (.mat 2 1 fun _ _ => -1) = .ok g ∧
    stf pinv' 2 ((cplx g).tfmAt pinv 0) l = 0 ∧ 99 / 100 ≤ stf pinv' 2 ((cplx g).tfmAt pinv 1) l := by
  have hg := chain_eq [100, 100] [0, -1] (by simp) rfl fun _ _ => -1
  obtain ⟨g, hg'⟩ : ∃ g, chainOfIntegrators [100, 100] [0, -1] (.mat 2 1 fun _ _ => -1) = .ok g := ⟨_, hg⟩
  have hL : g.L = 1 := by
    rw [← Except.ok.inj (hg.symm.trans hg')]
  obtain ⟨pinv, hp⟩ := exists_pinv_fun (cplx g).N
  obtain ⟨pinv', hp'⟩ := exists_pinv_fun (cplx g).Nt
  obtain ⟨-, -, h3, h4⟩ := C159_dc_false [100, 100] [0, -1] (fun _ _ => -1) (by simp) rfl rfl (by simp) g hg' pinv hp pinv' hp'
    2 two_pos ⟨0, by show 0 < g.L; omega⟩
  refine ⟨g, pinv, pinv', _, hg', h3, le_trans ?_ (h4 1 one_ne_zero)⟩
  norm_num

/-! ### A pole that cancels -/

/-- Two states whose sum is not driven: `A = [[0, 1], [0, -1]]`, `B = [-1, 1]`, both states observed. -/
noncomputable abbrev exCancel : Sys ℂ where
  N := 2
  L := 1
  M := 0
  Mt := 0
  Nt := 2
  A r c := if r = 0 ∧ c = 1 then 1 else if r = 1 ∧ c = 1 then -1 else 0
  B r _ := if r = 0 then -1 else 1
  CT r c := if r = c then 1 else 0
  Gamma := none
  GammaT := none
  D _ _ := 0
  Bt _ _ := 0
  At _ _ := 0

theorem exCancel_sym (i : Fin 2) : (exCancel.pencilSym⁻¹ * (toM 2 1 exCancel.B).map RatFunc.C) i 0 *
    algebraMap (Polynomial ℂ) (RatFunc ℂ) (Polynomial.C Complex.I * Polynomial.X + 1) =
      algebraMap (Polynomial ℂ) (RatFunc ℂ) (Polynomial.C (if i = 0 then -1 else 1)) := by
  set X := exCancel.pencilSym⁻¹ * (toM 2 1 exCancel.B).map RatFunc.C with hX
  have h : exCancel.pencilSym * X = (toM 2 1 exCancel.B).map RatFunc.C := by
    rw [hX]
    exact Matrix.mul_nonsing_inv_cancel_left _ _ (pencilSym_isUnit exCancel)
  have e0 := congrFun (congrFun h (0 : Fin 2)) (0 : Fin 1)
  have e1 := congrFun (congrFun h (1 : Fin 2)) (0 : Fin 1)
  have m00 : exCancel.pencilSym (0 : Fin 2) (0 : Fin 2) = RatFunc.C Complex.I * RatFunc.X := by
    simp [Sys.pencilSym, toM, exCancel]
  have m01 : exCancel.pencilSym (0 : Fin 2) (1 : Fin 2) = -1 := by
    simp [Sys.pencilSym, toM, exCancel]
  have m10 : exCancel.pencilSym (1 : Fin 2) (0 : Fin 2) = 0 := by
    simp [Sys.pencilSym, toM, exCancel]
  have m11 : exCancel.pencilSym (1 : Fin 2) (1 : Fin 2) = RatFunc.C Complex.I * RatFunc.X + 1 := by
    simp [Sys.pencilSym, toM, exCancel]
  have s0 : (exCancel.pencilSym * X) (0 : Fin 2) (0 : Fin 1) = exCancel.pencilSym (0 : Fin 2) (0 : Fin 2) * X 0 0 +
      exCancel.pencilSym (0 : Fin 2) (1 : Fin 2) * X 1 0 := by
    rw [Matrix.mul_apply, Fin.sum_univ_two]
  have s1 : (exCancel.pencilSym * X) (1 : Fin 2) (0 : Fin 1) = exCancel.pencilSym (1 : Fin 2) (0 : Fin 2) * X 0 0 +
      exCancel.pencilSym (1 : Fin 2) (1 : Fin 2) * X 1 0 := by
    rw [Matrix.mul_apply, Fin.sum_univ_two]
  have b0 : ((toM 2 1 exCancel.B).map RatFunc.C) (0 : Fin 2) (0 : Fin 1) = (-1 : RatFunc ℂ) := by
    simp [toM]
  have b1 : ((toM 2 1 exCancel.B).map RatFunc.C) (1 : Fin 2) (0 : Fin 1) = (1 : RatFunc ℂ) := by
    simp [toM]
  have e0' := s0.symm.trans (e0.trans b0)
  have e1' := s1.symm.trans (e1.trans b1)
  rw [m00, m01] at e0'
  rw [m10, m11, zero_mul, zero_add] at e1'
  have hq : algebraMap (Polynomial ℂ) (RatFunc ℂ) (Polynomial.C Complex.I * Polynomial.X + 1) =
      RatFunc.C Complex.I * RatFunc.X + 1 := by
    rw [map_add, map_mul, RatFunc.algebraMap_C, RatFunc.algebraMap_X, map_one]
  have hne : RatFunc.C Complex.I * RatFunc.X ≠ (0 : RatFunc ℂ) := by
    apply mul_ne_zero
    · rw [map_ne_zero]; exact Complex.I_ne_zero
    · exact RatFunc.X_ne_zero
  rw [hq]
  fin_cases i
  · have : X 0 0 * (RatFunc.C Complex.I * RatFunc.X + 1) = -1 := by
      apply mul_left_cancel₀ hne
      linear_combination (RatFunc.C Complex.I * RatFunc.X + 1) * e0' + e1'
    simpa using this
  · have : X 1 0 * (RatFunc.C Complex.I * RatFunc.X + 1) = 1 := by
      linear_combination e1'
    simpa using this

/-- **C159 is false at resonances with a response as well**: here the symbolic answer at zero frequency, which is the limit of
the answers at neighbouring frequencies, is `-1` for the first state, and the numerical answer is `0`. -/
theorem C159_cancelled_false (simp : RatFunc ℂ → Frac)
    (hs : RightFraction (fun r => (simp r).num) fun r => (simp r).den) (hc : ∀ r, IsCoprime (simp r).num (simp r).den)
    (pinv : Matrix (Fin exCancel.N) (Fin exCancel.N) ℂ → Matrix (Fin exCancel.N) (Fin exCancel.N) ℂ)
    (hp : ∀ X, IsPinv X (pinv X)) :
    exCancel.tfmSymAt simp 0 (0 : Fin 2) (0 : Fin 1) = some (-1) ∧ exCancel.tfmAt pinv 0 (0 : Fin 2) (0 : Fin 1) = 0 := by
  constructor
  · have hq0 : (Polynomial.C Complex.I * Polynomial.X + 1 : Polynomial ℂ).eval ((0 : ℝ) : ℂ) = 1 := by simp
    have hfr : ∀ i : Fin 2, (exCancel.atfSym simp i (0 : Fin 1)).at 0 = some (if i = 0 then -1 else 1) := by
      intro i
      rw [atfSym_eq exCancel hs]
      set r := (exCancel.pencilSym⁻¹ * (toM 2 1 exCancel.B).map RatFunc.C) i 0 with hr
      show (simp r).at 0 = _
      have hrq := exCancel_sym i
      rw [← hr] at hrq
      have hne : algebraMap (Polynomial ℂ) (RatFunc ℂ) (simp r).den ≠ 0 := by
        intro h0
        rw [map_eq_zero_iff _ (RatFunc.algebraMap_injective (K := ℂ))] at h0
        exact (hs r).1 h0
      have hpoly : (simp r).num * (Polynomial.C Complex.I * Polynomial.X + 1) =
          Polynomial.C (if i = 0 then -1 else 1) * (simp r).den := by
        apply RatFunc.algebraMap_injective (K := ℂ)
        rw [map_mul, map_mul, ← hrq]
        have := (hs r).2
        rw [div_eq_iff hne] at this
        rw [this]; ring
      have hden : (simp r).den.eval ((0 : ℝ) : ℂ) ≠ 0 := by
        have hd : (simp r).den ∣ (Polynomial.C Complex.I * Polynomial.X + 1) := by
          apply (hc r).symm.dvd_of_dvd_mul_left
          exact ⟨_, by rw [hpoly, mul_comm]⟩
        obtain ⟨c, hc'⟩ := hd
        intro h0
        rw [hc', Polynomial.eval_mul, h0, zero_mul] at hq0
        exact zero_ne_one hq0
      unfold Frac.at
      rw [if_neg hden]
      congr 1
      have := congrArg (Polynomial.eval ((0 : ℝ) : ℂ)) hpoly
      rw [Polynomial.eval_mul, Polynomial.eval_mul, hq0, mul_one, Polynomial.eval_C] at this
      rw [this, mul_div_assoc, div_self hden, mul_one]
    unfold Sys.tfmSymAt Sys.atfSymAt
    rw [allSome_of (x := fun i : Fin 2 => if i = 0 then -1 else 1) hfr, Option.map_some]
    congr 1
    show (0 : ℂ) + ∑ k : Fin 2, (if 0 = (k : ℕ) then 1 else 0) * (if k = 0 then (-1 : ℂ) else 1) = -1
    rw [Fin.sum_univ_two]
    simp
  · -- the numerical answer is the shortest response
    have hy : IsResponse (fun i k : Fin exCancel.N => exCancel.A i k) (fun i : Fin exCancel.N => exCancel.B i (0 : Fin 1)) 0
        (fun i : Fin 2 => if i = 0 then 0 else 1) := by
      intro i
      show ((0 : ℝ) : ℂ) * Complex.I * _ = ∑ k : Fin 2, exCancel.A i k * (if k = 0 then 0 else 1) + _
      rw [Fin.sum_univ_two]
      fin_cases i <;> simp [exCancel]
    obtain ⟨x, hx, hle, htf⟩ := C159_least_partial exCancel 0 pinv hp (0 : Fin 1) _ hy
    have h1 : x (1 : Fin 2) = 1 := by
      have := hx (1 : Fin 2)
      have e : ((0 : ℝ) : ℂ) * Complex.I * x (1 : Fin 2) = -1 * x (1 : Fin 2) + 1 := by
        rw [this]
        have : ∑ k : Fin 2, exCancel.A ((1 : Fin 2) : ℕ) k * x k = -1 * x (1 : Fin 2) := by
          rw [Fin.sum_univ_two]; simp
        show ∑ k : Fin 2, exCancel.A ((1 : Fin 2) : ℕ) k * x k + exCancel.B ((1 : Fin 2) : ℕ) 0 = _
        rw [this]; simp
      simp at e
      linear_combination e
    have h0 : x (0 : Fin 2) = 0 := by
      have e1 : sqLen x = ‖x (0 : Fin 2)‖ ^ 2 + ‖x (1 : Fin 2)‖ ^ 2 := Fin.sum_univ_two _
      have e2 : sqLen (fun i : Fin 2 => if i = 0 then (0 : ℂ) else 1) = 1 := by
        unfold sqLen; rw [Fin.sum_univ_two]; simp
      have hle' : sqLen x ≤ sqLen (fun i : Fin 2 => if i = 0 then (0 : ℂ) else 1) := hle
      rw [e1, e2, h1] at hle'
      simp only [norm_one, one_pow] at hle'
      have : ‖x (0 : Fin 2)‖ ^ 2 = 0 := le_antisymm (by linarith) (sq_nonneg _)
      exact norm_eq_zero.1 (pow_eq_zero_iff two_ne_zero |>.1 this)
    rw [htf]
    show (0 : ℂ) + ∑ k : Fin 2, (if 0 = (k : ℕ) then 1 else 0) * x k = 0
    rw [Fin.sum_univ_two]
    simp [h0]

/-- `C159_symbolic`:
The hypotheses of the theorems above are met, at zero frequency by the system with the cancelled pole and at every other
frequency by it as well. -/
example : ∃ (simp : RatFunc ℂ → Frac) (pinv : Matrix (Fin exCancel.N) (Fin exCancel.N) ℂ → Matrix (Fin exCancel.N) (Fin exCancel.N) ℂ),
    RightFraction (fun r => (simp r).num) (fun r => (simp r).den) ∧ (∀ r, IsCoprime (simp r).num (simp r).den) ∧
    (∀ X, IsPinv X (pinv X)) ∧ exCancel.tfmSymAt simp 0 (0 : Fin 2) (0 : Fin 1) = some (-1) ∧
    Tendsto (fun ω' => exCancel.tfmAt pinv ω' (0 : Fin 2) (0 : Fin 1)) (𝓝[≠] 0) (𝓝 (-1)) ∧
    exCancel.tfmAt pinv 0 (0 : Fin 2) (0 : Fin 1) = 0 := by
  obtain ⟨simp, hs, hc⟩ := exists_simp
  obtain ⟨pinv, hp⟩ := exists_pinv_fun exCancel.N
  have h := C159_cancelled_false simp hs hc pinv hp
  exact ⟨simp, pinv, hs, hc, hp, h.1, C159_symbolic_limit exCancel simp hs pinv hp 0 _ _ _ h.1, h.2⟩

/-- `exCancel` does not oscillate by itself at any frequency but zero, so that `C159_regular`, `C159_agree` and `C159_general`
apply there. -/
theorem exCancel_noResonance (ω : ℝ) (hω : ω ≠ 0) : NoResonance (fun i k : Fin exCancel.N => exCancel.A i k) ω := by
  intro x hx
  have h1 : x (1 : Fin 2) = 0 := by
    have h : (ω : ℂ) * Complex.I * x (1 : Fin 2) = ∑ k : Fin 2, exCancel.A ((1 : Fin 2) : ℕ) k * x k + 0 := hx (1 : Fin 2)
    rw [Fin.sum_univ_two] at h
    simp at h
    have h' : ((ω : ℂ) * Complex.I + 1) * x (1 : Fin 2) = 0 := by linear_combination h
    rcases mul_eq_zero.1 h' with h'' | h''
    · have := congrArg Complex.re h''
      simp at this
    · exact h''
  have h0 : x (0 : Fin 2) = 0 := by
    have h : (ω : ℂ) * Complex.I * x (0 : Fin 2) = ∑ k : Fin 2, exCancel.A ((0 : Fin 2) : ℕ) k * x k + 0 := hx (0 : Fin 2)
    rw [Fin.sum_univ_two, h1] at h
    simp at h
    rcases h with h | h
    · exact absurd h hω
    · exact h
  funext i
  have : i = (0 : Fin 2) ∨ i = (1 : Fin 2) := by
    have := i.2
    fin_cases i
    · exact Or.inl rfl
    · exact Or.inr rfl
  rcases this with rfl | rfl
  · exact h0
  · exact h1

/-- `C159_general` for the system with the cancelled pole at every frequency but zero. -/
example (ω : ℝ) (hω : ω ≠ 0) :
    ∃ (simp : RatFunc ℂ → Frac) (pinv : Matrix (Fin exCancel.N) (Fin exCancel.N) ℂ → Matrix (Fin exCancel.N) (Fin exCancel.N) ℂ),
      (∀ X, IsPinv X (pinv X)) ∧
      exCancel.generalTfmSymAt simp ω (0 : Fin 2) (1 : Fin 2) = some (exCancel.generalTfmAt pinv ω (0 : Fin 2) (1 : Fin 2)) := by
  obtain ⟨simp, hs, hc⟩ := exists_simp
  obtain ⟨pinv, hp⟩ := exists_pinv_fun exCancel.N
  exact ⟨simp, pinv, hp, ((C159_general exCancel simp hs ω pinv hp (exCancel_noResonance ω hω) (1 : Fin 2)).2 (0 : Fin 2)).2 hc⟩

/-- `C159_least_partial`:
`C159_sinusoid` for a leaky integrator driven at one radian per second: the amplitude is `(1 - j) / 2`. -/
example : ∃ (g : Sys ℝ) (l : Fin g.L) (x : Fin g.N → ℂ), g.N = 1 ∧ g.A 0 0 = -1 ∧ g.B 0 0 = 1 ∧
    IsResponse (fun i k : Fin g.N => (cplx g).A i k) (fun i : Fin g.N => (cplx g).B i l) 1 x := by
  refine ⟨⟨1, 1, 0, 0, 1, fun _ _ => -1, fun _ _ => 1, fun _ _ => 1, none, none, fun _ _ => 0, fun _ _ => 0, fun _ _ => 0⟩,
    (0 : Fin 1), fun _ => (1 - Complex.I) / 2, rfl, rfl, rfl, fun i => ?_⟩
  show ((1 : ℝ) : ℂ) * Complex.I * ((1 - Complex.I) / 2) = ∑ k : Fin 1, ((-1 : ℝ) : ℂ) * ((1 - Complex.I) / 2) + ((1 : ℝ) : ℂ)
  simp
  linear_combination (-1 / 2) * Complex.I_sq

/-- `C159_symbolic_none` for two integrators at zero frequency. -/
example (g : Sys ℝ) (hg : chainOfIntegrators [100, 100] [0, -1] (.mat 2 1 fun _ _ => -1) = .ok g)
    (simp : RatFunc ℂ → Frac) (hs : RightFraction (fun r => (simp r).num) fun r => (simp r).den) (n : Fin (cplx g).Nt)
    (l : Fin (cplx g).L) : (cplx g).tfmSymAt simp 0 n l = none := by
  obtain ⟨pinv, hp⟩ := exists_pinv_fun (cplx g).N
  obtain ⟨pinv', hp'⟩ := exists_pinv_fun (cplx g).Nt
  exact C159_symbolic_none (cplx g) simp hs 0 n l
    (C159_dc_false [100, 100] [0, -1] (fun _ _ => -1) (by simp) rfl rfl (by simp) g hg pinv hp pinv' hp' 2 two_pos l).1

end Cbadc.Analog
