import Mathlib.LinearAlgebra.Matrix.ToLinearEquiv
import Mathlib.Analysis.Matrix.PosDef
import Verif.Lemmas.EndToEnd
import Verif.Lemmas.Truncation

/-! # Lemmas: long-run means of the estimates (C149) -/

namespace Cbadc.EndToEnd

open Matrix Set Filter.Spec Cbadc.Analog Cbadc.Control Cbadc.Estimator Cbadc.Simulate Cbadc.Filter

section steady
variable {N M : ℕ} {X P : Matrix (Fin N) (Fin N) ℝ} {Γ R : Matrix (Fin N) (Fin M) ℝ}

/-- only zero stays under a matrix whose powers vanish -/
theorem fixed_zero (hP : Filter.Tendsto (fun k : ℕ => P ^ k) Filter.atTop (nhds 0)) {v : Fin N → ℝ} (h : v = P *ᵥ v) : v = 0 := by
  have hk : ∀ k : ℕ, P ^ k *ᵥ v = v := by
    intro k
    induction k with
    | zero => rw [pow_zero, one_mulVec]
    | succ k ih => rw [pow_succ, ← mulVec_mulVec, ← h, ih]
  have h1 : Filter.Tendsto (fun k : ℕ => P ^ k *ᵥ v) Filter.atTop (nhds (0 *ᵥ v)) :=
    ((continuous_id.matrix_mulVec continuous_const).tendsto (0 : Matrix (Fin N) (Fin N) ℝ)).comp hP
  simp only [hk, zero_mulVec] at h1
  exact tendsto_nhds_unique tendsto_const_nhds h1

/-- what a sampled filter accumulates, seen from its differential equation -/
theorem accumulated (hP : Filter.Tendsto (fun k : ℕ => P ^ k) Filter.atTop (nhds 0))
    (H : ∀ m σ, X *ᵥ m + Γ *ᵥ σ = 0 → m = P *ᵥ m + R *ᵥ σ) :
    ∃ E : Matrix (Fin N) (Fin N) ℝ, ∀ p σ d, p = P *ᵥ p + R *ᵥ σ - d → X *ᵥ p + Γ *ᵥ σ = E *ᵥ d := by
  have hX : IsUnit X.det := by
    rw [isUnit_iff_ne_zero]
    intro h0
    obtain ⟨v, hv, hv0⟩ := Matrix.exists_mulVec_eq_zero_iff.2 h0
    refine hv (fixed_zero hP ?_)
    have := H v 0 (by rw [hv0, mulVec_zero, add_zero])
    rwa [mulVec_zero, add_zero] at this
  have h1 : IsUnit (1 - P).det := by
    rw [isUnit_iff_ne_zero]
    intro h0
    obtain ⟨v, hv, hv0⟩ := Matrix.exists_mulVec_eq_zero_iff.2 h0
    refine hv (fixed_zero hP ?_)
    rwa [sub_mulVec, one_mulVec, sub_eq_zero] at hv0
  refine ⟨-(X * (1 - P)⁻¹), fun p σ d hp => ?_⟩
  obtain ⟨m, hm⟩ : ∃ m, X *ᵥ m + Γ *ᵥ σ = 0 :=
    ⟨-(X⁻¹ *ᵥ (Γ *ᵥ σ)), by rw [mulVec_neg, mulVec_mulVec, mul_nonsing_inv _ hX, one_mulVec, neg_add_cancel]⟩
  have hm' := H m σ hm
  have h2 : (1 - P) *ᵥ (p - m) = -d := by
    rw [sub_mulVec, one_mulVec, mulVec_sub]
    linear_combination (exp := 1) hp - hm'
  have h3 : p - m = -((1 - P)⁻¹ *ᵥ d) := by
    have := congrArg (fun z => (1 - P)⁻¹ *ᵥ z) h2
    simp only [mulVec_mulVec, nonsing_inv_mul _ h1, one_mulVec, mulVec_neg] at this
    exact this
  have h4 : p = m - (1 - P)⁻¹ *ᵥ d := by rw [sub_eq_iff_eq_add'.1 h3]; abel
  rw [h4, mulVec_sub, neg_mulVec, ← mulVec_mulVec]
  linear_combination (exp := 1) hm

end steady

section sums
variable {N M L : ℕ} (c : Coeffs ℝ N M L) (v : ℕ → Fin M → ℝ)

theorem fSum_sum (K : ℕ) : ∑ k ∈ Finset.range K, fSum c v k =
    c.Af *ᵥ (∑ k ∈ Finset.range K, fSum c v k) + c.Bf *ᵥ (∑ k ∈ Finset.range K, v k) - fSum c v K := by
  induction K with
  | zero => simp [fSum]
  | succ K ih =>
    rw [Finset.sum_range_succ, Finset.sum_range_succ (fun k => v k), mulVec_add, mulVec_add, fSum_succ]
    linear_combination (exp := 1) ih

theorem bSum_sum (K : ℕ) : ∑ k ∈ Finset.range K, bSum c K v k =
    c.Ab *ᵥ (∑ k ∈ Finset.range K, bSum c K v k) + c.Bb *ᵥ (∑ k ∈ Finset.range K, v k) - c.Ab *ᵥ bSum c K v 0 := by
  have h1 : ∑ k ∈ Finset.range K, bSum c K v k = ∑ k ∈ Finset.range K, (c.Ab *ᵥ bSum c K v (k + 1) + c.Bb *ᵥ v k) :=
    Finset.sum_congr rfl fun k hk => bSum_succ c K v (Finset.mem_range.1 hk)
  have h2 : ∑ k ∈ Finset.range K, bSum c K v (k + 1) = ∑ k ∈ Finset.range K, bSum c K v k - bSum c K v 0 := by
    have := Finset.sum_range_succ' (fun k => bSum c K v k) K
    rw [Finset.sum_range_succ, bSum_end, add_zero] at this
    rw [this, add_sub_cancel_right]
  conv_lhs => rw [h1]
  rw [Finset.sum_add_distrib, ← mulVec_sum, ← mulVec_sum, h2, mulVec_sub]
  abel

theorem fSum_le (hf : Filter.Tendsto (fun k : ℕ => c.Af ^ k) Filter.atTop (nhds 0)) :
    ∃ C : ℝ, ∀ v : ℕ → Fin M → ℝ, (∀ k m, |v k m| ≤ 1) → ∀ K n, |fSum c v K n| ≤ C := by
  obtain ⟨C, r, hC, -, -, h⟩ := Truncation.tail_le (1 : Matrix (Fin N) (Fin N) ℝ) c.Bf hf
  refine ⟨C, fun v hv K n => ?_⟩
  have := h (fun i => v (K - 1 - i)) (fun i m => hv _ m) 0 K (Nat.zero_le _) n
  rw [pow_zero, mul_one, ← Finset.range_eq_Ico] at this
  unfold fSum
  simpa only [Matrix.one_mul] using this

theorem bSum_le (hb : Filter.Tendsto (fun k : ℕ => c.Ab ^ k) Filter.atTop (nhds 0)) :
    ∃ C : ℝ, ∀ v : ℕ → Fin M → ℝ, (∀ k m, |v k m| ≤ 1) → ∀ K n, |bSum c K v 0 n| ≤ C := by
  obtain ⟨C, r, hC, -, -, h⟩ := Truncation.tail_le (1 : Matrix (Fin N) (Fin N) ℝ) c.Bb hb
  refine ⟨C, fun v hv K n => ?_⟩
  have := h (fun i => v (0 + i)) (fun i m => hv _ m) 0 (K - 0) (Nat.zero_le _) n
  rw [pow_zero, mul_one, ← Finset.range_eq_Ico] at this
  unfold bSum
  simpa only [Matrix.one_mul] using this

/-- a linear form on a bounded vector -/
theorem form_le (w : Fin N → ℝ) {C : ℝ} {x : Fin N → ℝ} (hx : ∀ n, |x n| ≤ C) : |w ⬝ᵥ x| ≤ (∑ n, |w n|) * C := by
  unfold dotProduct
  refine (Finset.abs_sum_le_sum_abs _ _).trans ?_
  rw [Finset.sum_mul]
  refine Finset.sum_le_sum fun n _ => ?_
  rw [abs_mul]
  exact mul_le_mul_of_nonneg_left (hx n) (abs_nonneg _)

end sums

theorem flow_const {N : ℕ} {X : Matrix (Fin N) (Fin N) ℝ} {m q : Fin N → ℝ} (h : X *ᵥ m + q = 0) (T : ℝ) :
    Flow X (fun _ => q) 0 T fun _ => m :=
  ⟨continuousOn_const, fun t _ => by rw [h]; exact hasDerivWithinAt_const t _ m⟩

section filter
variable {g : Sys ℝ} {M : ℕ} {G : ℕ → ℕ → ℝ} {dc : DC ℝ M} {eta2 : ℝ} {Vf Vb : Matrix (Fin g.N) (Fin g.N) ℝ} {c : Coeffs ℝ g.N M g.L}

/-- the estimates over a horizon add up to the control contribution, as seen by a direction of infinite DC gain -/
theorem sum_estimates (h : Numerical g G dc eta2 Vf Vb c) (pf : Vf.PosDef) (pb : Vb.PosDef)
    (hir : ∀ m, ∀ t ∈ Ico 0 dc.T, (dc.ir m).f t = 1)
    (sf : SamplesForward (tempAf g eta2 Vf) (fun s t => toM g.N M G *ᵥ fun m => (dc.ir m).f t * s m) dc.T c.Af c.Bf)
    (sb : SamplesBackward (tempAb g eta2 Vb) (fun s t => toM g.N M G *ᵥ fun m => (dc.ir m).f t * s m) dc.T c.Ab c.Bb)
    (hf : Filter.Tendsto (fun k : ℕ => c.Af ^ k) Filter.atTop (nhds 0)) (hb : Filter.Tendsto (fun k : ℕ => c.Ab ^ k) Filter.atTop (nhds 0))
    {w : Fin g.N → ℝ} (hw : w ᵥ* toM g.N g.N g.A = 0) :
    ∃ C : ℝ, ∀ s : ℕ → Fin M → ℝ, (∀ j m, 0 ≤ s j m ∧ s j m ≤ 1) → ∀ K : ℕ,
      |(w ᵥ* toM g.N g.L g.B) ⬝ᵥ (∑ k ∈ Finset.range K, (Cbadc.Spec.future c.WT c.Ab c.Bb (Cbadc.Spec.ext s) k (K - k) -
          Cbadc.Spec.past c.WT c.Af c.Bf (Cbadc.Spec.ext s) k k)) +
        (w ᵥ* toM g.N M G) ⬝ᵥ ∑ k ∈ Finset.range K, valued (s k)| ≤ C := by
  have hV : IsUnit (Vf + Vb).det := (pf.add pb).det_pos.ne'.isUnit
  have hWT := h.common.WT_eq h.cares.f.symm h.cares.b.symm hV
  have hric := h.cares.riccati
  have hq : ∀ σ : Fin M → ℝ, ∀ t ∈ Ico 0 dc.T, (toM g.N M G *ᵥ fun m => (dc.ir m).f t * σ m) = toM g.N M G *ᵥ σ := by
    intro σ t ht
    refine congrArg _ (funext fun m => ?_)
    rw [hir m t ht, one_mul]
  obtain ⟨Ef, hEf⟩ := accumulated hf (X := tempAf g eta2 Vf) (Γ := toM g.N M G) (R := c.Bf) fun m σ hm =>
    sf σ (fun _ => m) ((flow_const hm dc.T).congr fun t ht => (hq σ t ht).symm)
  obtain ⟨Eb, hEb⟩ := accumulated hb (X := tempAb g eta2 Vb) (Γ := toM g.N M G) (R := c.Bb) fun m σ hm =>
    sb σ (fun _ => m) ((flow_const hm dc.T).congr fun t ht => (hq σ t ht).symm)
  obtain ⟨Cf, hCf⟩ := fSum_le c hf
  obtain ⟨Cb, hCb⟩ := bSum_le c hb
  obtain ⟨w1, hw1⟩ : ∃ w1, w1 = w ᵥ* Ef - (w ᵥ* (Vf * (Vf + Vb)⁻¹)) ᵥ* Ef := ⟨_, rfl⟩
  obtain ⟨w2, hw2⟩ : ∃ w2, w2 = ((w ᵥ* (Vf * (Vf + Vb)⁻¹)) ᵥ* Eb) ᵥ* c.Ab := ⟨_, rfl⟩
  refine ⟨(∑ n, |w1 n|) * Cf + (∑ n, |w2 n|) * Cb, fun s hs K => ?_⟩
  have hv : ∀ k m, |valued (s k) m| ≤ 1 := fun k m => by
    have := hs k m
    show |2 * s k m - 1| ≤ 1
    rw [abs_le]
    constructor <;> linarith
  obtain ⟨v, hv'⟩ : ∃ v : ℕ → Fin M → ℝ, v = fun k => valued (s k) := ⟨_, rfl⟩
  have hvb : ∀ k m, |v k m| ≤ 1 := hv' ▸ hv
  obtain ⟨p, hp⟩ : ∃ p, p = ∑ k ∈ Finset.range K, fSum c v k := ⟨_, rfl⟩
  obtain ⟨q, hq'⟩ : ∃ q, q = ∑ k ∈ Finset.range K, bSum c K v k := ⟨_, rfl⟩
  have hsum : ∑ k ∈ Finset.range K, (Cbadc.Spec.future c.WT c.Ab c.Bb (Cbadc.Spec.ext s) k (K - k) -
      Cbadc.Spec.past c.WT c.Af c.Bf (Cbadc.Spec.ext s) k k) = (toM g.N g.L g.B)ᵀ *ᵥ costate Vf Vb p q := by
    rw [costate, mulVec_mulVec, ← hWT, mulVec_sub, hp, hq', mulVec_sum, mulVec_sum, Finset.sum_sub_distrib, hv']
    exact congrArg₂ _ (Finset.sum_congr rfl fun k _ => (bSum_future c K s k).symm) (Finset.sum_congr rfl fun k _ => (fSum_past c s k).symm)
  have e1 := hEf p (∑ k ∈ Finset.range K, v k) (fSum c v K) (by rw [hp]; exact fSum_sum c v K)
  have e2 := hEb q (∑ k ∈ Finset.range K, v k) (c.Ab *ᵥ bSum c K v 0) (by rw [hq']; exact bSum_sum c v K)
  have e3 := riccati_costate hric.1 hric.2 (costate_spec hV p q)
  have e4 := riccati_state (f := p) (l := costate Vf Vb p q) hric.1
  obtain ⟨z, hz⟩ : ∃ z, z = cct g eta2 *ᵥ (p + Vf *ᵥ costate Vf Vb p q) - (toM g.N g.N g.A)ᵀ *ᵥ costate Vf Vb p q := ⟨_, rfl⟩
  rw [← hz] at e3 e4
  have e5 : z = (Vf + Vb)⁻¹ *ᵥ (Eb *ᵥ (c.Ab *ᵥ bSum c K v 0) - Ef *ᵥ fSum c v K) := by
    have : (Vf + Vb) *ᵥ z = Eb *ᵥ (c.Ab *ᵥ bSum c K v 0) - Ef *ᵥ fSum c v K := by
      rw [← e1, ← e2, ← e3, tempAf, tempAb]
      abel
    rw [← this, mulVec_mulVec, nonsing_inv_mul _ hV, one_mulVec]
  rw [← mulVec_mulVec] at e4
  have key : (w ᵥ* toM g.N g.L g.B) ⬝ᵥ ((toM g.N g.L g.B)ᵀ *ᵥ costate Vf Vb p q) + (w ᵥ* toM g.N M G) ⬝ᵥ ∑ k ∈ Finset.range K, v k =
      w1 ⬝ᵥ fSum c v K + w2 ⬝ᵥ bSum c K v 0 := by
    have d1 : w ⬝ᵥ toM g.N g.N g.A *ᵥ (p + Vf *ᵥ costate Vf Vb p q) = 0 := by rw [dotProduct_mulVec, hw, zero_dotProduct]
    have d2 := congrArg (fun y => w ⬝ᵥ y) e4
    have d3 := congrArg (fun y => w ⬝ᵥ y) e1
    simp only [dotProduct_add] at d2 d3
    rw [d1, zero_add] at d2
    rw [tempAf] at d3
    have d4 : w ⬝ᵥ Vf *ᵥ z = w2 ⬝ᵥ bSum c K v 0 - (w ᵥ* (Vf * (Vf + Vb)⁻¹)) ᵥ* Ef ⬝ᵥ fSum c v K := by
      rw [e5, hw2, mulVec_sub, mulVec_sub, dotProduct_sub]
      simp only [← dotProduct_mulVec, ← mulVec_mulVec]
    rw [← dotProduct_mulVec, ← dotProduct_mulVec, ← d2, d4, hw1, sub_dotProduct, ← dotProduct_mulVec w Ef, ← d3]
    ring
  rw [hsum]
  have hv'' : (∑ k ∈ Finset.range K, valued (s k)) = ∑ k ∈ Finset.range K, v k := by rw [hv']
  rw [hv'', key]
  exact (abs_add_le _ _).trans (add_le_add (form_le _ (hCf v hvb K)) (form_le _ (hCb v hvb K)))

end filter

/-- what a direction of infinite DC gain accumulates over a simulation -/
theorem run_accumulates {M : ℕ} {cfg : Cfg M} {G : ℕ → ℕ → ℝ} (hG : cfg.sys.Gamma = some G) (hin : cfg.hasInput = true)
    (hcont : ∀ k l, Continuous fun t => cfg.input k t l) (hd : cfg.dc.tDelay = 0) (h0 : ∀ m, (cfg.dc.ir m).t0 = 0)
    (h2 : 0 ≤ cfg.dc.tt2) (hT : 0 ≤ cfg.dc.T) (hir : ∀ m, ∀ t ∈ Ico 0 cfg.dc.T, (cfg.dc.ir m).f t = 1)
    {st : ℕ → St M} {φ : ℕ → ℝ → ℕ → ℝ} (hr : Run cfg st φ) {w : Fin cfg.sys.N → ℝ} (hw : w ᵥ* toM cfg.sys.N cfg.sys.N cfg.sys.A = 0)
    (K : ℕ) :
    (w ⬝ᵥ fun n => (st K).x n) - (w ⬝ᵥ fun n => (st 0).x n) =
      (∑ k ∈ Finset.range K, ∫ t in (0 : ℝ)..cfg.dc.T, (w ᵥ* toM cfg.sys.N cfg.sys.L cfg.sys.B) ⬝ᵥ
        fun l : Fin cfg.sys.L => cfg.input ((st k).ticks + 1) (t + (st k).t) l) +
      cfg.dc.T * ((w ᵥ* toM cfg.sys.N M G) ⬝ᵥ ∑ k ∈ Finset.range K, valued (signal (st (k + 1)).c)) := by
  induction K with
  | zero => simp
  | succ K ih =>
    have hx := (run_explains hG hin hr (K + 1)).flow K (Nat.lt_succ_self K)
    have hF : ∀ t ∈ Ico 0 cfg.dc.T, HasDerivWithinAt (fun t => w ⬝ᵥ fun n : Fin cfg.sys.N => φ K t n)
        ((w ᵥ* toM cfg.sys.N cfg.sys.L cfg.sys.B) ⬝ᵥ (fun l : Fin cfg.sys.L => cfg.input ((st K).ticks + 1) (t + (st K).t) l) +
          (w ᵥ* toM cfg.sys.N M G) ⬝ᵥ valued (signal (st (K + 1)).c)) (Ici t) t := by
      intro t ht
      have h1 := hasDerivWithinAt_dot (hasDerivWithinAt_const t (Ici t) w) (hx.ode t ht)
      refine h1.congr_deriv ?_
      have h3 : contribution cfg.dc (st (K + 1)).c t = valued (signal (st (K + 1)).c) := by
        rw [← run_valued h0 h2 hr K]
        funext m
        unfold contribution
        rw [h0, if_neg (not_lt.2 ht.1), hd, if_neg (not_lt.2 ht.1), hir m t ht, one_mul]
      rw [h3, zero_dotProduct, zero_add, dotProduct_add, dotProduct_add, dotProduct_mulVec, dotProduct_mulVec, dotProduct_mulVec, hw,
        zero_dotProduct, zero_add]
    have hcw : Continuous fun t => (w ᵥ* toM cfg.sys.N cfg.sys.L cfg.sys.B) ⬝ᵥ
        fun l : Fin cfg.sys.L => cfg.input ((st K).ticks + 1) (t + (st K).t) l := by
      unfold dotProduct
      exact continuous_finsetSum _ fun l _ => continuous_const.mul ((hcont _ l).comp (continuous_id.add continuous_const))
    have h4 := intervalIntegral.integral_eq_sub_of_hasDeriv_right (a := 0) (b := cfg.dc.T)
      (f := fun t => w ⬝ᵥ fun n : Fin cfg.sys.N => φ K t n)
      (f' := fun t => (w ᵥ* toM cfg.sys.N cfg.sys.L cfg.sys.B) ⬝ᵥ (fun l : Fin cfg.sys.L => cfg.input ((st K).ticks + 1) (t + (st K).t) l) +
          (w ᵥ* toM cfg.sys.N M G) ⬝ᵥ valued (signal (st (K + 1)).c))
      (by rw [uIcc_of_le hT]; exact continuousOn_dot continuousOn_const hx.cont)
      (fun t ht => by
        rw [min_eq_left hT, max_eq_right hT] at ht
        exact (hF t ⟨ht.1.le, ht.2⟩).mono Ioi_subset_Ici_self)
      ((hcw.add continuous_const).intervalIntegrable _ _)
    rw [intervalIntegral.integral_add (hcw.intervalIntegrable _ _) (continuous_const.intervalIntegrable _ _),
      intervalIntegral.integral_const, sub_zero, smul_eq_mul] at h4
    have h5 : (fun n : Fin cfg.sys.N => φ K cfg.dc.T n) = fun n : Fin cfg.sys.N => (st (K + 1)).x n :=
      funext fun n => ((hr K).stop n n.2).symm
    have h6 : (fun n : Fin cfg.sys.N => φ K 0 n) = fun n : Fin cfg.sys.N => (st K).x n := funext fun n => (hr K).start n n.2
    rw [h5, h6] at h4
    rw [Finset.sum_range_succ, Finset.sum_range_succ (fun k => valued (signal (st (k + 1)).c)), dotProduct_add]
    linear_combination ih - h4

end Cbadc.EndToEnd
