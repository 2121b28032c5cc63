import Verif.Lemmas.Mean
import Verif.Props.RunExists

/-! # The converter makes no DC error (C149) -/

namespace Cbadc.EndToEnd

open Matrix Set Filter.Spec Cbadc.Analog Cbadc.Analog.Spec Cbadc.Control Cbadc.Estimator Cbadc.Simulate Cbadc.Filter Cbadc.Streams

theorem plain_dc {M : ℕ} {T tt2 : ℝ} {dc : DC ℝ M} (h : DC.new T tt2 M none 0 none = .ok dc) :
    dc = ⟨T, tt2, 0, fun _ => stepResponse 0, fun _ => 0⟩ := by
  simp only [DC.new, initIR, initOffsets, lt_self_iff_false, if_false, Except.ok.injEq] at h
  exact h.symm

/-- the control signals of a simulation are bits -/
theorem run_bits {M : ℕ} {cfg : Cfg M} (h0 : ∀ m, (cfg.dc.ir m).t0 = 0) (h2 : 0 ≤ cfg.dc.tt2) {st : ℕ → St M} {φ : ℕ → ℝ → ℕ → ℝ}
    (hr : Run cfg st φ) (k : ℕ) (m : Fin M) : 0 ≤ signal (st (k + 1)).c m ∧ signal (st (k + 1)).c m ≤ 1 := by
  obtain ⟨y, -, -, hc⟩ := (decide_ok cfg (st k) _).1 (hr k).dec
  rw [hc]
  have ha : allclose 0 (cfg.dc.ir m).t0 cfg.dc.tt2 := by
    rw [h0]
    unfold allclose
    simp [h2]
  show 0 ≤ (if allclose 0 (cfg.dc.ir m).t0 cfg.dc.tt2 then (if cfg.dc.offsets m ≤ y.v m then (1 : ℝ) else 0) else _) ∧
    (if allclose 0 (cfg.dc.ir m).t0 cfg.dc.tt2 then (if cfg.dc.offsets m ≤ y.v m then (1 : ℝ) else 0) else _) ≤ 1
  rw [if_pos ha]
  by_cases h : cfg.dc.offsets m ≤ y.v m
  · rw [if_pos h]; exact ⟨zero_le_one, le_rfl⟩
  · rw [if_neg h]; exact ⟨le_rfl, zero_le_one⟩

section
variable {g : Sys ℝ} {M : ℕ} {G : ℕ → ℕ → ℝ} {dc : DC ℝ M} {eta2 : ℝ} {Vf Vb : Matrix (Fin g.N) (Fin g.N) ℝ} {c : Coeffs ℝ g.N M g.L}

/-- **C149** No DC error, over the whole horizon: let `w` be a direction in which the analog system has infinite gain at DC
(`w A = 0`).  Then there is a constant, independent of input, start, decisions and horizon, within which, as long as the states stay
bounded, the sum of the estimates of `w B u` stays of the sum of the means of `w B u` over the periods. -/
theorem C149_mean (hG : g.Gamma = some G) {T tt2 : ℝ} (hT : 0 < T) (h2 : 0 ≤ tt2) (hdc : DC.new T tt2 M none 0 none = .ok dc)
    (he : 0 < eta2) (hf : IsStabilising (careA g) (careB g) (careQ g) (careR g eta2) Vf)
    (hb : IsStabilising (-careA g) (careB g) (careQ g) (careR g eta2) Vb) (hreach : Observable (toM g.N g.L g.B)ᵀ (toM g.N g.N g.A)ᵀ)
    (h : Numerical g G dc eta2 Vf Vb c) {w : Fin g.N → ℝ} (hw : w ᵥ* toM g.N g.N g.A = 0) (R : ℝ) :
    ∃ C : ℝ, ∀ cfg : Cfg M, cfg.sys = g → cfg.dc = dc → cfg.hasInput = true → (∀ k l, Continuous fun t => cfg.input k t l) →
      ∀ (st : ℕ → St M) (φ : ℕ → ℝ → ℕ → ℝ), Run cfg st φ → (∀ k, ∀ n < g.N, |(st k).x n| ≤ R) → ∀ K : ℕ,
      |(w ᵥ* toM g.N g.L g.B) ⬝ᵥ (∑ k ∈ Finset.range K,
          (Cbadc.Spec.future c.WT c.Ab c.Bb (Cbadc.Spec.ext fun k => signal (st (k + 1)).c) k (K - k) -
            Cbadc.Spec.past c.WT c.Af c.Bf (Cbadc.Spec.ext fun k => signal (st (k + 1)).c) k k)) -
        1 / T * ∑ k ∈ Finset.range K, ∫ t in (0 : ℝ)..T, (w ᵥ* toM g.N g.L g.B) ⬝ᵥ
          fun l : Fin g.L => cfg.input ((st k).ticks + 1) (t + (st k).t) l| ≤ C := by
  have hd := plain_dc hdc
  have hdT : dc.T = T := by rw [hd]
  obtain ⟨-, pf, pb, -, -, hp⟩ := C144_filters (c := c) hf hb he hreach
  obtain ⟨p1, p2⟩ := hp _ (hdT ▸ hT) h.common
  obtain ⟨sf, sb⟩ := C96_numpy h (hdT ▸ hT.le)
  have hir : ∀ m, ∀ t ∈ Ico 0 dc.T, (dc.ir m).f t = 1 := fun m t ht => by
    rw [hd]
    exact if_pos ht.1
  obtain ⟨C, hC⟩ := sum_estimates h pf pb hir sf sb p1 p2 hw
  refine ⟨C + 1 / T * (2 * ((∑ n, |w n|) * R)), fun cfg e1 e2 hin hcont st φ hr hx K => ?_⟩
  subst e1 e2
  have h0 : ∀ m, (cfg.dc.ir m).t0 = 0 := fun m => by rw [hd]; rfl
  have ht2 : 0 ≤ cfg.dc.tt2 := by rw [hd]; exact h2
  have a1 := hC (fun k => signal (st (k + 1)).c) (fun j m => run_bits h0 ht2 hr j m) K
  have a2 := run_accumulates hG hin hcont (by rw [hd]) h0 ht2 (hdT ▸ hT.le) hir hr hw K
  have a3 := form_le w fun n => hx K n n.2
  have a4 := form_le w fun n => hx 0 n n.2
  rw [hdT] at a2
  have hT0 := hT.ne'
  obtain ⟨Su, hSu⟩ : ∃ z, z = ∑ k ∈ Finset.range K, ∫ t in (0 : ℝ)..T, (w ᵥ* toM cfg.sys.N cfg.sys.L cfg.sys.B) ⬝ᵥ
        fun l : Fin cfg.sys.L => cfg.input ((st k).ticks + 1) (t + (st k).t) l := ⟨_, rfl⟩
  obtain ⟨Ss, hSs⟩ : ∃ z, z = (w ᵥ* toM cfg.sys.N M G) ⬝ᵥ ∑ k ∈ Finset.range K, valued (signal (st (k + 1)).c) := ⟨_, rfl⟩
  rw [← hSu, ← hSs] at a2
  rw [← hSs] at a1
  rw [← hSu]
  have e : Ss = 1 / T * ((w ⬝ᵥ fun n => (st K).x n) - w ⬝ᵥ fun n => (st 0).x n) - 1 / T * Su := by
    rw [a2]; field_simp; ring
  rw [e] at a1
  rw [abs_le] at a1 a3 a4 ⊢
  have hi : 0 < 1 / T := by positivity
  constructor <;> nlinarith

/-- estimates with the whole past approach the ideal ones -/
theorem ideal (hf : Filter.Tendsto (fun k : ℕ => c.Af ^ k) Filter.atTop (nhds 0)) (hb : Filter.Tendsto (fun k : ℕ => c.Ab ^ k) Filter.atTop (nhds 0)) :
    ∃ C r : ℝ, 0 ≤ C ∧ 0 ≤ r ∧ r < 1 ∧ ∀ s : ℕ → Fin M → ℝ, (∀ j m, 0 ≤ s j m ∧ s j m ≤ 1) →
      (∀ (k : ℤ) (a b a' b' : ℕ) l, k ≤ a' →
        |(Cbadc.Spec.future c.WT c.Ab c.Bb (Cbadc.Spec.ext s) k b - Cbadc.Spec.past c.WT c.Af c.Bf (Cbadc.Spec.ext s) k a) l -
          (Cbadc.Spec.future c.WT c.Ab c.Bb (Cbadc.Spec.ext s) k b' - Cbadc.Spec.past c.WT c.Af c.Bf (Cbadc.Spec.ext s) k a') l| ≤
            C * (r ^ a + r ^ b + r ^ b')) ∧
      (∀ (k : ℤ) (a b a' b' : ℕ) l, k ≤ a → k ≤ a' →
        |(Cbadc.Spec.future c.WT c.Ab c.Bb (Cbadc.Spec.ext s) k b - Cbadc.Spec.past c.WT c.Af c.Bf (Cbadc.Spec.ext s) k a) l -
          (Cbadc.Spec.future c.WT c.Ab c.Bb (Cbadc.Spec.ext s) k b' - Cbadc.Spec.past c.WT c.Af c.Bf (Cbadc.Spec.ext s) k a') l| ≤
            C * (r ^ b + r ^ b')) := by
  obtain ⟨C, r, hC, hr0, hr1, h⟩ := Truncation.C145_limit c hf hb
  have hlim : ∀ a b : ℕ, ∀ z : ℝ, (∀ m ≥ a, z ≤ C * (r ^ m + r ^ b)) → z ≤ C * r ^ b := by
    intro a b z hz
    have ht : Filter.Tendsto (fun m : ℕ => C * (r ^ m + r ^ b)) Filter.atTop (nhds (C * (0 + r ^ b))) :=
      ((tendsto_pow_atTop_nhds_zero_of_lt_one hr0 hr1).add_const _).const_mul _
    rw [zero_add] at ht
    refine ge_of_tendsto ht ?_
    filter_upwards [Filter.eventually_ge_atTop a] with m hm
    exact hz m hm
  refine ⟨C, r, hC, hr0, hr1, fun s hs => ?_⟩
  obtain ⟨u, hu⟩ := h s hs
  have hfull : ∀ (k : ℤ) (a b : ℕ) l, k ≤ a →
      |(Cbadc.Spec.future c.WT c.Ab c.Bb (Cbadc.Spec.ext s) k b - Cbadc.Spec.past c.WT c.Af c.Bf (Cbadc.Spec.ext s) k a) l - u k l| ≤ C * r ^ b := by
    intro k a b l hk
    refine hlim a b _ fun m hm => ?_
    rw [past_eq_of_le c.WT c.Af c.Bf s k a m hk (by omega)]
    exact hu k m b l
  refine ⟨fun k a b a' b' l hk => ?_, fun k a b a' b' l hk hk' => ?_⟩
  · have h1 := hu k a b l
    have h2 := hfull k a' b' l hk
    rw [abs_sub_comm] at h2
    calc _ ≤ _ := abs_sub_le _ (u k l) _
      _ ≤ C * (r ^ a + r ^ b) + C * r ^ b' := add_le_add h1 h2
      _ = _ := by ring
  · have h1 := hfull k a b l hk
    have h2 := hfull k a' b' l hk'
    rw [abs_sub_comm] at h2
    calc _ ≤ _ := abs_sub_le _ (u k l) _
      _ ≤ C * r ^ b + C * r ^ b' := add_le_add h1 h2
      _ = _ := by ring

/-- a sum of geometric tails -/
theorem geom_tail_le {r : ℝ} (h0 : 0 ≤ r) (h1 : r < 1) (K : ℕ) : ∑ k ∈ Finset.range K, r ^ (K - k) ≤ 1 / (1 - r) := by
  have e : ∑ k ∈ Finset.range K, r ^ (K - k) = ∑ k ∈ Finset.range K, r ^ (k + 1) := by
    rw [← Finset.sum_range_reflect]
    refine Finset.sum_congr rfl fun k hk => ?_
    have := Finset.mem_range.1 hk
    rw [show K - (K - 1 - k) = k + 1 by omega]
  rw [e, le_div_iff₀ (by linarith)]
  have : ∑ k ∈ Finset.range K, r ^ (k + 1) = r * ∑ k ∈ Finset.range K, r ^ k := by
    rw [Finset.mul_sum]
    exact Finset.sum_congr rfl fun k _ => pow_succ' r k
  rw [this, mul_assoc, geom_sum_mul_neg]
  have := pow_nonneg h0 K
  nlinarith

/-- **C149** No DC error of the estimators: what the batch estimator returns for the first `K` samples sums to the same, up to a constant
and up to what the finite look-ahead `K2` costs per sample; and so does what the FIR filter returns for these samples, up to what its
two finite lengths cost per sample. -/
theorem C149_estimators (hG : g.Gamma = some G) {T tt2 : ℝ} (hT : 0 < T) (h2 : 0 ≤ tt2) (hdc : DC.new T tt2 M none 0 none = .ok dc)
    (he : 0 < eta2) (hf : IsStabilising (careA g) (careB g) (careQ g) (careR g eta2) Vf)
    (hb : IsStabilising (-careA g) (careB g) (careQ g) (careR g eta2) Vb) (hreach : Observable (toM g.N g.L g.B)ᵀ (toM g.N g.N g.A)ᵀ)
    (h : Numerical g G dc eta2 Vf Vb c) {w : Fin g.N → ℝ} (hw : w ᵥ* toM g.N g.N g.A = 0) (R : ℝ) :
    ∃ C r : ℝ, 0 ≤ r ∧ r < 1 ∧ ∀ cfg : Cfg M, cfg.sys = g → cfg.dc = dc → cfg.hasInput = true →
      (∀ k l, Continuous fun t => cfg.input k t l) →
      ∀ (st : ℕ → St M) (φ : ℕ → ℝ → ℕ → ℝ), Run cfg st φ → (∀ k, ∀ n < g.N, |(st k).x n| ≤ R) → ∀ K K1 K2 : ℕ,
      (∀ (ds : ℤ) (limit : ℕ) f, Batch.new c K1 K2 eta2 ds limit = .ok f → K + K / K1 ≤ limit →
        ∃ y : ℕ → Fin g.L → ℝ, (∀ k < K, call (f.next fun k => .ok (signal (st (k + 1)).c)) f.init k = .ok (y k)) ∧
          |(w ᵥ* toM g.N g.L g.B) ⬝ᵥ (∑ k ∈ Finset.range K, y k) -
            1 / T * ∑ k ∈ Finset.range K, ∫ t in (0 : ℝ)..T, (w ᵥ* toM g.N g.L g.B) ⬝ᵥ
              fun l : Fin g.L => cfg.input ((st k).ticks + 1) (t + (st k).t) l| ≤ C * (1 + K * r ^ K2)) ∧
      (∀ f, FIR.new c K1 K2 eta2 false 1 0 none = .ok f →
        ∃ y : ℕ → Fin g.L → ℝ, (∀ k < K, call (f.next fun k => .ok (signal (st (k + 1)).c)) FIRState.init (k + K2 - 1) = .ok (y k)) ∧
          |(w ᵥ* toM g.N g.L g.B) ⬝ᵥ (∑ k ∈ Finset.range K, y k) -
            1 / T * ∑ k ∈ Finset.range K, ∫ t in (0 : ℝ)..T, (w ᵥ* toM g.N g.L g.B) ⬝ᵥ
              fun l : Fin g.L => cfg.input ((st k).ticks + 1) (t + (st k).t) l| ≤ C * (1 + K * (r ^ K1 + r ^ K2))) := by
  have hd := plain_dc hdc
  have hdT : dc.T = T := by rw [hd]
  obtain ⟨-, -, -, -, -, hp⟩ := C144_filters (c := c) hf hb he hreach
  obtain ⟨p1, p2⟩ := hp _ (hdT ▸ hT) h.common
  obtain ⟨C, hC⟩ := C149_mean hG hT h2 hdc he hf hb hreach h hw R
  obtain ⟨D, r, hD, hr0, hr1, hI⟩ := ideal (c := c) p1 p2
  obtain ⟨W, hW⟩ : ∃ W, W = ∑ l, |(w ᵥ* toM g.N g.L g.B) l| := ⟨_, rfl⟩
  have hW0 : 0 ≤ W := hW ▸ Finset.sum_nonneg fun _ _ => abs_nonneg _
  obtain ⟨F, hF⟩ : ∃ F, F = W * D + |C| + W * (D * (1 / (1 - r))) := ⟨_, rfl⟩
  have h1r : 0 < 1 - r := by linarith
  have hq : 0 ≤ W * (D * (1 / (1 - r))) := by positivity
  refine ⟨F, r, hr0, hr1, fun cfg e1 e2 hin hcont st φ hr hx K K1 K2 => ?_⟩
  have h0 : ∀ m, (cfg.dc.ir m).t0 = 0 := fun m => by rw [e2, hd]; rfl
  have ht2 : 0 ≤ cfg.dc.tt2 := by rw [e2, hd]; exact h2
  obtain ⟨s, hs⟩ : ∃ s : ℕ → Fin M → ℝ, s = fun k => signal (st (k + 1)).c := ⟨_, rfl⟩
  have hbits : ∀ j m, 0 ≤ s j m ∧ s j m ≤ 1 := hs ▸ fun j m => run_bits h0 ht2 hr j m
  have hM := hC cfg e1 e2 hin hcont st φ hr hx K
  rw [show (fun k => signal (st (k + 1)).c) = s from hs.symm] at hM
  obtain ⟨i1, i2⟩ := hI s hbits
  -- any values close to the estimates over the whole horizon
  have key : ∀ (y : ℕ → Fin g.L → ℝ) (ε : ℝ), 0 ≤ ε → (∀ k < K, ∀ l, |y k l - (Cbadc.Spec.future c.WT c.Ab c.Bb (Cbadc.Spec.ext s) k (K - k) -
        Cbadc.Spec.past c.WT c.Af c.Bf (Cbadc.Spec.ext s) k k) l| ≤ D * (ε + r ^ (K - k))) →
      |(w ᵥ* toM g.N g.L g.B) ⬝ᵥ (∑ k ∈ Finset.range K, y k) -
        1 / T * ∑ k ∈ Finset.range K, ∫ t in (0 : ℝ)..T, (w ᵥ* toM g.N g.L g.B) ⬝ᵥ
          fun l : Fin g.L => cfg.input ((st k).ticks + 1) (t + (st k).t) l| ≤ F * (1 + K * ε) := by
    intro y ε hε hy
    have hdiff : |(w ᵥ* toM g.N g.L g.B) ⬝ᵥ ((∑ k ∈ Finset.range K, y k) -
        ∑ k ∈ Finset.range K, (Cbadc.Spec.future c.WT c.Ab c.Bb (Cbadc.Spec.ext s) k (K - k) -
          Cbadc.Spec.past c.WT c.Af c.Bf (Cbadc.Spec.ext s) k k))| ≤ W * (D * (K * ε + 1 / (1 - r))) := by
      rw [hW]
      refine form_le _ fun l => ?_
      rw [← Finset.sum_sub_distrib, Finset.sum_apply]
      refine (Finset.abs_sum_le_sum_abs _ _).trans ((Finset.sum_le_sum fun k hk => hy k (Finset.mem_range.1 hk) l).trans ?_)
      rw [← Finset.mul_sum, Finset.sum_add_distrib, Finset.sum_const, Finset.card_range, nsmul_eq_mul]
      exact mul_le_mul_of_nonneg_left (add_le_add le_rfl (geom_tail_le hr0 hr1 K)) hD
    rw [dotProduct_sub] at hdiff
    refine (abs_sub_le _ _ _).trans ((add_le_add hdiff hM).trans ?_)
    have hK : 0 ≤ (K : ℝ) * ε := by positivity
    have hWD : 0 ≤ W * D := by positivity
    have hCa := le_abs_self C
    have hCn := abs_nonneg C
    rw [hF]
    have := mul_nonneg (add_nonneg hCn hq) hK
    nlinarith
  have hp0 : ∀ n : ℕ, 0 ≤ r ^ n := fun n => pow_nonneg hr0 n
  refine ⟨fun ds limit f hfn hlim => ?_, fun f hfn => ?_⟩
  · obtain ⟨hK1, -⟩ := batch_new_ok hfn
    refine ⟨fun k => Cbadc.Spec.future c.WT c.Ab c.Bb (Cbadc.Spec.ext s) k (K2 + (K1 - k % K1)) - Cbadc.Spec.past c.WT c.Af c.Bf (Cbadc.Spec.ext s) k k,
      fun k hk => ?_, key _ _ (hp0 K2) fun k hk l => ?_⟩
    · have hdiv : k / K1 ≤ K / K1 := Nat.div_le_div_right hk.le
      rw [hs]
      exact C32_batch_estimate c K1 K2 eta2 ds limit f hfn _ (fun k => signal (st (k + 1)).c) k (by omega) (fun _ _ => rfl)
    · refine (i2 k k (K2 + (K1 - k % K1)) k (K - k) l le_rfl le_rfl).trans (mul_le_mul_of_nonneg_left (add_le_add ?_ le_rfl) hD)
      exact pow_le_pow_of_le_one hr0 hr1.le (by omega)
  · obtain ⟨hK2, -⟩ := fir_new_ok hfn
    refine ⟨fun k => Cbadc.Spec.future c.WT c.Ab c.Bb (Cbadc.Spec.ext s) k K2 - Cbadc.Spec.past c.WT c.Af c.Bf (Cbadc.Spec.ext s) k K1,
      fun k hk => ?_, key _ _ (add_nonneg (hp0 K1) (hp0 K2)) fun k hk l => i1 k K1 K2 k (K - k) l le_rfl⟩
    have := C31_fir_estimate c K1 K2 eta2 false 1 0 none f hfn (fun j => .ok (s j)) s (k + K2 - 1) (by omega) (.inl rfl) (fun _ _ => rfl)
    have e : (fun k => (Except.ok (signal (st (k + 1)).c) : Res (Fin M → ℝ))) = fun j => .ok (s j) := by rw [hs]
    rw [e, this, Option.getD_none, add_zero, show ((1 * (k + K2 - 1 + 1) : ℕ) : ℤ) - K2 = k by omega]

end

/-- What the mean of the estimates tells about the input of a network of integrators (C60, C61) with bounded states. -/
theorem network_mean {M : ℕ} {g : Sys ℝ} {G : ℕ → ℕ → ℝ} {dc : DC ℝ M} {eta2 : ℝ} {Vf Vb : Matrix (Fin g.N) (Fin g.N) ℝ}
    {c : Coeffs ℝ g.N M g.L} (hG : g.Gamma = some G) {T tt2 : ℝ} (hT : 0 < T) (h2 : 0 ≤ tt2)
    (hdc : DC.new T tt2 M none 0 none = .ok dc) (he : 0 < eta2) (hf : IsStabilising (careA g) (careB g) (careQ g) (careR g eta2) Vf)
    (hb' : IsStabilising (-careA g) (careB g) (careQ g) (careR g eta2) Vb)
    (hreach : Observable (toM g.N g.L g.B)ᵀ (toM g.N g.N g.A)ᵀ) (hn : Numerical g G dc eta2 Vf Vb c) {w : Fin g.N → ℝ}
    (hwA : w ᵥ* toM g.N g.N g.A = 0) (hL : g.L = 1) {b : ℝ} (hβ : b ≠ 0) (hwB : ∀ j, (w ᵥ* toM g.N g.L g.B) j = b) :
    ∃ C r : ℝ, 0 ≤ r ∧ r < 1 ∧ ∀ cfg : Cfg M, cfg.sys = g → cfg.dc = dc → cfg.hasInput = true →
      (∀ k l, Continuous fun t => cfg.input k t l) →
      ∀ (st : ℕ → St M) (φ : ℕ → ℝ → ℕ → ℝ), Run cfg st φ → (∀ k, ∀ n < g.N, |(st k).x n| ≤ 1) →
      ∀ (K K1 K2 : ℕ) (ds : ℤ) (limit : ℕ) f, Batch.new c K1 K2 eta2 ds limit = .ok f → 0 < K → K + K / K1 ≤ limit →
        ∃ y : ℕ → Fin g.L → ℝ, (∀ k < K, call (f.next fun k => .ok (signal (st (k + 1)).c)) f.init k = .ok (y k)) ∧
          ∀ l, |1 / K * ∑ k ∈ Finset.range K, y k l -
            1 / (K * T) * ∑ k ∈ Finset.range K, ∫ t in (0 : ℝ)..T, cfg.input ((st k).ticks + 1) (t + (st k).t) 0| ≤
              C * (1 / K + r ^ K2) := by
  have hwB : ∀ u : Fin g.L → ℝ, ∀ l, (w ᵥ* toM g.N g.L g.B) ⬝ᵥ u = b * u l := by
    intro u l
    show ∑ j, (w ᵥ* toM g.N g.L g.B) j * u j = _
    rw [Finset.sum_eq_single l]
    · rw [hwB]
    · intro b _ hbl
      exact absurd (Fin.ext (by omega)) hbl
    · intro h; exact absurd (Finset.mem_univ _) h
  obtain ⟨C, r, hr, hr1, hE⟩ := C149_estimators hG hT h2 hdc he hf hb' hreach hn hwA 1
  refine ⟨C / |b|, r, hr, hr1, fun cfg e1 e2 hin hcont st φ hrun hbd K K1 K2 ds limit f hfn hK hlim => ?_⟩
  obtain ⟨y, hy, hle⟩ := (hE cfg e1 e2 hin hcont st φ hrun hbd K K1 K2).1 ds limit f hfn hlim
  refine ⟨y, hy, fun l => ?_⟩
  have hl : (l : ℕ) = 0 := by omega
  rw [hwB _ l, Finset.sum_apply] at hle
  simp only [hwB _ l, intervalIntegral.integral_const_mul, hl] at hle
  rw [← Finset.mul_sum] at hle
  have hKr : (0 : ℝ) < K := by exact_mod_cast hK
  have hba : 0 < |b| := abs_pos.2 hβ
  have e : b * ∑ k ∈ Finset.range K, y k l - 1 / T * (b * ∑ k ∈ Finset.range K,
      ∫ t in (0 : ℝ)..T, cfg.input ((st k).ticks + 1) (t + (st k).t) 0) = b * K * (1 / K * ∑ k ∈ Finset.range K, y k l -
        1 / (K * T) * ∑ k ∈ Finset.range K, ∫ t in (0 : ℝ)..T, cfg.input ((st k).ticks + 1) (t + (st k).t) 0) := by
    field_simp
  rw [e, abs_mul, abs_mul, abs_of_pos hKr] at hle
  rw [div_mul_eq_mul_div C, le_div_iff₀ hba]
  have e2 : C * (1 + K * r ^ K2) = K * (C * (1 / K + r ^ K2)) := by field_simp
  rw [e2] at hle
  refine le_of_mul_le_mul_left ?_ hKr
  calc _ = |b| * K * _ := by ring
    _ ≤ _ := hle

/-- **C149** A simulated chain of integrators under the conditions of C20, the first of which does not leak (`rho_1 = 0`): there are filter
coefficients, with which the mean of the first `K` values of the batch estimator differs from the mean of the input over these `K`
periods by at most `C (1 / K + r ^ K2)`, whatever the input within the unit interval and the start within the unit box. -/
theorem C149_chain (beta rho : List ℝ) (kappa : ℕ → ℕ → ℝ) (hb : beta ≠ []) (hrl : rho.length = beta.length) (hb0 : ∀ b ∈ beta, b ≠ 0)
    (hr0 : rho.getD 0 0 = 0) (g : Sys ℝ) (hsys : chainOfIntegrators beta rho (.mat beta.length 1 kappa) = .ok g)
    (T tt2 : ℝ) (hT : 0 < T) (h2 : 0 ≤ tt2) (dc : DC ℝ beta.length) (hdc : DC.new T tt2 beta.length none 0 none = .ok dc)
    (hκ : ∀ n < beta.length, kappa n 0 ≠ 0) (hrho : ∀ n < beta.length, rho.getD n 0 ≤ 0)
    (hdom : ∀ n < beta.length, |beta.getD n 0| ≤ |kappa n 0|) (hκT : ∀ n < beta.length, |kappa n 0| * T ≤ 1 / 2)
    {G : ℕ → ℕ → ℝ} (hG : g.Gamma = some G) {eta2 : ℝ} (he : 0 < eta2) :
    ∃ Vf Vb, ∃ c : Coeffs ℝ g.N beta.length g.L, ∃ C r : ℝ, Numerical g G dc eta2 Vf Vb c ∧ 0 ≤ r ∧ r < 1 ∧
      ∀ cfg : Cfg beta.length, cfg.sys = g → cfg.dc = dc → cfg.hasInput = true →
      (∀ k t, |cfg.input k t 0| ≤ 1) → (∀ k l, Continuous fun t => cfg.input k t l) →
      ∀ (st : ℕ → St beta.length) (φ : ℕ → ℝ → ℕ → ℝ), Run cfg st φ → InBox beta.length (st 0).x →
      ∀ (K K1 K2 : ℕ) (ds : ℤ) (limit : ℕ) f, Batch.new c K1 K2 eta2 ds limit = .ok f → 0 < K → K + K / K1 ≤ limit →
        ∃ y : ℕ → Fin g.L → ℝ, (∀ k < K, call (f.next fun k => .ok (signal (st (k + 1)).c)) f.init k = .ok (y k)) ∧
          ∀ l, |1 / K * ∑ k ∈ Finset.range K, y k l -
            1 / (K * T) * ∑ k ∈ Finset.range K, ∫ t in (0 : ℝ)..T, cfg.input ((st k).ticks + 1) (t + (st k).t) 0| ≤
              C * (1 / K + r ^ K2) := by
  obtain ⟨g', hg1, hnet⟩ := C60_chain beta rho kappa hb hrl
  have hge := chain_eq beta rho hb hrl kappa
  have hro := C144_chain beta rho kappa hb hrl g hsys
  rw [hsys, Except.ok.injEq] at hg1 hge
  subst hg1
  have hreach := hro.1.2 hb0
  have hd := plain_dc hdc
  have hcT : dc.T = T := by rw [hd]
  have hwf : ∀ m, Waveform dc.T (dc.ir m).f := fun m => by
    rw [hd]
    exact default_waveform T
  obtain ⟨Vf, Vb, c, ⟨hf, hb', hn⟩, -⟩ := C147_coefficients he hreach hro.2 G dc (hcT ▸ hT.le) hwf
  have hN : g.N = beta.length := hnet.n
  have hL : g.L = 1 := hnet.l
  have hpos : 0 < beta.length := List.length_pos_iff.2 hb
  have hβ : beta.getD 0 0 ≠ 0 := by
    cases beta with
    | nil => exact absurd rfl hb
    | cons a l => exact hb0 a (List.mem_cons_self ..)
  obtain ⟨w, hw⟩ : ∃ w : Fin g.N → ℝ, w = fun n : Fin g.N => if (n : ℕ) = 0 then (1 : ℝ) else 0 := ⟨_, rfl⟩
  have hpick : ∀ {q : ℕ} (X : ℕ → ℕ → ℝ) (j : Fin q), (w ᵥ* toM g.N q X) j = X 0 j := by
    intro q X j
    show ∑ n : Fin g.N, w n * X n j = X 0 j
    rw [Finset.sum_eq_single ⟨0, hN ▸ hpos⟩]
    · rw [hw]; simp
    · intro b _ hb
      rw [hw]
      dsimp only
      rw [if_neg fun h => hb (Fin.ext h), zero_mul]
    · intro h; exact absurd (Finset.mem_univ _) h
  have hwA : w ᵥ* toM g.N g.N g.A = 0 := by
    funext j
    have hA := congrFun₂ (congrArg Sys.A hge) 0 j
    dsimp only at hA
    rw [hpick, hA]
    show (if 0 = (j : ℕ) then rho.getD 0 0 else 0) + (if 0 = (j : ℕ) + 1 then _ else 0) = 0
    rw [hr0, if_neg (by omega : ¬ 0 = (j : ℕ) + 1), add_zero, ite_self]
  have hwB : ∀ j, (w ᵥ* toM g.N g.L g.B) j = beta.getD 0 0 := fun j => by
    have hB := congrFun₂ (congrArg Sys.B hge) 0 j
    dsimp only at hB
    rw [hpick, hB, if_pos rfl]
  obtain ⟨C, r, hr, hr1, hE⟩ := network_mean hG hT h2 hdc he hf hb' hreach hn hwA hL hβ hwB
  refine ⟨Vf, Vb, c, C, r, hn, hr, hr1, fun cfg e1 e2 hin hu hcont st φ hrun hbox => ?_⟩
  have hbd := run_bounded cfg _ _ _ _ (e1 ▸ hnet) T tt2 hT h2 (e2 ▸ hdc) hin hu hκ hrho (fun n hn => by simpa using hdom n hn)
    (fun n hn => by have := hκT n hn; linarith) st φ hrun hbox
  exact hE cfg e1 e2 hin hcont st φ hrun (fun k n hn => (hbd k).1 n (hN ▸ hn))

/-- a chain of two integrators, the second of which leaks, meets the conditions -/
example : ∃ (g : Sys ℝ) (dc : DC ℝ 2), chainOfIntegrators [1, 1] [0, -1 / 4] (.mat 2 1 fun _ _ => -1) = .ok g ∧
    DC.new (1 / 2) 0 2 none 0 none = .ok dc ∧ ([0, -1 / 4] : List ℝ).getD 0 0 = 0 ∧ (∀ n < 2, ([0, -1 / 4] : List ℝ).getD n 0 ≤ 0) ∧
    (∀ n < 2, |([1, 1] : List ℝ).getD n 0| ≤ |(-1 : ℝ)|) ∧ |(-1 : ℝ)| * (1 / 2) ≤ 1 / 2 ∧ g.Gamma ≠ none :=
  ⟨_, ⟨1 / 2, 0, 0, fun _ => stepResponse 0, fun _ => 0⟩, chain_eq [1, 1] [0, -1 / 4] (by simp) rfl _,
    by simp [DC.new, initIR, initOffsets], rfl, fun n hn => by interval_cases n <;> norm_num, fun n hn => by
      interval_cases n <;> simp, by norm_num, by simp⟩

/-- the weights with which the states of a leap-frog structure are to be added so that only the input remains at DC -/
noncomputable def leapW (beta alpha : List ℝ) : ℕ → ℝ
  | 0 => 1
  | 1 => 0
  | n + 2 => -leapW beta alpha n * alpha.getD n 0 / beta.getD (n + 2) 0

theorem leapW_odd (beta alpha : List ℝ) : ∀ n, leapW beta alpha (2 * n + 1) = 0
  | 0 => rfl
  | n + 1 => by
    show -leapW beta alpha (2 * n + 1) * _ / _ = 0
    rw [leapW_odd beta alpha n]
    simp

/-- a sum over the indices of which at most three terms are not zero -/
theorem sum_tridiagonal {N : ℕ} (f : ℕ → ℝ) (k : ℕ) (hk : k < N) (hf : ∀ n, n + 1 ≠ k → n ≠ k → n ≠ k + 1 → f n = 0) :
    ∑ n : Fin N, f n = (if k = 0 then 0 else f (k - 1)) + f k + if k + 1 < N then f (k + 1) else 0 := by
  rw [Fin.sum_univ_eq_sum_range]
  have key : ∀ M, ∑ n ∈ Finset.range M, f n =
      (if k = 0 then 0 else if k - 1 < M then f (k - 1) else 0) + (if k < M then f k else 0) + if k + 1 < M then f (k + 1) else 0 := by
    intro M
    induction M with
    | zero => simp
    | succ M ih =>
      rw [Finset.sum_range_succ, ih]
      by_cases h0 : k = 0
      · subst h0
        rcases Nat.lt_trichotomy M 1 with h | h | h
        · obtain rfl : M = 0 := by omega
          simp
        · subst h; simp
        · rw [hf M (by omega) (by omega) (by omega)]
          simp [show 0 < M by omega, show 1 < M by omega, show 0 < M + 1 by omega]
      · rw [if_neg h0, if_neg h0]
        by_cases h1 : M + 1 = k
        · subst h1
          simp
          omega
        · by_cases h2 : M = k
          · subst h2
            simp [show M - 1 < M by omega, show M - 1 < M + 1 by omega]
          · by_cases h3 : M = k + 1
            · subst h3
              simp [show k - 1 < k + 1 by omega, show k - 1 < k + 1 + 1 by omega, show k < k + 1 + 1 by omega]
            · rw [hf M h1 h2 h3, add_zero]
              congr 1
              · congr 1 <;> exact if_congr (by omega) rfl rfl
              · exact if_congr (by omega) rfl rfl
  rw [key N, if_pos hk]
  congr 2
  by_cases h0 : k = 0
  · rw [if_pos h0, if_pos h0]
  · rw [if_neg h0, if_neg h0, if_pos (by omega)]

/-- **C149** A simulated leap-frog structure of odd order under the conditions of C20, whose states number 1, 3, 5, … do not leak: the same. -/
theorem C149_leap_frog (beta alpha rho : List ℝ) (kappa : ℕ → ℕ → ℝ) (hodd : beta.length % 2 = 1) (ha : alpha.length + 1 = beta.length)
    (hrl : rho.length = beta.length) (hb0 : ∀ b ∈ beta, b ≠ 0)
    (hr0 : ∀ n, rho.getD (2 * n) 0 = 0) (g : Sys ℝ) (hsys : leapFrog beta alpha rho (.mat beta.length 1 kappa) = .ok g)
    (T tt2 : ℝ) (hT : 0 < T) (h2 : 0 ≤ tt2) (dc : DC ℝ beta.length) (hdc : DC.new T tt2 beta.length none 0 none = .ok dc)
    (hκ : ∀ n < beta.length, kappa n 0 ≠ 0) (hrho : ∀ n < beta.length, rho.getD n 0 ≤ 0)
    (hdom : ∀ n < beta.length, |beta.getD n 0| + |alpha.getD n 0| ≤ |kappa n 0|) (hκT : ∀ n < beta.length, |kappa n 0| * T ≤ 1 / 2)
    {G : ℕ → ℕ → ℝ} (hG : g.Gamma = some G) {eta2 : ℝ} (he : 0 < eta2) :
    ∃ Vf Vb, ∃ c : Coeffs ℝ g.N beta.length g.L, ∃ C r : ℝ, Numerical g G dc eta2 Vf Vb c ∧ 0 ≤ r ∧ r < 1 ∧
      ∀ cfg : Cfg beta.length, cfg.sys = g → cfg.dc = dc → cfg.hasInput = true →
      (∀ k t, |cfg.input k t 0| ≤ 1) → (∀ k l, Continuous fun t => cfg.input k t l) →
      ∀ (st : ℕ → St beta.length) (φ : ℕ → ℝ → ℕ → ℝ), Run cfg st φ → InBox beta.length (st 0).x →
      ∀ (K K1 K2 : ℕ) (ds : ℤ) (limit : ℕ) f, Batch.new c K1 K2 eta2 ds limit = .ok f → 0 < K → K + K / K1 ≤ limit →
        ∃ y : ℕ → Fin g.L → ℝ, (∀ k < K, call (f.next fun k => .ok (signal (st (k + 1)).c)) f.init k = .ok (y k)) ∧
          ∀ l, |1 / K * ∑ k ∈ Finset.range K, y k l -
            1 / (K * T) * ∑ k ∈ Finset.range K, ∫ t in (0 : ℝ)..T, cfg.input ((st k).ticks + 1) (t + (st k).t) 0| ≤
              C * (1 / K + r ^ K2) := by
  have hb : beta ≠ [] := by rintro rfl; simp at hodd
  obtain ⟨g', hg1, hnet⟩ := C61_leap_frog beta alpha rho kappa hb ha hrl
  have hge := leap_eq beta alpha rho hb ha hrl kappa
  have hro := C144_leap_frog beta alpha rho kappa hb ha hrl g hsys
  rw [hsys, Except.ok.injEq] at hg1 hge
  subst hg1
  have hreach := hro.1.2 hb0
  have hd := plain_dc hdc
  have hcT : dc.T = T := by rw [hd]
  have hwf : ∀ m, Waveform dc.T (dc.ir m).f := fun m => by
    rw [hd]
    exact default_waveform T
  obtain ⟨Vf, Vb, c, ⟨hf, hb', hn⟩, -⟩ := C147_coefficients he hreach hro.2 G dc (hcT ▸ hT.le) hwf
  have hN : g.N = beta.length := hnet.n
  have hL : g.L = 1 := hnet.l
  have hpos : 0 < beta.length := List.length_pos_iff.2 hb
  have hβ : ∀ n < beta.length, beta.getD n 0 ≠ 0 := fun n hn => by
    rw [List.getD_eq_getElem?_getD, List.getElem?_eq_getElem hn, Option.getD_some]
    exact hb0 _ (List.getElem_mem hn)
  obtain ⟨w, hw⟩ : ∃ w : Fin g.N → ℝ, w = fun n : Fin g.N => leapW beta alpha n := ⟨_, rfl⟩
  have hpick : ∀ {q : ℕ} (X : ℕ → ℕ → ℝ) (j : Fin q), (w ᵥ* toM g.N q X) j = ∑ n : Fin g.N, leapW beta alpha n * X n j := by
    intro q X j
    rw [hw]
    rfl
  have htail : ∀ k, beta.tail.getD k 0 = beta.getD (k + 1) 0 := fun k => by
    cases beta with
    | nil => exact absurd rfl hb
    | cons a l => simp
  have hwA : w ᵥ* toM g.N g.N g.A = 0 := by
    funext j
    have hj : (j : ℕ) < beta.length := hN ▸ j.2
    have hA : ∀ n, g.A n j = ((if (j : ℕ) = n + 1 then alpha.getD n 0 else 0) +
        (if n = (j : ℕ) + 1 then beta.tail.getD j 0 else 0)) + (if n = (j : ℕ) then rho.getD n 0 else 0) := fun n =>
      congrFun₂ (congrArg Sys.A hge) n j
    rw [hpick, sum_tridiagonal (fun n => leapW beta alpha n * g.A n j) j j.2 fun n h1 h2 h3 => by
      rw [hA, if_neg (by omega), if_neg h3, if_neg h2]; simp]
    simp only [hA]
    obtain ⟨i, hi⟩ : ∃ i, i = (j : ℕ) := ⟨_, rfl⟩
    rw [← hi] at hj ⊢
    show _ = (0 : ℝ)
    rw [hN]
    rcases Nat.even_or_odd' i with ⟨q, rfl | rfl⟩
    · have e1 := leapW_odd beta alpha q
      have e3 := hr0 q
      cases q with
      | zero =>
        simp only [mul_zero, List.getD_eq_getElem?_getD] at e3
        simp [leapW, e3]
      | succ q =>
        have e2 := leapW_odd beta alpha q
        rw [show 2 * (q + 1) - 1 = 2 * q + 1 by omega, e2, e1, e3]
        simp only [zero_mul, if_true, ite_self, add_zero, zero_add]
        rw [if_neg (by omega), if_neg (by omega), add_zero, mul_zero]
    · have e1 := leapW_odd beta alpha q
      have e2 : leapW beta alpha (2 * q + 1 + 1) = -leapW beta alpha (2 * q) * alpha.getD (2 * q) 0 / beta.getD (2 * q + 2) 0 := rfl
      have hlt : 2 * q + 1 + 1 < beta.length := by omega
      have e4 := hβ _ hlt
      rw [if_neg (by omega), e1, if_pos hlt, e2, htail, show 2 * q + 1 - 1 = 2 * q by omega]
      rw [if_neg (show ¬ 2 * q = 2 * q + 1 + 1 by omega), if_neg (show ¬ 2 * q = 2 * q + 1 by omega),
        if_neg (show ¬ 2 * q + 1 = 2 * q + 1 + 1 + 1 by omega), if_neg (show ¬ 2 * q + 1 + 1 = 2 * q + 1 by omega)]
      simp only [if_true]
      field_simp
      ring
  have hwB : ∀ j, (w ᵥ* toM g.N g.L g.B) j = beta.getD 0 0 := fun j => by
    have hB : ∀ n, g.B n j = if n = 0 then beta.getD 0 0 else 0 := fun n => congrFun₂ (congrArg Sys.B hge) n j
    rw [hpick, Finset.sum_eq_single ⟨0, hN ▸ hpos⟩]
    · rw [hB, if_pos rfl]
      show 1 * _ = _
      rw [one_mul]
    · intro b _ hb
      rw [hB, if_neg fun h => hb (Fin.ext h), mul_zero]
    · intro h; exact absurd (Finset.mem_univ _) h
  obtain ⟨C, r, hr, hr1, hE⟩ := network_mean hG hT h2 hdc he hf hb' hreach hn hwA hL (hβ 0 hpos) hwB
  refine ⟨Vf, Vb, c, C, r, hn, hr, hr1, fun cfg e1 e2 hin hu hcont st φ hrun hbox => ?_⟩
  have hbd := run_bounded cfg _ _ _ _ (e1 ▸ hnet) T tt2 hT h2 (e2 ▸ hdc) hin hu hκ hrho hdom
    (fun n hn => by have := hκT n hn; linarith) st φ hrun hbox
  exact hE cfg e1 e2 hin hcont st φ hrun (fun k n hn => (hbd k).1 n (hN ▸ hn))

/-- the third-order leap-frog structure with a leaking second integrator meets the conditions -/
example : ∃ (g : Sys ℝ) (dc : DC ℝ 3), leapFrog [1, 1, 1] [-1, -1] [0, -1, 0] (.mat 3 1 fun _ _ => -2) = .ok g ∧
    DC.new (1 / 4) 0 3 none 0 none = .ok dc ∧ (∀ n, ([0, -1, 0] : List ℝ).getD (2 * n) 0 = 0) ∧
    (∀ n < 3, |([1, 1, 1] : List ℝ).getD n 0| + |([-1, -1] : List ℝ).getD n 0| ≤ |(-2 : ℝ)|) ∧ |(-2 : ℝ)| * (1 / 4) ≤ 1 / 2 ∧
    g.Gamma ≠ none :=
  ⟨_, ⟨1 / 4, 0, 0, fun _ => stepResponse 0, fun _ => 0⟩, leap_eq [1, 1, 1] [-1, -1] [0, -1, 0] (by simp) rfl rfl _,
    by simp [DC.new, initIR, initOffsets], fun n => by
      match n with
      | 0 => rfl
      | 1 => rfl
      | n + 2 => simp [show 2 * (n + 2) = 2 * n + 1 + 1 + 1 + 1 by ring], fun n hn => by interval_cases n <;> norm_num, by norm_num, by simp⟩

/-- `C149_mean`, `C149_estimators`: the integrator of C143, the filters for it and the weight 1 -/
example := And.intro
  (C149_mean (g := exChain) (G := fun i j => if i = j then 1 else 0) rfl (T := 1 / 2) (tt2 := 0) (by norm_num) le_rfl (dc := exControl)
    (by simp [DC.new, initIR, initOffsets, exControl]) one_pos chain_stabilising.1 chain_stabilising.2
    ((C144_chain [1] [0] (fun _ _ => 1) (by simp) rfl exChain (chain_eq [1] [0] (by simp) rfl fun _ _ => 1)).1.2 (by simp))
    chain_numerical (w := fun _ => 1) (by ext i; simp [vecMul, dotProduct, toM]) 1)
  (C149_estimators (g := exChain) (G := fun i j => if i = j then 1 else 0) rfl (T := 1 / 2) (tt2 := 0) (by norm_num) le_rfl (dc := exControl)
    (by simp [DC.new, initIR, initOffsets, exControl]) one_pos chain_stabilising.1 chain_stabilising.2
    ((C144_chain [1] [0] (fun _ _ => 1) (by simp) rfl exChain (chain_eq [1] [0] (by simp) rfl fun _ _ => 1)).1.2 (by simp))
    chain_numerical (w := fun _ => 1) (by ext i; simp [vecMul, dotProduct, toM]) 1)


end Cbadc.EndToEnd
