import Verif.Lemmas.Truncation
import Verif.Props.Estimator
import Verif.Props.Stabilising

/-! # Longer filters: all estimators approach one ideal estimate geometrically (C145) -/

namespace Cbadc.Truncation

open Matrix Cbadc.Spec Cbadc.Estimator Cbadc.Streams Cbadc.Filter.Spec

variable {N M L : ℕ}

/-- **C145** If the powers of the filter matrices vanish, there is for every stream of control vectors an ideal estimate of every
sample, and the reference estimate with `a` past and `b` present and future control vectors is off by at most `C (r ^ a + r ^ b)`;
`C` and `r < 1` do not depend on the stream. -/
theorem C145_limit (c : Coeffs ℝ N M L) (hf : Filter.Tendsto (fun k : ℕ => c.Af ^ k) Filter.atTop (nhds 0))
    (hb : Filter.Tendsto (fun k : ℕ => c.Ab ^ k) Filter.atTop (nhds 0)) :
    ∃ C r : ℝ, 0 ≤ C ∧ 0 ≤ r ∧ r < 1 ∧ ∀ s : ℕ → Fin M → ℝ, (∀ j m, 0 ≤ s j m ∧ s j m ≤ 1) → ∃ u : ℤ → Fin L → ℝ,
      ∀ (k : ℤ) (a b : ℕ) l, |(future c.WT c.Ab c.Bb (Spec.ext s) k b - past c.WT c.Af c.Bf (Spec.ext s) k a) l - u k l| ≤ C * (r ^ a + r ^ b) := by
  obtain ⟨C1, r1, hC1, hr1, hr1', h1⟩ := tail_le c.WT c.Bf hf
  obtain ⟨C2, r2, hC2, hr2, hr2', h2⟩ := tail_le c.WT c.Bb hb
  obtain ⟨r, hr⟩ : ∃ r, r = max r1 r2 := ⟨_, rfl⟩
  have hr0 : 0 ≤ r := hr ▸ hr1.trans (le_max_left _ _)
  have hrlt : r < 1 := hr ▸ max_lt hr1' hr2'
  refine ⟨C1 + C2, r, by positivity, hr0, hrlt, fun s hs => ?_⟩
  have hstep : ∀ k (a b n : ℕ) l, a ≤ n → b ≤ n →
      |(future c.WT c.Ab c.Bb (Spec.ext s) k b - past c.WT c.Af c.Bf (Spec.ext s) k a) l -
        (future c.WT c.Ab c.Bb (Spec.ext s) k n - past c.WT c.Af c.Bf (Spec.ext s) k n) l| ≤ (C1 + C2) * (r ^ a + r ^ b) := by
    intro k a b n l ha hb
    have e1 := h1 (fun i => Spec.ext s (k - 1 - i)) (fun i m => ext_le s hs _ m) a n ha l
    have e2 := h2 (fun i => Spec.ext s (k + i)) (fun i m => ext_le s hs _ m) b n hb l
    rw [Finset.sum_Ico_eq_sub _ ha] at e1
    rw [Finset.sum_Ico_eq_sub _ hb] at e2
    change |(past c.WT c.Af c.Bf (Spec.ext s) k n - past c.WT c.Af c.Bf (Spec.ext s) k a) l| ≤ _ at e1
    change |(future c.WT c.Ab c.Bb (Spec.ext s) k n - future c.WT c.Ab c.Bb (Spec.ext s) k b) l| ≤ _ at e2
    rw [Pi.sub_apply, abs_sub_comm] at e2
    rw [Pi.sub_apply] at e1
    have p1 : r1 ^ a ≤ r ^ a := pow_le_pow_left₀ hr1 (hr ▸ le_max_left _ _) a
    have p2 : r2 ^ b ≤ r ^ b := pow_le_pow_left₀ hr2 (hr ▸ le_max_right _ _) b
    have q1 : 0 ≤ r ^ a := by positivity
    have q2 : 0 ≤ r ^ b := by positivity
    simp only [Pi.sub_apply]
    calc _ = |(future c.WT c.Ab c.Bb (Spec.ext s) k b l - future c.WT c.Ab c.Bb (Spec.ext s) k n l) +
          (past c.WT c.Af c.Bf (Spec.ext s) k n l - past c.WT c.Af c.Bf (Spec.ext s) k a l)| := by
          congr 1
          ring
      _ ≤ C2 * r2 ^ b + C1 * r1 ^ a := (abs_add_le _ _).trans (add_le_add e2 e1)
      _ ≤ C2 * r ^ b + C1 * r ^ a := add_le_add (mul_le_mul_of_nonneg_left p2 hC2) (mul_le_mul_of_nonneg_left p1 hC1)
      _ ≤ _ := by nlinarith
  have hlim : ∀ k l, ∃ v : ℝ, Filter.Tendsto
      (fun n => (future c.WT c.Ab c.Bb (Spec.ext s) k n - past c.WT c.Af c.Bf (Spec.ext s) k n) l) Filter.atTop (nhds v) := by
    intro k l
    refine cauchySeq_tendsto_of_complete (Metric.cauchySeq_iff'.2 fun ε hε => ?_)
    have ht : Filter.Tendsto (fun n : ℕ => (C1 + C2) * (r ^ n + r ^ n)) Filter.atTop (nhds ((C1 + C2) * (0 + 0))) :=
      ((tendsto_pow_atTop_nhds_zero_of_lt_one hr0 hrlt).add (tendsto_pow_atTop_nhds_zero_of_lt_one hr0 hrlt)).const_mul _
    rw [add_zero, mul_zero] at ht
    obtain ⟨n, hn⟩ := (ht.eventually (gt_mem_nhds hε)).exists
    refine ⟨n, fun m hm => ?_⟩
    rw [Real.dist_eq, abs_sub_comm]
    exact (hstep k n n m l hm hm).trans_lt hn
  choose u hu using hlim
  refine ⟨u, fun k a b l => ?_⟩
  refine le_of_tendsto (((hu k l).const_sub _).abs) ?_
  filter_upwards [Filter.eventually_ge_atTop (max a b)] with n hn
  exact hstep k a b n l ((le_max_left a b).trans hn) ((le_max_right a b).trans hn)

/-- **C145** All estimators approach the same ideal estimates, of the sample they are about: the FIR filter up to
`C (r ^ K1 + r ^ K2)`, the IIR filter and the batch estimator, which use the whole past, up to `C r ^ K2`. -/
theorem C145_estimators (c : Coeffs ℝ N M L) (hf : Filter.Tendsto (fun k : ℕ => c.Af ^ k) Filter.atTop (nhds 0))
    (hb : Filter.Tendsto (fun k : ℕ => c.Ab ^ k) Filter.atTop (nhds 0)) :
    ∃ C r : ℝ, 0 ≤ C ∧ 0 ≤ r ∧ r < 1 ∧ ∀ s : ℕ → Fin M → ℝ, (∀ j m, 0 ≤ s j m ∧ s j m ≤ 1) → ∃ u : ℤ → Fin L → ℝ,
      (∀ (K1 K2 : ℕ) (eta2 : ℝ) f, FIR.new c K1 K2 eta2 false 1 0 none = .ok f → ∀ n, ∃ y,
        call (f.next fun j => .ok (s j)) FIRState.init n = .ok y ∧ ∀ l, |y l - u (n + 1 - K2) l| ≤ C * (r ^ K1 + r ^ K2)) ∧
      (∀ (K2 : ℕ) (eta2 : ℝ) f, IIR.new c K2 eta2 1 0 = .ok f → 1 ≤ K2 → ∀ n, ∃ y,
        call (f.next fun j => .ok (s j)) IIRState.init n = .ok y ∧ ∀ l, |y l - u (n + 1 - K2) l| ≤ C * r ^ K2) ∧
      (∀ (K1 K2 : ℕ) (eta2 : ℝ) (ds : ℤ) (limit : ℕ) f, Batch.new c K1 K2 eta2 ds limit = .ok f → ∀ n, n + n / K1 + 1 ≤ limit → ∃ y,
        call (f.next fun j => .ok (s j)) f.init n = .ok y ∧ ∀ l, |y l - u n l| ≤ C * r ^ K2) := by
  obtain ⟨C, r, hC, hr0, hr1, h⟩ := C145_limit c hf hb
  refine ⟨C, r, hC, hr0, hr1, fun s hs => ?_⟩
  obtain ⟨u, hu⟩ := h s hs
  have hfull : ∀ (k : ℤ) (a b : ℕ) l, k ≤ a →
      |(future c.WT c.Ab c.Bb (Spec.ext s) k b - past c.WT c.Af c.Bf (Spec.ext s) k a) l - u k l| ≤ C * r ^ b := by
    intro k a b l hk
    have ht : Filter.Tendsto (fun m : ℕ => C * (r ^ m + r ^ b)) Filter.atTop (nhds (C * (0 + r ^ b))) :=
      ((tendsto_pow_atTop_nhds_zero_of_lt_one hr0 hr1).add_const _).const_mul _
    rw [zero_add] at ht
    refine ge_of_tendsto ht ?_
    filter_upwards [Filter.eventually_ge_atTop a] with m hm
    rw [past_eq_of_le c.WT c.Af c.Bf s k a m hk (by omega)]
    exact hu k m b l
  refine ⟨u, fun K1 K2 eta2 f hnew n => ⟨_, C31_fir_estimate c K1 K2 eta2 false 1 0 none f hnew _ s n ?_ (.inl rfl) (fun _ _ => rfl), ?_⟩,
    fun K2 eta2 f hnew hK2 n => ⟨_, C33_iir_estimate c K2 eta2 1 0 f hnew hK2 le_rfl _ s n (n + 1) ?_ (.inl rfl) (fun _ _ => rfl), ?_⟩,
    fun K1 K2 eta2 ds limit f hnew n hlim => ⟨_, C32_batch_estimate c K1 K2 eta2 ds limit f hnew _ s n hlim (fun _ _ => rfl), ?_⟩⟩
  · have := (fir_new_ok hnew).1
    omega
  · intro l
    rw [Option.getD_none, add_zero, show ((1 * (n + 1) : ℕ) : ℤ) - K2 = n + 1 - K2 by push_cast; ring]
    exact hu _ K1 K2 l
  · push_cast; omega
  · intro l
    rw [show ((1 * n : ℕ) : ℤ) + 1 - K2 = n + 1 - K2 by push_cast; ring]
    exact hfull _ _ _ l (by push_cast; omega)
  · intro l
    refine (hfull n n _ l le_rfl).trans (mul_le_mul_of_nonneg_left ?_ hC)
    exact pow_le_pow_of_le_one hr0 hr1.le (by omega)

/-- **C145** So the FIR filter and the batch estimator for one converter agree on every sample up to a bound that vanishes
geometrically with the lengths of the FIR filter and the look-aheads, uniformly in time and in the stream. -/
theorem C145_fir_batch (c : Coeffs ℝ N M L) (hf : Filter.Tendsto (fun k : ℕ => c.Af ^ k) Filter.atTop (nhds 0))
    (hb : Filter.Tendsto (fun k : ℕ => c.Ab ^ k) Filter.atTop (nhds 0)) :
    ∃ C r : ℝ, 0 ≤ C ∧ 0 ≤ r ∧ r < 1 ∧ ∀ s : ℕ → Fin M → ℝ, (∀ j m, 0 ≤ s j m ∧ s j m ≤ 1) →
      ∀ (K1 K2 K1' K2' : ℕ) (eta2 : ℝ) (ds : ℤ) (limit : ℕ) f g, FIR.new c K1 K2 eta2 false 1 0 none = .ok f →
      Batch.new c K1' K2' eta2 ds limit = .ok g → ∀ n, n + n / K1' + 1 ≤ limit → ∃ y z,
        call (f.next fun j => .ok (s j)) FIRState.init (n + K2 - 1) = .ok y ∧ call (g.next fun j => .ok (s j)) g.init n = .ok z ∧
        ∀ l, |y l - z l| ≤ C * (r ^ K1 + r ^ K2 + r ^ K2') := by
  obtain ⟨C, r, hC, hr0, hr1, h⟩ := C145_estimators c hf hb
  refine ⟨C, r, hC, hr0, hr1, fun s hs K1 K2 K1' K2' eta2 ds limit f g hfn hgn n hlim => ?_⟩
  obtain ⟨u, h1, -, h3⟩ := h s hs
  have hK2 := (fir_new_ok hfn).1
  obtain ⟨y, hy, hy'⟩ := h1 K1 K2 eta2 f hfn (n + K2 - 1)
  obtain ⟨z, hz, hz'⟩ := h3 K1' K2' eta2 ds limit g hgn n hlim
  refine ⟨y, z, hy, hz, fun l => ?_⟩
  have e : (((n + K2 - 1 : ℕ) : ℤ) + 1 - K2) = n := by omega
  have a := hy' l
  rw [e] at a
  have b := hz' l
  rw [abs_sub_comm] at b
  calc |y l - z l| ≤ |y l - u n l| + |u n l - z l| := abs_sub_le _ _ _
    _ ≤ C * (r ^ K1 + r ^ K2) + C * r ^ K2' := add_le_add a b
    _ = _ := by ring

/-- the filters of the simulated integrator (C143) have vanishing powers: here `Af = Ab = exp(-1/2)` -/
theorem ex_vanish : Filter.Tendsto (fun k : ℕ => EndToEnd.exCoeffs.Af ^ k) Filter.atTop (nhds 0) ∧
    Filter.Tendsto (fun k : ℕ => EndToEnd.exCoeffs.Ab ^ k) Filter.atTop (nhds 0) :=
  (Filter.C144_filters (c := EndToEnd.exCoeffs) EndToEnd.chain_stabilising.1 EndToEnd.chain_stabilising.2 one_pos
    ((EndToEnd.C144_chain [1] [0] (fun _ _ => 1) (by simp) rfl EndToEnd.exChain
      (Analog.chain_eq [1] [0] (by simp) rfl fun _ _ => 1)).1.2 (by simp))).2.2.2.2.2 (1 / 2) (by norm_num) EndToEnd.chain_numerical.common

/-- and a stream of decisions is within the bounds -/
example : ∀ j m, 0 ≤ (fun j _ => if j % 3 = 0 then 1 else 0 : ℕ → Fin 1 → ℝ) j m ∧
    (fun j _ => if j % 3 = 0 then 1 else 0 : ℕ → Fin 1 → ℝ) j m ≤ 1 := by
  intro j m
  dsimp only
  split_ifs <;> norm_num

example := C145_fir_batch EndToEnd.exCoeffs ex_vanish.1 ex_vanish.2

/-- `C145_limit`, `C145_estimators` for the same filters -/
example := And.intro (C145_limit EndToEnd.exCoeffs ex_vanish.1 ex_vanish.2) (C145_estimators EndToEnd.exCoeffs ex_vanish.1 ex_vanish.2)


end Cbadc.Truncation
