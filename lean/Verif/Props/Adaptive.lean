import Mathlib.Analysis.Calculus.Deriv.Pow
import Mathlib.Analysis.Calculus.Deriv.Add
import Mathlib.Analysis.Calculus.Deriv.Mul
import Mathlib.Analysis.Complex.Basic
import Mathlib.Tactic.Positivity
import Verif.Lemmas.Adaptive

/-!
# C42, C43, C44, C64, C65, C66, C67: adaptive filters
-/

namespace Cbadc.Adaptive
open Finset

variable {𝕜 : Type*} [RCLike 𝕜]

/-! ### C44: windows -/

omit [RCLike 𝕜] in
/-- **C44** (partial: the number of channels differs from the window length, and one window too few is made): entry
`[i, m, k]` is sample `i + k` of channel `m`; signals shorter than a window are rejected. -/
theorem C44_windows_partial (s : A2 𝕜) (K : ℕ) :
    (K ≤ s.r → s.c ≠ K ∨ K = 1 → ∃ x, batch s K = .ok x ∧ x.n = s.r - K ∧ x.m = s.c ∧ x.k = K ∧
      ∀ i < x.n, ∀ m < x.m, ∀ k < x.k, x.f i m k = s.f (i + k) m) ∧
    (s.r < K → batch s K = .error .valueError) := by
  constructor
  · intro h hne
    unfold batch
    rw [if_neg (by omega)]
    refine ⟨_, rfl, rfl, rfl, rfl, fun i _ m hm k hk => ?_⟩
    dsimp only at hm hk ⊢
    by_cases hc : s.c = K
    · have : K = 1 := hne.resolve_left (not_not.2 hc)
      have h1 : m = 0 := by omega
      have h2 : k = 0 := by omega
      rw [if_pos hc, h1, h2]
    · rw [if_neg hc]
  · intro h
    unfold batch
    rw [if_pos h]

/-- Two channels in windows of three samples. -/
example : ∃ x, batch (⟨5, 2, fun i j => (i : ℝ) + 10 * j⟩ : A2 ℝ) 3 = .ok x ∧ x.f 1 1 2 = 13 := by
  obtain ⟨x, h, hn, hm, hk, hf⟩ := (C44_windows_partial (⟨5, 2, fun i j => (i : ℝ) + 10 * j⟩ : A2 ℝ) 3).1
    (by norm_num) (Or.inl (by norm_num))
  refine ⟨x, h, ?_⟩
  rw [hf 1 (by rw [hn]; norm_num) 1 (by rw [hm]; norm_num) 2 (by rw [hk]; norm_num)]
  norm_num

/-- **C44** is false when there are as many channels as samples in a window: the windows are transposed. -/
theorem C44_square_false : ∃ (s : A2 ℝ) (K : ℕ) (x : A3 ℝ), batch s K = .ok x ∧
    ∃ i < x.n, ∃ m < x.m, ∃ k < x.k, x.f i m k ≠ s.f (i + k) m :=
  ⟨⟨3, 2, fun i j => (i : ℝ) + 10 * j⟩, 2, _, rfl, 0, by norm_num, 0, by norm_num, 1, by norm_num, by norm_num⟩

omit [RCLike 𝕜] in
/-- **C44** is false for the last window: a signal of `T ≥ K` samples has `T - K + 1` windows, one of which is
missing. -/
theorem C44_last_window_false (s : A2 𝕜) (K : ℕ) (h : K ≤ s.r) :
    ∃ x, batch s K = .ok x ∧ x.n + 1 = s.r - K + 1 := by
  unfold batch
  rw [if_neg (by omega)]
  exact ⟨_, rfl, rfl⟩

/-- **C44** (partial: one reference): the prediction is the correlation of the signal with the conjugated
coefficients, plus the offset. -/
theorem C44_predict_partial (f : Filter 𝕜) (s : A2 𝕜) (hL : f.L = 1) (v : ℕ → 𝕜) (hv : f.off = .col v)
    (hM : s.c = f.M) (hK : f.K ≤ s.r) (hne : f.M ≠ f.K ∨ f.K = 1) :
    ∃ z, f.predict s = .ok z ∧ z.r = 1 ∧ z.c = s.r - f.K ∧ ∀ i < z.c,
      z.f 0 i = ∑ m ∈ range f.M, ∑ k ∈ range f.K, star (f.h 0 m k) * s.f (i + k) m + star (v 0) := by
  obtain ⟨x, hx, hn, hm, hk, hf⟩ := (C44_windows_partial s f.K).1 hK (by rw [hM]; exact hne)
  obtain ⟨z, hz, zr, zc, zf⟩ := call_one f hL v hv x (hm.trans hM) hk
  refine ⟨z, by unfold Filter.predict; rw [hx]; exact hz, zr, zc.trans hn, fun i hi => ?_⟩
  rw [zf i (by omega)]
  unfold output
  congr 1
  refine Finset.sum_congr rfl fun m hm' => Finset.sum_congr rfl fun k hk' => ?_
  rw [hf i (by omega) m (by rw [hm, hM]; exact Finset.mem_range.1 hm') k (by rw [hk]; exact Finset.mem_range.1 hk')]

example : ∃ z, (Filter.new 2 3 1 : Filter ℝ).predict ⟨5, 2, fun i j => (i : ℝ) + j⟩ = .ok z ∧ z.c = 2 := by
  obtain ⟨z, h, -, hc, -⟩ := C44_predict_partial (Filter.new 2 3 1 : Filter ℝ) ⟨5, 2, fun i j => (i : ℝ) + j⟩ rfl
    (fun _ => 0) rfl rfl (by simp [Filter.new]) (Or.inl (by simp [Filter.new]))
  exact ⟨z, h, hc⟩

/-! ### C42: recursive least squares -/

omit [RCLike 𝕜] in
theorem prepare_ok (f : Filter 𝕜) (s y : A2 𝕜) (delay : ℤ) (hd : 0 ≤ delay) (hK : f.K ≤ s.r - delay.toNat)
    (hne : s.c ≠ f.K) : ∃ x y', f.prepare s y delay = .ok (x, y') ∧ x.m = s.c ∧ x.k = f.K ∧ y'.r = y.r ∧
      x.n = min (s.r - delay.toNat - f.K) y.c ∧ y'.c = x.n ∧
      samples x y' = windows s.f y.f delay.toNat (min (s.r - delay.toNat - f.K) y.c) := by
  unfold Filter.prepare batch
  rw [if_neg (by omega)]
  dsimp only
  rw [if_neg (by omega)]
  refine ⟨_, _, rfl, rfl, rfl, rfl, rfl, rfl, ?_⟩
  unfold samples windows
  dsimp only
  refine List.map_congr_left fun b _ => ?_
  simp only [if_neg hne, Nat.add_assoc]

/-- The weighted samples of a call for a filter with windows of `K` samples. -/
def callData (K : ℕ) (c : RlsCall 𝕜) : List (ℝ × (ℕ → ℕ → 𝕜) × 𝕜) :=
  weigh c.lam (epochData c.order c.epochs 0
    (windows c.s.f c.y.f c.delay.toNat (min (c.s.r - c.delay.toNat - K) c.y.c)))

/-- The call fits a filter with `M` channels, windows of `K` samples and one reference. -/
def Fits (M K : ℕ) (c : RlsCall 𝕜) : Prop :=
  0 < c.lam ∧ 0 ≤ c.delay ∧ K ≤ c.s.r - c.delay.toNat ∧ c.s.c = M ∧ c.y.r = 1

private theorem Trained.rls {M K : ℕ} {delta d : ℝ} (hMK : M ≠ K)
    {data : List (ℝ × (ℕ → ℕ → 𝕜) × 𝕜)} {f : Filter 𝕜}
    (h : Trained M K delta data { f with V := some (f.covariance d) }) (c : RlsCall 𝕜) (hd : c.delta = d)
    (hc : Fits M K c) : ∃ f', f.rls c.s c.y c.epochs c.delta c.lam c.delay c.order = .ok f' ∧
      Trained M K delta (data ++ callData K c) f' := by
  subst hd
  obtain ⟨hl, hdel, hK, hM, -⟩ := hc
  have hfK : f.K = K := h.2.1
  obtain ⟨x, y', hp, -, -, -, -, -, hs⟩ := prepare_ok f c.s c.y c.delay hdel (by rw [hfK]; exact hK)
    (by rw [hfK, hM]; exact hMK)
  obtain ⟨f', h1, h2⟩ := Trained.epochs c.delta c.lam hl c.order c.epochs 0 (samples x y') data _ h
  refine ⟨f', ?_, ?_⟩
  · unfold Filter.rls
    rw [hp]
    exact h1
  · unfold callData
    rw [hs, hfK] at h2
    exact h2

/-- **C42** (partial: one reference and a window length different from the number of channels): whatever calls of
`rls` are made on a new filter, each with its own data, number of epochs, forgetting factor and shuffling, the
coefficients and offset afterwards are the unique minimiser of the regularised, exponentially weighted squared
error over all samples in the order met, and the stored matrix is the inverse of the weighted correlation matrix.
The regularisation is that of the first call. -/
theorem C42_rls_partial (M K : ℕ) (hMK : M ≠ K) (c : RlsCall 𝕜) (cs : List (RlsCall 𝕜)) (hδ : 0 < c.delta)
    (hfit : ∀ c' ∈ c :: cs, Fits M K c') :
    ∃ f' v V, runRls (c :: cs) (Filter.new M K 1) = .ok f' ∧ f'.getOffset = .ok v ∧ f'.V = some V ∧
      Optimal M K c.delta ((c :: cs).flatMap (callData K)) (f'.h 0) (v 0) ∧
      ∀ i ≤ M * K, ∀ j ≤ M * K, ∑ k ∈ range (M * K + 1), V i k *
        gram M K c.delta ((c :: cs).flatMap (callData K)) k j = if i = j then 1 else 0 := by
  have hrest : ∀ (cs : List (RlsCall 𝕜)) (data : List (ℝ × (ℕ → ℕ → 𝕜) × 𝕜)) (f : Filter 𝕜),
      (∀ c' ∈ cs, Fits M K c') → Trained M K c.delta data f →
      ∃ f', runRls cs f = .ok f' ∧ Trained M K c.delta (data ++ cs.flatMap (callData K)) f' := by
    intro cs
    induction cs with
    | nil => intro data f _ h; exact ⟨f, rfl, by simpa using h⟩
    | cons a cs ih =>
      intro data f hf h
      have h' : Trained M K c.delta data { f with V := some (f.covariance a.delta) } := by
        obtain ⟨e1, e2, e3, v, V, e4, e5, e6⟩ := h
        refine ⟨e1, e2, e3, v, V, e4, ?_, e6⟩
        unfold Filter.covariance
        rw [e5]
      obtain ⟨f1, h1, t1⟩ := Trained.rls hMK h' a rfl (hf a (by simp))
      obtain ⟨f2, h2, t2⟩ := ih _ f1 (fun c' hc' => hf c' (by simp [hc'])) t1
      refine ⟨f2, ?_, by simpa using t2⟩
      show (match f.rls a.s a.y a.epochs a.delta a.lam a.delay a.order with
        | Except.error e => Except.error e
        | Except.ok f' => runRls cs f') = _
      rw [h1]
      exact h2
  have h0 : Trained M K c.delta ([] : List (ℝ × (ℕ → ℕ → 𝕜) × 𝕜))
      { (Filter.new M K 1 : Filter 𝕜) with V := some ((Filter.new M K 1 : Filter 𝕜).covariance c.delta) } :=
    ⟨rfl, rfl, rfl, _, _, rfl, rfl, RlsInv.init M K c.delta hδ⟩
  obtain ⟨f1, h1, t1⟩ := Trained.rls hMK h0 c rfl (hfit c (by simp))
  obtain ⟨f2, h2, t2⟩ := hrest cs _ f1 (fun c' hc' => hfit c' (by simp [hc'])) t1
  obtain ⟨v, V, hv, hV, ho, hi⟩ := t2.optimal
  refine ⟨f2, v, V, ?_, hv, hV, by simpa using ho, by simpa using hi⟩
  show (match (Filter.new M K 1 : Filter 𝕜).rls c.s c.y c.epochs c.delta c.lam c.delay c.order with
    | Except.error e => Except.error e
    | Except.ok f' => runRls cs f') = _
  rw [h1]
  exact h2

/-- One channel, windows of two samples, four samples, two epochs, complex data. -/
example : ∃ f', runRls [(⟨⟨4, 1, fun i _ => (i : ℂ)⟩, ⟨1, 4, fun _ b => (b : ℂ) * Complex.I⟩, 2, 1 / 100, 1 / 2, 0,
    fun _ l => l⟩ : RlsCall ℂ)] (Filter.new 1 2 1) = .ok f' := by
  obtain ⟨f', -, -, h, -⟩ := C42_rls_partial 1 2 (by norm_num)
    (⟨⟨4, 1, fun i _ => (i : ℂ)⟩, ⟨1, 4, fun _ b => (b : ℂ) * Complex.I⟩, 2, 1 / 100, 1 / 2, 0, fun _ l => l⟩ :
      RlsCall ℂ) [] (by norm_num) (by
        intro c' hc'
        rw [List.mem_singleton] at hc'
        subst hc'
        exact ⟨by norm_num, le_refl _, by norm_num, rfl, rfl⟩)
  exact ⟨f', h⟩

/-- **C42** is false for several references: the first sample raises. -/
theorem C42_references_false (M K L : ℕ) (hL : 2 ≤ L) (hMK : M ≠ K) (c : RlsCall 𝕜) (hd : 0 ≤ c.delay)
    (hK : K < c.s.r - c.delay.toNat) (hM : c.s.c = M) (hy : 0 < c.y.c) (he : 0 < c.epochs)
    (hid : ∀ e l, c.order e l = l) :
    (Filter.new M K L : Filter 𝕜).rls c.s c.y c.epochs c.delta c.lam c.delay c.order = .error .valueError := by
  obtain ⟨x, y', hp, hm, hk, -, hn, hc, -⟩ := prepare_ok (Filter.new M K L : Filter 𝕜) c.s c.y c.delay hd
    (show K ≤ _ by omega) (by rw [hM]; exact hMK)
  have hn0 : 0 < x.n := by
    rw [hn]
    exact lt_min (show 0 < c.s.r - c.delay.toNat - K by omega) hy
  have hL1 : L ≠ 1 := by omega
  have hL1' : 1 ≠ L := by omega
  have hL0 : L ≠ 0 := by omega
  unfold Filter.rls
  rw [hp]
  dsimp only
  obtain ⟨n, hn'⟩ : ∃ n, c.epochs = n + 1 := ⟨c.epochs - 1, by omega⟩
  obtain ⟨k, hk'⟩ : ∃ k, x.n = k + 1 := ⟨x.n - 1, by omega⟩
  have hs : ∃ l, samples x y' = (x.f 0, fun l => y'.f l 0) :: l := by
    unfold samples
    rw [hk', List.range_succ_eq_map]
    exact ⟨_, rfl⟩
  obtain ⟨l, hs⟩ := hs
  rw [hn', hs]
  unfold Filter.rlsEpochs
  rw [hid]
  unfold Filter.rlsLoop
  have hstep : ∀ V, ({ (Filter.new M K L : Filter 𝕜) with
      V := some ((Filter.new M K L : Filter 𝕜).covariance c.delta) }).rlsStep c.lam V (x.f 0)
      (fun l => y'.f l 0) = .error .valueError := by
    intro V
    unfold Filter.rlsStep Filter.error Filter.call A2.bop Filter.offArr Filter.new bdim
    simp [hL1, hL1', hL0, A2.T]
  rw [hstep]

/-- Two references, complex data as above. -/
example : (Filter.new 1 2 2 : Filter ℂ).rls ⟨4, 1, fun i _ => (i : ℂ)⟩ ⟨2, 4, fun _ b => (b : ℂ)⟩ 1 1 1 0
    (fun _ l => l) = .error .valueError :=
  C42_references_false 1 2 2 (le_refl _) (by norm_num)
    ⟨⟨4, 1, fun i _ => (i : ℂ)⟩, ⟨2, 4, fun _ b => (b : ℂ)⟩, 1, 1, 1, 0, fun _ l => l⟩ (le_refl _) (by norm_num) rfl
    (by norm_num) one_pos fun _ _ => rfl

/-! ### C43: gradient descent -/

/-- Real inner product of two sets of coefficients and offsets. -/
noncomputable def pairing (M K : ℕ) (d : ℕ → ℕ → 𝕜) (e : 𝕜) (g : ℕ → ℕ → 𝕜) (go : 𝕜) : ℝ :=
  RCLike.re (∑ m ∈ range M, ∑ k ∈ range K, star (d m k) * g m k + star e * go)

private theorem output_line (M K : ℕ) (h d : ℕ → ℕ → 𝕜) (o e : 𝕜) (t : ℝ) (x : ℕ → ℕ → 𝕜) :
    output M K (fun m k => h m k + (t : 𝕜) * d m k) (o + (t : 𝕜) * e) x =
      output M K h o x + (t : 𝕜) * output M K d e x := by
  unfold output
  have hst : star ((t : ℝ) : 𝕜) = (t : 𝕜) := RCLike.conj_ofReal t
  rw [mul_add, Finset.mul_sum, star_add, star_mul', hst]
  have : ∀ m, ∑ k ∈ range K, star (h m k + (t : 𝕜) * d m k) * x m k =
      ∑ k ∈ range K, star (h m k) * x m k + (t : 𝕜) * ∑ k ∈ range K, star (d m k) * x m k := by
    intro m
    rw [Finset.mul_sum, ← Finset.sum_add_distrib]
    refine Finset.sum_congr rfl fun k _ => ?_
    rw [star_add, star_mul', hst]
    ring
  simp only [this, Finset.sum_add_distrib]
  ring

private theorem meanSquare_line (M K n : ℕ) (x : ℕ → ℕ → ℕ → 𝕜) (y : ℕ → 𝕜) (h d : ℕ → ℕ → 𝕜) (o e : 𝕜)
    (g : ℕ → ℕ → 𝕜) (go : 𝕜)
    (hg : ∀ m k, g m k = -∑ b ∈ range n, star (y b - output M K h o (x b)) / (n : 𝕜) * x b m k)
    (hgo : go = -((∑ b ∈ range n, star (y b - output M K h o (x b))) / (n : 𝕜))) (t : ℝ) :
    meanSquare M K n x y (fun m k => h m k + (t : 𝕜) * d m k) (o + (t : 𝕜) * e) =
      meanSquare M K n x y h o + 2 * pairing M K d e g go * t +
        (∑ b ∈ range n, ‖output M K d e (x b)‖ ^ 2) / n * t ^ 2 := by
  have hp : pairing M K d e g go =
      -(∑ b ∈ range n, RCLike.re (star (y b - output M K h o (x b)) * output M K d e (x b))) / n := by
    have h1 : ∑ m ∈ range M, ∑ k ∈ range K, star (d m k) * g m k + star e * go =
        -(∑ b ∈ range n, star (y b - output M K h o (x b)) * output M K d e (x b)) / n := by
      have h2 : ∑ m ∈ range M, ∑ k ∈ range K, star (d m k) * g m k =
          -∑ b ∈ range n, star (y b - output M K h o (x b)) / (n : 𝕜) *
            ∑ m ∈ range M, ∑ k ∈ range K, star (d m k) * x b m k := by
        simp only [hg, mul_neg, Finset.sum_neg_distrib, Finset.mul_sum]
        congr 1
        rw [Finset.sum_comm' (s := range n) (t := fun _ => range M) (t' := range M) (s' := fun _ => range n)
          (by intro a b; tauto)]
        refine Finset.sum_congr rfl fun m _ => ?_
        rw [Finset.sum_comm]
        refine Finset.sum_congr rfl fun k _ => Finset.sum_congr rfl fun b _ => ?_
        ring
      rw [h2, hgo, neg_div, mul_neg, Finset.sum_div, Finset.sum_div, Finset.mul_sum, ← neg_add,
        ← Finset.sum_add_distrib]
      congr 1
      refine Finset.sum_congr rfl fun b _ => ?_
      unfold output
      ring
    unfold pairing
    rw [h1, neg_div, map_neg, neg_div]
    congr 1
    have h3 : ((n : 𝕜)) = ((n : ℝ) : 𝕜) := by simp
    rw [h3, RCLike.div_re_ofReal, map_sum]
  unfold meanSquare
  rw [hp]
  have hb : ∀ b, ‖y b - output M K (fun m k => h m k + (t : 𝕜) * d m k) (o + (t : 𝕜) * e) (x b)‖ ^ 2 =
      ‖y b - output M K h o (x b)‖ ^ 2 -
        2 * RCLike.re (star (y b - output M K h o (x b)) * output M K d e (x b)) * t +
        ‖output M K d e (x b)‖ ^ 2 * t ^ 2 := by
    intro b
    rw [output_line, ← sub_sub]
    have h4 := @norm_sub_sq 𝕜 𝕜 _ _ _ (y b - output M K h o (x b)) ((t : 𝕜) * output M K d e (x b))
    rw [h4, RCLike.inner_apply, norm_mul, RCLike.norm_ofReal, mul_pow, sq_abs]
    have h5 : (t : 𝕜) * output M K d e (x b) * (starRingEnd 𝕜) (y b - output M K h o (x b)) =
        (t : 𝕜) * (star (y b - output M K h o (x b)) * output M K d e (x b)) := by
      rw [starRingEnd_apply]; ring
    rw [h5, RCLike.re_ofReal_mul]
    ring
  simp only [hb, Finset.sum_add_distrib, Finset.sum_sub_distrib, ← Finset.sum_mul, ← Finset.mul_sum]
  ring

/-- **C43** (partial: one reference): `loss` is the mean square error, and `gradient` is half its gradient: along
every direction the loss changes at twice the rate given by the pairing with the gradient. -/
theorem C43_gradient_partial (f : Filter 𝕜) (x : A3 𝕜) (y : A2 𝕜) (hL : f.L = 1) (v : ℕ → 𝕜)
    (hv : f.off = .col v) (hm : x.m = f.M) (hk : x.k = f.K) (hr : y.r = 1) (hc : y.c = x.n) :
    (∃ l, f.loss x y = .ok l ∧ l 0 = meanSquare f.M f.K x.n x.f (y.f 0) (f.h 0) (v 0)) ∧
    ∃ g go, f.gradient x y = .ok (1, g, go) ∧ ∀ d e,
      HasDerivAt (fun t : ℝ => meanSquare f.M f.K x.n x.f (y.f 0) (fun m k => f.h 0 m k + (t : 𝕜) * d m k)
        (v 0 + (t : 𝕜) * e)) (2 * pairing f.M f.K d e (g 0) (go 0)) 0 := by
  constructor
  · obtain ⟨z, hz, zr, zc, zf⟩ := call_one f hL v hv x hm hk
    unfold Filter.loss
    rw [hz]
    dsimp only
    unfold A2.bop
    rw [hr, zr, bdim_self, hc, zc, bdim_self]
    refine ⟨_, rfl, ?_⟩
    unfold meanSquare
    congr 1
    refine Finset.sum_congr rfl fun b hb => ?_
    have hb' := Finset.mem_range.1 hb
    rw [← zf b hb']
    by_cases h1 : x.n = 1
    · have : b = 0 := by omega
      simp [h1, this]
    · simp [h1]
  · obtain ⟨e', he, er, ec, ef⟩ := error_one f hL v hv x hm hk y hr hc
    have hgrad : f.gradient x y = .ok (1, fun l m k => -∑ b ∈ range x.n, e'.f l b / (e'.c : 𝕜) * x.f b m k,
        fun l => -((∑ b ∈ range e'.c, e'.f l b) / (e'.c : 𝕜))) := by
      unfold Filter.gradient
      rw [he]
      dsimp only
      rw [if_neg (not_not.2 ec), er]
    refine ⟨_, _, hgrad, fun d e => ?_⟩
    have hline := meanSquare_line f.M f.K x.n x.f (y.f 0) (f.h 0) d (v 0) e
      (fun m k => -∑ b ∈ range x.n, e'.f 0 b / (e'.c : 𝕜) * x.f b m k)
      (-((∑ b ∈ range e'.c, e'.f 0 b) / (e'.c : 𝕜)))
      (fun m k => by
        congr 1
        refine Finset.sum_congr rfl fun b hb => ?_
        rw [ef b (Finset.mem_range.1 hb), ec])
      (by
        rw [ec]
        congr 2
        refine Finset.sum_congr rfl fun b hb => ?_
        rw [ef b (Finset.mem_range.1 hb)])
    rw [show (fun t : ℝ => meanSquare f.M f.K x.n x.f (y.f 0) (fun m k => f.h 0 m k + (t : 𝕜) * d m k)
        (v 0 + (t : 𝕜) * e)) = _ from funext hline]
    refine ((((hasDerivAt_id (0 : ℝ)).const_mul _).const_add _).add
      (((hasDerivAt_id (0 : ℝ)).pow 2).const_mul _)).congr_deriv ?_
    simp

/-- **C43** (partial: one reference): a step of `lms` without momentum decreases the loss for every sufficiently
small positive learning rate, unless the gradient vanishes. -/
theorem C43_descent_partial (f : Filter 𝕜) (x : A3 𝕜) (y : A2 𝕜) (hL : f.L = 1) (v : ℕ → 𝕜)
    (hv : f.off = .col v) (hm : x.m = f.M) (hk : x.k = f.K) (hr : y.r = 1) (hc : y.c = x.n)
    (g : ℕ → ℕ → ℕ → 𝕜) (go : ℕ → 𝕜) (hg : f.gradient x y = .ok (1, g, go))
    (hne : (∃ m < f.M, ∃ k < f.K, g 0 m k ≠ 0) ∨ go 0 ≠ 0) :
    ∃ δ > 0, ∀ lr, 0 < lr → lr < δ → ∃ f' l l', f.lmsStep lr 0 x y = .ok f' ∧ f.loss x y = .ok l ∧
      f'.loss x y = .ok l' ∧ l' 0 < l 0 := by
  obtain ⟨e', he, er, ec, ef⟩ := error_one f hL v hv x hm hk y hr hc
  have hgrad : f.gradient x y = .ok (1, fun l m k => -∑ b ∈ range x.n, e'.f l b / (e'.c : 𝕜) * x.f b m k,
      fun l => -((∑ b ∈ range e'.c, e'.f l b) / (e'.c : 𝕜))) := by
    unfold Filter.gradient
    rw [he]
    dsimp only
    rw [if_neg (not_not.2 ec), er]
  have hgg := hg.symm.trans hgrad
  simp only [Except.ok.injEq, Prod.mk.injEq, true_and] at hgg
  set Q := (∑ b ∈ range x.n, ‖output f.M f.K (fun m k => -g 0 m k) (-go 0) (x.f b)‖ ^ 2) / (x.n : ℝ) with hQ
  have hQ0 : 0 ≤ Q := by rw [hQ]; positivity
  set G := ∑ m ∈ range f.M, ∑ k ∈ range f.K, ‖g 0 m k‖ ^ 2 + ‖go 0‖ ^ 2 with hG
  have hsq : ∀ z : 𝕜, RCLike.re (star z * z) = ‖z‖ ^ 2 := by
    intro z
    have := RCLike.conj_mul z
    rw [starRingEnd_apply] at this
    rw [this]
    norm_cast
  have hpair : pairing f.M f.K (fun m k => -g 0 m k) (-go 0) (g 0) (go 0) = -G := by
    unfold pairing
    rw [hG]
    simp only [star_neg, neg_mul, Finset.sum_neg_distrib, map_add, map_neg, map_sum, hsq]
    ring
  have hG0 : 0 < G := by
    rcases hne with ⟨m, hm', k, hk', h0⟩ | h0
    · have h1 : 0 < ∑ m ∈ range f.M, ∑ k ∈ range f.K, ‖g 0 m k‖ ^ 2 :=
        Finset.sum_pos' (fun _ _ => Finset.sum_nonneg fun _ _ => by positivity)
          ⟨m, Finset.mem_range.2 hm', Finset.sum_pos' (fun _ _ => by positivity)
            ⟨k, Finset.mem_range.2 hk', by have := norm_pos_iff.2 h0; positivity⟩⟩
      have h2 : 0 ≤ ‖go 0‖ ^ 2 := by positivity
      linarith
    · have h1 : 0 ≤ ∑ m ∈ range f.M, ∑ k ∈ range f.K, ‖g 0 m k‖ ^ 2 :=
        Finset.sum_nonneg fun _ _ => Finset.sum_nonneg fun _ _ => by positivity
      have h2 : 0 < ‖go 0‖ ^ 2 := by have := norm_pos_iff.2 h0; positivity
      linarith
  refine ⟨2 * G / (Q + 1), by positivity, fun lr hlr hlt => ?_⟩
  have hstep : f.lmsStep lr 0 x y = .ok { f with
      hm := fun l m k => f.hm l m k * ((0 : ℝ) : 𝕜) + (lr : 𝕜) * g l m k
      h := fun l m k => f.h l m k - (f.hm l m k * ((0 : ℝ) : 𝕜) + (lr : 𝕜) * g l m k)
      offm := fun l => f.offm l * ((0 : ℝ) : 𝕜) + (lr : 𝕜) * go l
      off := .col fun l => v l - (f.offm l * ((0 : ℝ) : 𝕜) + (lr : 𝕜) * go l) } := by
    unfold Filter.lmsStep
    rw [hg]
    dsimp only
    rw [if_neg (by omega), hv]
  obtain ⟨l, hl, hl0⟩ := (C43_gradient_partial f x y hL v hv hm hk hr hc).1
  obtain ⟨l', hl', hl0'⟩ := (C43_gradient_partial { f with
      hm := fun l m k => f.hm l m k * ((0 : ℝ) : 𝕜) + (lr : 𝕜) * g l m k
      h := fun l m k => f.h l m k - (f.hm l m k * ((0 : ℝ) : 𝕜) + (lr : 𝕜) * g l m k)
      offm := fun l => f.offm l * ((0 : ℝ) : 𝕜) + (lr : 𝕜) * go l
      off := .col fun l => v l - (f.offm l * ((0 : ℝ) : 𝕜) + (lr : 𝕜) * go l) } x y hL _ rfl hm hk hr hc).1
  refine ⟨_, l, l', hstep, hl, hl', ?_⟩
  rw [hl0, hl0']
  dsimp only
  have hline := meanSquare_line f.M f.K x.n x.f (y.f 0) (f.h 0) (fun m k => -g 0 m k) (v 0) (-go 0) (g 0) (go 0)
      (fun m k => by
        rw [hgg.1]
        dsimp only
        congr 1
        refine Finset.sum_congr rfl fun b hb => ?_
        rw [ef b (Finset.mem_range.1 hb), ec])
      (by
        rw [hgg.2]
        dsimp only
        rw [ec]
        congr 2
        refine Finset.sum_congr rfl fun b hb => ?_
        rw [ef b (Finset.mem_range.1 hb)]) lr
  rw [hpair, ← hQ] at hline
  have e1 : (fun m k => f.h 0 m k - (f.hm 0 m k * ((0 : ℝ) : 𝕜) + (lr : 𝕜) * g 0 m k)) =
      fun m k => f.h 0 m k + (lr : 𝕜) * -g 0 m k := by
    funext m k; simp; ring
  have e2 : v 0 - (f.offm 0 * ((0 : ℝ) : 𝕜) + (lr : 𝕜) * go 0) = v 0 + (lr : 𝕜) * -go 0 := by simp; ring
  rw [e1, e2, hline]
  have h1 : lr * (Q + 1) < 2 * G := by rwa [lt_div_iff₀ (by positivity)] at hlt
  nlinarith [mul_pos hlr hlr]

/-- A constant reference: the offset is learnt from the first step on. -/
example : ∃ δ > 0, ∀ lr, 0 < lr → lr < δ → ∃ f' l l',
    (Filter.new 1 1 1 : Filter ℝ).lmsStep lr 0 ⟨1, 1, 1, fun _ _ _ => 0⟩ ⟨1, 1, fun _ _ => 1⟩ = .ok f' ∧
      (Filter.new 1 1 1 : Filter ℝ).loss ⟨1, 1, 1, fun _ _ _ => 0⟩ ⟨1, 1, fun _ _ => 1⟩ = .ok l ∧
      f'.loss ⟨1, 1, 1, fun _ _ _ => 0⟩ ⟨1, 1, fun _ _ => 1⟩ = .ok l' ∧ l' 0 < l 0 := by
  obtain ⟨-, g, go, hg, -⟩ := C43_gradient_partial (Filter.new 1 1 1 : Filter ℝ) ⟨1, 1, 1, fun _ _ _ => 0⟩
    ⟨1, 1, fun _ _ => 1⟩ rfl (fun _ => 0) rfl rfl rfl rfl rfl
  refine C43_descent_partial _ _ _ rfl (fun _ => 0) rfl rfl rfl rfl rfl g go hg (Or.inr ?_)
  have h2 : (Filter.new 1 1 1 : Filter ℝ).gradient ⟨1, 1, 1, fun _ _ _ => 0⟩ ⟨1, 1, fun _ _ => 1⟩ = _ := rfl
  have h3 := hg.symm.trans h2
  simp [A2.bop, Filter.call, bdim, Filter.offArr, Filter.new, Filter.error, Filter.gradient, A2.T] at h3
  rw [h3.2]
  norm_num

/-- **C43** is false for several references: unless the batch has one sample or exactly as many samples as there
are references, `gradient` raises. -/
theorem C43_references_false (f : Filter 𝕜) (x : A3 𝕜) (y : A2 𝕜) (v : ℕ → 𝕜) (hv : f.off = .col v)
    (hL : 2 ≤ f.L) (hn : x.n ≠ 1) (hnL : x.n ≠ f.L) : f.gradient x y = .error .valueError := by
  have h : f.call x = .error .valueError := by
    unfold Filter.call
    by_cases h0 : x.m ≠ f.M ∨ x.k ≠ f.K
    · rw [if_pos h0]
    · rw [if_neg h0]
      unfold A2.bop Filter.offArr
      rw [hv]
      dsimp only
      have : bdim x.n f.L = .error .valueError := by
        unfold bdim
        rw [if_neg hnL, if_neg hn, if_neg (by omega)]
      rw [this]
  unfold Filter.gradient Filter.error
  rw [h]

/-- **C43** is false for as many samples as references: the offset of reference `b` is added to sample `b` of every
reference. -/
theorem C43_offset_false : ∃ (f : Filter ℝ) (x : A3 ℝ) (v : ℕ → ℝ) (z : A2 ℝ), f.L = 2 ∧ x.n = 2 ∧
    f.off = .col v ∧ f.call x = .ok z ∧ z.f 0 1 ≠ output f.M f.K (f.h 0) (v 0) (x.f 1) := by
  refine ⟨⟨1, 2, 1, fun _ _ _ => 0, fun _ _ _ => 0, .col fun l => if l = 0 then 1 else 0, fun _ => 0, none⟩,
    ⟨2, 1, 1, fun _ _ _ => 0⟩, _, _, rfl, rfl, rfl, rfl, ?_⟩
  simp [A2.T, output, Filter.offArr]

/-! ### C64: batches -/

omit [RCLike 𝕜] in
private theorem samples_slice (x : A3 𝕜) (y : A2 𝕜) (b size : ℕ) :
    samples (x.slice b size) (y.slice b size) = ((samples x y).drop b).take size := by
  refine List.ext_getElem ?_ ?_
  · simp [samples, A3.slice]
    omega
  · intro i h1 h2
    simp [samples, A3.slice, A2.slice]

private theorem lmsLoop_batches (lr mom : ℝ) (size : ℕ) (hs : 0 < size) (x : A3 𝕜) (y : A2 𝕜) (hy : y.c = x.n)
    (fuel : ℕ) : ∀ b, x.n - b ≤ fuel → ∃ bs : List (A3 𝕜 × A2 𝕜),
      (∀ p ∈ bs, 0 < p.1.n ∧ p.1.n ≤ size ∧ p.2.c = p.1.n) ∧ (∀ p ∈ bs.dropLast, p.1.n = size) ∧
      (bs.map fun p => samples p.1 p.2).flatten = (samples x y).drop b ∧
      ∀ f, Filter.lmsLoop lr mom size x y fuel b f = bs.foldlM (fun f p => f.lmsStep lr mom p.1 p.2) f := by
  induction fuel with
  | zero =>
    intro b hb
    refine ⟨[], by simp, by simp, ?_, fun f => rfl⟩
    have : (samples x y).length ≤ b := by simp [samples]; omega
    simp [List.drop_eq_nil_of_le this]
  | succ fuel ih =>
    intro b hb
    by_cases hnb : x.n ≤ b
    · refine ⟨[], by simp, by simp, ?_, fun f => ?_⟩
      · have : (samples x y).length ≤ b := by simp [samples]; omega
        simp [List.drop_eq_nil_of_le this]
      · unfold Filter.lmsLoop
        rw [if_pos hnb]
        rfl
    · obtain ⟨bs, h1, h2, h3, h4⟩ := ih (b + size) (by omega)
      refine ⟨(x.slice b size, y.slice b size) :: bs, ?_, ?_, ?_, fun f => ?_⟩
      · intro p hp
        rcases List.mem_cons.1 hp with rfl | hp
        · have e1 : min (b + size) x.n - b ≤ size := by omega
          have e2 : 0 < min (b + size) x.n - b := by omega
          refine ⟨e2, e1, ?_⟩
          simp only [A3.slice, A2.slice, hy]
        · exact h1 p hp
      · intro p hp
        by_cases hbs : bs = []
        · subst hbs; simp at hp
        · rw [List.dropLast_cons_of_ne_nil hbs] at hp
          rcases List.mem_cons.1 hp with rfl | hp
          · have hlen : (samples x y).drop (b + size) ≠ [] := by
              rw [← h3]
              obtain ⟨p, l, rfl⟩ := List.exists_cons_of_ne_nil hbs
              have := (h1 p (by simp)).1
              intro h0
              have h5 := congrArg List.length h0
              simp [samples] at h5
              omega
            have : b + size < x.n := by
              by_contra hc
              exact hlen (List.drop_eq_nil_of_le (by simp [samples]; omega))
            simp only [A3.slice]
            omega
          · exact h2 p hp
      · rw [List.map_cons, List.flatten_cons, h3, samples_slice, ← List.drop_drop]
        exact List.take_append_drop _ _
      · unfold Filter.lmsLoop
        rw [if_neg hnb, List.foldlM_cons]
        cases hstep : f.lmsStep lr mom (x.slice b size) (y.slice b size) with
        | error e => rfl
        | ok f' => exact h4 f'

omit [RCLike 𝕜] in
private theorem samples_shuffle (x : A3 𝕜) (y : A2 𝕜) (p : ℕ → ℕ) (hp : ((List.range x.n).map p).Perm (List.range x.n)) :
    (samples (x.shuffle p) (y.shuffle p)).Perm (samples x y) := by
  have h : samples (x.shuffle p) (y.shuffle p) =
      ((List.range x.n).map p).map fun b => (x.f b, fun l => y.f l b) := by
    unfold samples A3.shuffle A2.shuffle
    rw [List.map_map]
    rfl
  rw [h]
  exact hp.map _

/-- **C64** (partial: the number of channels differs from the window length, and the windows are those of C44, without the last): training with `lms` consists of one update per batch; in every epoch the batches, taken together, are
the windows of the signal with their references, each exactly once (in order, or as reordered by the permutation
when shuffling); no batch is larger than the batch size and only the last one of an epoch may be smaller. -/
theorem C64_lms_partial (f : Filter 𝕜) (s y : A2 𝕜) (size epochs : ℕ) (lr mom : ℝ) (delay : ℤ) (perm : ℕ → ℕ → ℕ)
    (hs : 0 < size) (hd : 0 ≤ delay) (hK : f.K ≤ s.r - delay.toNat) (hne : s.c ≠ f.K)
    (hperm : ∀ e, ((List.range (min (s.r - delay.toNat - f.K) y.c)).map (perm e)).Perm
      (List.range (min (s.r - delay.toNat - f.K) y.c))) :
    ∃ E : List (List (A3 𝕜 × A2 𝕜)), E.length = epochs ∧
      (∀ bs ∈ E, (∀ p ∈ bs, 0 < p.1.n ∧ p.1.n ≤ size ∧ p.2.c = p.1.n) ∧ (∀ p ∈ bs.dropLast, p.1.n = size) ∧
        ((bs.map fun p => samples p.1 p.2).flatten).Perm
          (windows s.f y.f delay.toNat (min (s.r - delay.toNat - f.K) y.c)) ∧
        ((∀ e b, perm e b = b) → (bs.map fun p => samples p.1 p.2).flatten =
          windows s.f y.f delay.toNat (min (s.r - delay.toNat - f.K) y.c))) ∧
      f.lms s y size epochs lr mom delay perm = E.flatten.foldlM (fun f p => f.lmsStep lr mom p.1 p.2) f := by
  obtain ⟨x, y', hp, -, -, -, hn, hc, hw⟩ := prepare_ok f s y delay hd hK hne
  rw [← hw]
  rw [← hn] at hperm
  have key : ∀ (n e : ℕ) (x : A3 𝕜) (y : A2 𝕜), y.c = x.n →
      (∀ e, ((List.range x.n).map (perm e)).Perm (List.range x.n)) →
      ∃ E : List (List (A3 𝕜 × A2 𝕜)), E.length = n ∧
        (∀ bs ∈ E, (∀ p ∈ bs, 0 < p.1.n ∧ p.1.n ≤ size ∧ p.2.c = p.1.n) ∧ (∀ p ∈ bs.dropLast, p.1.n = size) ∧
          ((bs.map fun p => samples p.1 p.2).flatten).Perm (samples x y) ∧
          ((∀ e b, perm e b = b) → (bs.map fun p => samples p.1 p.2).flatten = samples x y)) ∧
        ∀ f, Filter.lmsEpochs lr mom size perm n e x y f =
          E.flatten.foldlM (fun f p => f.lmsStep lr mom p.1 p.2) f := by
    intro n
    induction n with
    | zero => intro e x y _ _; exact ⟨[], rfl, by simp, fun f => rfl⟩
    | succ n ih =>
      intro e x y hy hpm
      have hid : (∀ e b, perm e b = b) → samples (x.shuffle (perm e)) (y.shuffle (perm e)) = samples x y := by
        intro h
        have : perm e = id := funext fun b => h e b
        rw [this]
        rfl
      obtain ⟨bs, b1, b2, b3, b4⟩ := lmsLoop_batches lr mom size hs (x.shuffle (perm e)) (y.shuffle (perm e)) hy
        x.n 0 (by simp [A3.shuffle])
      rw [List.drop_zero] at b3
      obtain ⟨E, e1, e2, e3⟩ := ih (e + 1) (x.shuffle (perm e)) (y.shuffle (perm e)) hy hpm
      refine ⟨bs :: E, by simp [e1], ?_, fun f => ?_⟩
      · intro bs' hbs'
        rcases List.mem_cons.1 hbs' with rfl | hbs'
        · exact ⟨b1, b2, by rw [b3]; exact samples_shuffle x y _ (hpm e), fun h => by rw [b3, hid h]⟩
        · obtain ⟨c1, c2, c3, c4⟩ := e2 bs' hbs'
          exact ⟨c1, c2, c3.trans (samples_shuffle x y _ (hpm e)), fun h => by rw [c4 h, hid h]⟩
      · rw [List.flatten_cons, List.foldlM_append, ← b4 f]
        have hep : f.lmsEpoch lr mom size (x.shuffle (perm e)) (y.shuffle (perm e)) =
            Filter.lmsLoop lr mom size (x.shuffle (perm e)) (y.shuffle (perm e)) x.n 0 f := by
          unfold Filter.lmsEpoch
          rw [if_neg (by omega)]
          rfl
        unfold Filter.lmsEpochs
        rw [hep]
        cases Filter.lmsLoop lr mom size (x.shuffle (perm e)) (y.shuffle (perm e)) x.n 0 f with
        | error e => rfl
        | ok f' => exact e3 f'
  obtain ⟨E, h1, h2, h3⟩ := key epochs 0 x y' hc hperm
  refine ⟨E, h1, h2, ?_⟩
  unfold Filter.lms
  rw [hp]
  exact h3 f

/-- Three windows in batches of two, two epochs in reversed order. -/
example : ∃ E : List (List (A3 ℝ × A2 ℝ)), E.length = 2 ∧ ∀ bs ∈ E, ∀ p ∈ bs, p.1.n ≤ 2 := by
  obtain ⟨E, h1, h2, -⟩ := C64_lms_partial (Filter.new 1 2 1 : Filter ℝ) ⟨5, 1, fun i _ => (i : ℝ)⟩ ⟨1, 9, fun _ b => (b : ℝ)⟩
    2 2 1 0 0 (fun _ b => 2 - b) (by norm_num) (le_refl _) (by simp [Filter.new]) (by simp [Filter.new])
    (fun _ => by simp only [Filter.new]; decide)
  exact ⟨E, h1, fun bs hbs p hp => ((h2 bs hbs).1 p hp).2.1⟩

/-! ### C65, C66: least squares -/

omit [RCLike 𝕜] in
private theorem prepare_eq (f : Filter 𝕜) (s y : A2 𝕜) (delay : ℤ) (hd : 0 ≤ delay) (hK : f.K ≤ s.r - delay.toNat)
    (hne : s.c ≠ f.K) : f.prepare s y delay = .ok
      (⟨min (s.r - delay.toNat - f.K) y.c, s.c, f.K, fun b m k => s.f (delay.toNat + (b + k)) m⟩,
        ⟨y.r, min (s.r - delay.toNat - f.K) y.c, y.f⟩) := by
  unfold Filter.prepare batch
  rw [if_neg (by omega)]
  dsimp only
  rw [if_neg (by omega)]
  simp only [if_neg hne]

private theorem loss_flat (f : Filter 𝕜) (v : ℕ → 𝕜) (hv : f.off = .flat v) (x : A3 𝕜) (hm : x.m = f.M)
    (hk : x.k = f.K) (y : A2 𝕜) (hr : y.r = f.L) (hc : y.c = x.n) :
    ∃ l, f.loss x y = .ok l ∧ ∀ i < f.L, l i = meanSquare f.M f.K x.n x.f (y.f i) (f.h i) (v i) := by
  have h : ∃ z, f.call x = .ok z ∧ z.r = f.L ∧ z.c = x.n ∧
      ∀ i < f.L, ∀ b < x.n, z.f i b = output f.M f.K (f.h i) (v i) (x.f b) := by
    unfold Filter.call
    rw [if_neg (by tauto)]
    unfold A2.bop Filter.offArr
    rw [hv]
    dsimp only
    rw [bdim_one, bdim_self]
    dsimp only
    refine ⟨_, rfl, rfl, rfl, fun i hi b hb => ?_⟩
    have h1 : (if x.n = 1 then 0 else b) = b := by split <;> omega
    have h2 : (if f.L = 1 then 0 else i) = i := by split <;> omega
    simp only [A2.T, output, h1, h2]
  obtain ⟨z, hz, zr, zc, zf⟩ := h
  unfold Filter.loss
  rw [hz]
  dsimp only
  unfold A2.bop
  rw [hr, zr, bdim_self, hc, zc, bdim_self]
  refine ⟨_, rfl, fun i hi => ?_⟩
  unfold meanSquare
  congr 1
  refine Finset.sum_congr rfl fun b hb => ?_
  have hb' := Finset.mem_range.1 hb
  have h1 : (if x.n = 1 then 0 else b) = b := by split <;> omega
  have h2 : (if f.L = 1 then 0 else i) = i := by split <;> omega
  simp only [h1, h2, zf i hi b hb']

theorem flat_sum (M K : ℕ) (x : ℕ → ℕ → 𝕜) (h : ℕ → ℕ → 𝕜) (w : ℕ → 𝕜)
    (hw : ∀ m < M, ∀ k < K, w (m * K + k) = h m k) :
    ∑ i ∈ range (M * K + 1), star (flatten M K x i) * w i =
      ∑ m ∈ range M, ∑ k ∈ range K, star (x m k) * h m k + w (M * K) := by
  rw [Finset.sum_range_succ]
  congr 1
  · rw [← sum_flat M K fun m k => star (x m k) * h m k]
    refine Finset.sum_congr rfl fun i hi => ?_
    have hi' := Finset.mem_range.1 hi
    have hK : 0 < K := Nat.pos_of_ne_zero fun h0 => by simp [h0] at hi'
    have := hw (i / K) ((Nat.div_lt_iff_lt_mul hK).2 hi') (i % K) (Nat.mod_lt _ hK)
    rw [Nat.div_add_mod'] at this
    rw [this]
    simp [flatten, hi']
  · simp [flatten]

/-- **C65** (partial: real data and windows of a length different from the number of channels): after `lstsq` the
loss of every reference is the least one any coefficients and offset could achieve on the data. -/
theorem C65_real_partial (f f' : Filter ℝ) (s y : A2 ℝ) (delay : ℤ) (hd : 0 ≤ delay)
    (hK : f.K ≤ s.r - delay.toNat) (hne : s.c ≠ f.K) (h : f.Lstsq s y delay f') :
    ∃ l, f'.loss ⟨min (s.r - delay.toNat - f.K) y.c, f.M, f.K, fun b m k => s.f (delay.toNat + (b + k)) m⟩
        ⟨f.L, min (s.r - delay.toNat - f.K) y.c, y.f⟩ = .ok l ∧
      ∀ i < f.L, ∀ h o, l i ≤ meanSquare f.M f.K (min (s.r - delay.toNat - f.K) y.c)
        (fun b m k => s.f (delay.toNat + (b + k)) m) (y.f i) h o := by
  obtain ⟨x, y', hp, hr, hm, sol, hsol, rfl⟩ := h
  rw [prepare_eq f s y delay hd hK hne] at hp
  simp only [Except.ok.injEq, Prod.mk.injEq] at hp
  obtain ⟨rfl, rfl⟩ := hp
  obtain ⟨l, hl, hli⟩ := loss_flat { f with
    off := .flat fun l => sol l (f.M * f.K)
    h := fun l m k => sol l (m * f.K + k) } _ rfl ⟨min (s.r - delay.toNat - f.K) y.c, f.M, f.K,
      fun b m k => s.f (delay.toNat + (b + k)) m⟩ rfl rfl ⟨f.L, min (s.r - delay.toNat - f.K) y.c, y.f⟩ rfl rfl
  refine ⟨l, hl, fun i hi h o => ?_⟩
  rw [hli i hi]
  have h1 := hsol i hi (fun j => if j < f.M * f.K then h (j / f.K) (j % f.K) else o)
  unfold meanSquare
  refine div_le_div_of_nonneg_right ?_ (by positivity)
  dsimp only at h1 ⊢
  have e1 : ∀ b, ∑ i_1 ∈ range (f.M * f.K + 1), star (flatten f.M f.K (fun m k =>
      s.f (delay.toNat + (b + k)) m) i_1) * sol i i_1 = output f.M f.K (fun m k => sol i (m * f.K + k))
        (sol i (f.M * f.K)) fun m k => s.f (delay.toNat + (b + k)) m := by
    intro b
    rw [flat_sum f.M f.K _ (fun m k => sol i (m * f.K + k)) _ fun _ _ _ _ => rfl]
    simp [output, mul_comm]
  have e2 : ∀ b, ∑ i_1 ∈ range (f.M * f.K + 1), star (flatten f.M f.K (fun m k =>
      s.f (delay.toNat + (b + k)) m) i_1) * (if i_1 < f.M * f.K then h (i_1 / f.K) (i_1 % f.K) else o) =
        output f.M f.K h o fun m k => s.f (delay.toNat + (b + k)) m := by
    intro b
    rw [flat_sum f.M f.K _ h]
    · simp [output, mul_comm]
    · intro m hm' k hk'
      have hlt : m * f.K + k < f.M * f.K := by
        calc m * f.K + k < m * f.K + f.K := by omega
          _ = (m + 1) * f.K := by ring
          _ ≤ f.M * f.K := Nat.mul_le_mul_right _ hm'
      rw [if_pos hlt, Nat.mul_comm m, Nat.mul_add_div (by omega), Nat.mul_add_mod, Nat.div_eq_of_lt hk',
        Nat.mod_eq_of_lt hk', Nat.add_zero]
  simp only [e1, e2] at h1
  simpa only [norm_sub_rev] using h1

/-- A least squares fit to the constant 2 with a zero signal. -/
theorem lstsq_example : (Filter.new 1 2 1 : Filter ℝ).Lstsq ⟨4, 1, fun _ _ => 0⟩ ⟨1, 4, fun _ _ => 2⟩ 0
    { (Filter.new 1 2 1 : Filter ℝ) with
      off := .flat fun _ => 2
      h := fun _ m k => if m * 2 + k = 2 then 2 else 0 } := by
  refine ⟨_, _, prepare_eq _ _ _ _ (le_refl _) (by simp [Filter.new]) (by simp [Filter.new]), rfl, rfl,
    fun _ i => if i = 2 then 2 else 0, fun l hl w' => ?_, rfl⟩
  have : ∀ b ∈ range (min (4 - (0 : ℤ).toNat - (Filter.new 1 2 1 : Filter ℝ).K) 4), ‖(∑ i ∈ range
      ((Filter.new 1 2 1 : Filter ℝ).M * (Filter.new 1 2 1 : Filter ℝ).K + 1), star (flatten
        (Filter.new 1 2 1 : Filter ℝ).M (Filter.new 1 2 1 : Filter ℝ).K (fun _ _ => (0 : ℝ)) i) *
          (if i = 2 then 2 else 0 : ℝ)) - 2‖ ^ 2 = 0 := by
    intro b _
    simp [Filter.new, flatten]
  rw [Finset.sum_eq_zero this]
  positivity

example : ∃ l, ({ (Filter.new 1 2 1 : Filter ℝ) with
      off := .flat fun _ => 2
      h := fun _ m k => if m * 2 + k = 2 then 2 else 0 }).loss
        ⟨2, 1, 2, fun _ _ _ => 0⟩ ⟨1, 2, fun _ _ => 2⟩ = .ok l := by
  obtain ⟨l, h, -⟩ := C65_real_partial _ _ _ _ 0 (le_refl _) (by simp [Filter.new]) (by simp [Filter.new]) lstsq_example
  exact ⟨l, h⟩

/-- **C65** is false for complex data: fitting the constant `i`, `lstsq` finds the offset `i`, but the filter's
output is its conjugate. -/
theorem C65_complex_false (f' : Filter ℂ)
    (h : (Filter.new 1 2 1 : Filter ℂ).Lstsq ⟨4, 1, fun _ _ => 0⟩ ⟨1, 4, fun _ _ => Complex.I⟩ 0 f') :
    ∃ l, f'.loss ⟨2, 1, 2, fun _ _ _ => 0⟩ ⟨1, 2, fun _ _ => Complex.I⟩ = .ok l ∧ l 0 = 4 ∧
      meanSquare 1 2 2 (fun _ _ _ => (0 : ℂ)) (fun _ => Complex.I) (fun _ _ => 0) (-Complex.I) = 0 := by
  obtain ⟨x, y', hp, hr, hm, sol, hsol, rfl⟩ := h
  rw [prepare_eq _ _ _ _ (le_refl _) (by simp [Filter.new]) (by simp [Filter.new])] at hp
  simp only [Except.ok.injEq, Prod.mk.injEq] at hp
  obtain ⟨rfl, rfl⟩ := hp
  have h1 := hsol 0 one_pos (fun i => if i = 2 then Complex.I else 0)
  simp [Filter.new, flatten, Finset.sum_range_succ] at h1
  have h2 : sol 0 2 = Complex.I := by
    have h3 : ‖sol 0 2 - Complex.I‖ ^ 2 ≤ 0 := by linarith
    have h4 : ‖sol 0 2 - Complex.I‖ = 0 := by nlinarith [norm_nonneg (sol 0 2 - Complex.I)]
    exact sub_eq_zero.1 (norm_eq_zero.1 h4)
  obtain ⟨l, hl, hli⟩ := loss_flat { (Filter.new 1 2 1 : Filter ℂ) with
      off := .flat fun l => sol l ((Filter.new 1 2 1 : Filter ℂ).M * (Filter.new 1 2 1 : Filter ℂ).K)
      h := fun l m k => sol l (m * (Filter.new 1 2 1 : Filter ℂ).K + k) } _ rfl
    ⟨2, 1, 2, fun _ _ _ => 0⟩ rfl rfl ⟨1, 2, fun _ _ => Complex.I⟩ rfl rfl
  refine ⟨l, hl, ?_, ?_⟩
  · rw [hli 0 one_pos]
    have h5 : ‖Complex.I + Complex.I‖ = 2 := by
      rw [← two_mul, norm_mul, Complex.norm_I]; norm_num
    simp [Filter.new, meanSquare, output, h2, h5]
    norm_num
  · simp [meanSquare, output]

/-- The solver's answer above exists. -/
example : ∃ f', (Filter.new 1 2 1 : Filter ℂ).Lstsq ⟨4, 1, fun _ _ => 0⟩ ⟨1, 4, fun _ _ => Complex.I⟩ 0 f' := by
  refine ⟨_, _, _, prepare_eq _ _ _ _ (le_refl _) (by simp [Filter.new]) (by simp [Filter.new]), rfl, rfl,
    fun _ i => if i = 2 then Complex.I else 0, fun l hl w' => ?_, rfl⟩
  simp [Filter.new, flatten, Finset.sum_range_succ]

/-- **C66** (partial: without `lstsq`): updates of `lms` and `rls` leave a filter whose offset can be read. -/
theorem C66_trained_partial (f f' : Filter 𝕜) (v : ℕ → 𝕜) (hv : f.getOffset = .ok v)
    (h : (∃ s y size epochs lr mom delay perm, f.lms s y size epochs lr mom delay perm = .ok f') ∨
      (∃ s y epochs delta lam delay order, f.rls s y epochs delta lam delay order = .ok f')) :
    ∃ v', f'.getOffset = .ok v' := by
  have hcol : ∀ f : Filter 𝕜, (∃ v, f.getOffset = .ok v) ↔ ∃ v, f.off = .col v := by
    intro f
    unfold Filter.getOffset
    cases f.off with
    | col w => simp
    | flat w => simp
  rw [hcol]
  have h0 := (hcol f).1 ⟨v, hv⟩
  rcases h with ⟨s, y, size, epochs, lr, mom, delay, perm, h⟩ | ⟨s, y, epochs, delta, lam, delay, order, h⟩
  · have hstep : ∀ (f f' : Filter 𝕜) x y, f.lmsStep lr mom x y = .ok f' → ∃ v, f'.off = .col v := by
      intro f f' x y h
      unfold Filter.lmsStep at h
      split at h
      · cases h
      · split at h
        · cases h
        · dsimp only at h
          split at h
          · cases h
          · cases h; exact ⟨_, rfl⟩
    have hloop : ∀ (x : A3 𝕜) (y : A2 𝕜) fuel b (f f' : Filter 𝕜), (∃ v, f.off = .col v) →
        Filter.lmsLoop lr mom size x y fuel b f = .ok f' → ∃ v, f'.off = .col v := by
      intro x y fuel
      induction fuel with
      | zero => intro b f f' h0 h; cases h; exact h0
      | succ fuel ih =>
        intro b f f' h0 h
        unfold Filter.lmsLoop at h
        split at h
        · cases h; exact h0
        · split at h
          · cases h
          · next f1 h1 => exact ih _ f1 f' (hstep _ _ _ _ h1) h
    have hep : ∀ n e (x : A3 𝕜) (y : A2 𝕜) (f f' : Filter 𝕜), (∃ v, f.off = .col v) →
        Filter.lmsEpochs lr mom size perm n e x y f = .ok f' → ∃ v, f'.off = .col v := by
      intro n
      induction n with
      | zero => intro e x y f f' h0 h; cases h; exact h0
      | succ n ih =>
        intro e x y f f' h0 h
        unfold Filter.lmsEpochs at h
        split at h
        · cases h
        · next f1 h1 =>
          refine ih _ _ _ f1 f' ?_ h
          unfold Filter.lmsEpoch at h1
          split at h1
          · cases h1
          · exact hloop _ _ _ _ _ _ h0 h1
    unfold Filter.lms at h
    split at h
    · cases h
    · exact hep _ _ _ _ _ _ h0 h
  · have hstep : ∀ (f f' : Filter 𝕜) V x y, (∃ v, f.off = .col v) → f.rlsStep lam V x y = .ok f' →
        ∃ v, f'.off = .col v := by
      intro f f' V x y h0 h
      unfold Filter.rlsStep at h
      split at h
      · cases h
      · dsimp only at h
        split at h
        · cases h; exact h0
        · split at h
          · cases h
          · split at h
            · cases h
            · cases h; exact ⟨_, rfl⟩
    have hloop : ∀ l (f f' : Filter 𝕜), (∃ v, f.off = .col v) →
        Filter.rlsLoop lam delta l f = .ok f' → ∃ v, f'.off = .col v := by
      intro l
      induction l with
      | nil => intro f f' h0 h; cases h; exact h0
      | cons d l ih =>
        intro f f' h0 h
        unfold Filter.rlsLoop at h
        split at h
        · cases h
        · next f1 h1 => exact ih f1 f' (hstep _ _ _ _ _ h0 h1) h
    have hep : ∀ n e l (f f' : Filter 𝕜), (∃ v, f.off = .col v) →
        Filter.rlsEpochs lam delta order n e l f = .ok f' → ∃ v, f'.off = .col v := by
      intro n
      induction n with
      | zero => intro e l f f' h0 h; cases h; exact h0
      | succ n ih =>
        intro e l f f' h0 h
        unfold Filter.rlsEpochs at h
        split at h
        · cases h
        · next f1 h1 => exact ih _ _ f1 f' (hloop _ _ _ h0 h1) h
    unfold Filter.rls at h
    split at h
    · cases h
    · exact hep _ _ _ { f with V := some (f.covariance delta) } _ h0 h

/-- **C66** is false after `lstsq`: the offset cannot be read, and no further update of `lms` or `rls` succeeds. -/
theorem C66_after_lstsq_false (f f' : Filter 𝕜) (s y : A2 𝕜) (delay : ℤ) (h : f.Lstsq s y delay f') (hL : 0 < f.L) :
    f'.getOffset = .error .indexError ∧ (∀ lr mom x y f'', f'.lmsStep lr mom x y ≠ .ok f'') ∧
      ∀ lam V x y f'', f'.rlsStep lam V x y ≠ .ok f'' := by
  obtain ⟨x, y', hp, hr, hm, sol, hsol, rfl⟩ := h
  refine ⟨rfl, fun lr mom x y f'' h => ?_, fun lam V x y f'' h => ?_⟩
  · unfold Filter.lmsStep at h
    split at h
    · cases h
    · split at h <;> cases h
  · unfold Filter.rlsStep at h
    split at h
    · cases h
    · dsimp only at h
      rw [if_neg (by omega)] at h
      cases h

example : ({ (Filter.new 1 2 1 : Filter ℝ) with
      off := .flat fun _ => 2
      h := fun _ m k => if m * 2 + k = 2 then 2 else 0 }).getOffset = .error .indexError :=
  (C66_after_lstsq_false _ _ _ _ 0 lstsq_example one_pos).1

/-! ### C67: recursive filter -/

theorem iirLoop_spec (K : ℕ) (den fir : ℕ → 𝕜) (fuel : ℕ) : ∀ (idx : ℕ) (buf : ℕ → 𝕜),
    (iirLoop K den fir fuel idx buf).length = fuel ∧ ∀ n < fuel,
      (iirLoop K den fir fuel idx buf).getD n 0 = fir (idx + n) + ∑ k ∈ range K, den k *
        (if n + k < K then buf (n + k) else (iirLoop K den fir fuel idx buf).getD (n + k - K) 0) := by
  induction fuel with
  | zero => intro idx buf; exact ⟨rfl, fun n h => absurd h (Nat.not_lt_zero _)⟩
  | succ fuel ih =>
    intro idx buf
    unfold iirLoop
    dsimp only
    set v := fir idx + ∑ k ∈ range K, den k * buf k with hv
    obtain ⟨h1, h2⟩ := ih (idx + 1) (fun k => if k + 1 < K then buf (k + 1) else v)
    refine ⟨by rw [List.length_cons, h1], fun n hn => ?_⟩
    cases n with
    | zero =>
      rw [List.getD_cons_zero, hv, Nat.add_zero]
      congr 1
      refine Finset.sum_congr rfl fun k hk => ?_
      rw [if_pos (by have := Finset.mem_range.1 hk; omega), Nat.zero_add]
    | succ n =>
      rw [List.getD_cons_succ, h2 n (by omega), show idx + 1 + n = idx + (n + 1) by omega]
      congr 1
      refine Finset.sum_congr rfl fun k hk => ?_
      congr 1
      have hk' := Finset.mem_range.1 hk
      by_cases c1 : n + 1 + k < K
      · rw [if_pos (by omega), if_pos (by omega), if_pos c1, show n + k + 1 = n + 1 + k by omega]
      · by_cases c2 : n + k < K
        · rw [if_pos c2, if_neg (by omega), if_neg c1, show n + 1 + k - K = 0 by omega, List.getD_cons_zero]
        · rw [if_neg c2, if_neg c1, show n + 1 + k - K = n + k - K + 1 by omega, List.getD_cons_succ]

/-- **C67** (partial: one reference): the predictions of the recursive filter satisfy its difference equation: output
`n` is the forward part of window `n` plus the feedback coefficients applied to the `K` previous outputs (zero
before the start). -/
theorem C67_iir_partial (f : Filter 𝕜) (s : A2 𝕜) (hL : f.L = 1) (v : ℕ → 𝕜) (hv : f.off = .col v)
    (hM : s.c + 1 = f.M) (hK : f.K ≤ s.r) (hne : s.c ≠ f.K) :
    ∃ out, f.iirPredict s = .ok out ∧ out.length = s.r - f.K ∧ ∀ n < out.length,
      out.getD n 0 = ∑ m ∈ range s.c, ∑ k ∈ range f.K, f.h 0 m k * s.f (n + k) m + star (v 0) +
        ∑ k ∈ range f.K, f.h 0 s.c k * (if n + k < f.K then 0 else out.getD (n + k - f.K) 0) := by
  have hM' : f.M - 1 = s.c := by omega
  unfold Filter.iirPredict batch
  rw [if_neg (by omega)]
  dsimp only
  rw [if_neg (by omega), if_neg (by omega), hv, hM']
  dsimp only
  obtain ⟨h1, h2⟩ := iirLoop_spec f.K (f.h 0 s.c) (fun i => ∑ m ∈ range s.c, ∑ k ∈ range f.K, f.h 0 m k *
    (if s.c = f.K then s.f (i + m) k else s.f (i + k) m) + star (v 0)) (s.r - f.K) 0 (fun _ => 0)
  refine ⟨_, rfl, h1, fun n hn => ?_⟩
  rw [h2 n (by omega), Nat.zero_add]
  simp only [if_neg hne]

/-- A recursive filter with two taps. -/
example : ∃ out, (⟨2, 1, 2, fun _ _ _ => 0, fun _ m _ => if m = 0 then 1 else 1 / 2, .col fun _ => 0, fun _ => 0,
    none⟩ : Filter ℝ).iirPredict ⟨5, 1, fun i _ => (i : ℝ)⟩ = .ok out ∧ out.length = 3 := by
  obtain ⟨out, h1, h2, -⟩ := C67_iir_partial (⟨2, 1, 2, fun _ _ _ => 0, fun _ m _ => if m = 0 then 1 else 1 / 2,
    .col fun _ => 0, fun _ => 0, none⟩ : Filter ℝ) ⟨5, 1, fun i _ => (i : ℝ)⟩ rfl _ rfl rfl (by norm_num) (by norm_num)
  exact ⟨out, h1, h2⟩

/-- **C67** is false for several references: prediction raises. -/
theorem C67_references_false (f : Filter 𝕜) (s : A2 𝕜) (hL : 2 ≤ f.L) (hM : s.c + 1 = f.M) (hK : f.K < s.r) :
    f.iirPredict s = .error .valueError := by
  unfold Filter.iirPredict batch
  rw [if_neg (by omega)]
  dsimp only
  rw [if_neg (by omega), if_pos ⟨hL, by omega⟩]

example : (Filter.new 2 2 2 : Filter ℝ).iirPredict ⟨5, 1, fun i _ => (i : ℝ)⟩ = .error .valueError :=
  C67_references_false _ _ (le_refl _) rfl (by simp [Filter.new])

/-- `C66_trained_partial`: a filter just made, trained with four samples, has an offset again. -/
example (f' : Filter ℂ) (h : (Filter.new 1 2 1 : Filter ℂ).rls ⟨4, 1, fun i _ => (i : ℂ)⟩ ⟨1, 4, fun _ b => (b : ℂ) * Complex.I⟩
    2 (1 / 100) (1 / 2) 0 (fun _ l => l) = .ok f') : ∃ v', f'.getOffset = .ok v' :=
  C66_trained_partial _ f' _ rfl (.inr ⟨_, _, _, _, _, _, _, h⟩)


end Cbadc.Adaptive
