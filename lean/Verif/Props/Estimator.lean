import Mathlib.Tactic.NormNum
import Mathlib.Tactic.IntervalCases
import Mathlib.LinearAlgebra.Matrix.Notation
import Verif.Lemmas.Parallel
import Verif.Lemmas.EstimatorEnd

/-! # C31-C40: digital estimators -/

namespace Cbadc.Estimator
open Matrix Cbadc.Spec Cbadc.Streams

variable {K : Type*} [CommRing K] [LinearOrder K] {N M L : ℕ}

/-- A one-state filter used in the examples: `Af = 1/2`, `Ab = 1/3`, `Bf = 1`, `Bb = 2`, `WT = 1`. -/
def exCoeffs : Coeffs ℚ 1 1 1 :=
  ⟨!![1 / 2], !![1 / 3], !![1], !![2], !![1]⟩

/-- A control stream used in the examples: `1, 0, 1, 0, ...`, never ending. -/
def exSrc : ℕ → Res (Fin 1 → ℚ) := fun n => .ok fun _ => if n % 2 = 0 then 1 else 0

theorem fir_new_ok {c : Coeffs K N M L} {K1 K2 : ℕ} {eta2 : K} {mid : Bool} {ds limit : ℕ}
    {offset : Option (Fin L → K)} {f : FIR K M L}
    (hf : FIR.new c K1 K2 eta2 mid ds limit offset = .ok f) :
    1 ≤ K2 ∧ f = ⟨K1, K2, ds, limit, firTaps c K1 K2, offset.getD 0⟩ := by
  unfold FIR.new at hf
  by_cases h1 : (K1 : ℤ) < 0
  · omega
  rw [if_neg h1] at hf
  by_cases h2 : (K2 : ℤ) < 1
  · rw [if_pos h2] at hf; simp at hf
  rw [if_neg h2] at hf
  by_cases h3 : eta2 < 0
  · rw [if_pos h3] at hf; simp at hf
  rw [if_neg h3] at hf
  cases mid with
  | true => simp at hf
  | false => simp at hf; exact ⟨by omega, hf.symm⟩

theorem iir_new_ok {c : Coeffs K N M L} {K2 : ℕ} {eta2 : K} {ds limit : ℕ} {f : IIR K N M L}
    (hf : IIR.new c K2 eta2 ds limit = .ok f) :
    f = ⟨c, K2, ds, limit, (iirLookahead c K2).1⟩ := by
  unfold IIR.new at hf
  rw [if_neg (by omega)] at hf
  by_cases h3 : eta2 < 0
  · rw [if_pos h3] at hf; simp at hf
  rw [if_neg h3] at hf
  simp at hf; exact hf.symm

theorem batch_new_ok {c : Coeffs K N M L} {K1 K2 : ℕ} {eta2 : K} {ds : ℤ} {limit : ℕ} {f : Batch K N M L}
    (hf : Batch.new c K1 K2 eta2 ds limit = .ok f) :
    1 ≤ K1 ∧ f = ⟨c, K1, K2, limit⟩ := by
  unfold Batch.new at hf
  by_cases h1 : (K1 : ℤ) < 1
  · rw [if_pos h1] at hf; simp at hf
  rw [if_neg h1, if_neg (by omega)] at hf
  by_cases h3 : eta2 < 0
  · rw [if_pos h3] at hf; simp at hf
  rw [if_neg h3] at hf
  by_cases h4 : ds ≠ 1
  · rw [if_pos h4] at hf; simp at hf
  rw [if_neg h4] at hf
  simp at hf; exact ⟨by omega, hf.symm⟩

/-! ### C31 -/

/-- **C31** The `n`-th estimate of an accepted `FIRFilter` is `offset` plus the reference estimate of sample
`downsample * (n + 1) - K2` with `K1` past and `K2` present and future control vectors; control vectors
before the start of the stream count as zero. -/
theorem C31_fir_estimate (c : Coeffs K N M L) (K1 K2 : ℕ) (eta2 : K) (mid : Bool) (ds limit : ℕ)
    (offset : Option (Fin L → K)) (f : FIR K M L)
    (hf : FIR.new c K1 K2 eta2 mid ds limit offset = .ok f)
    (src : ℕ → Res (Fin M → K)) (s : ℕ → Fin M → K) (n : ℕ)
    (hds : ds ≤ K1 + K2) (hlim : limit = 0 ∨ ds * (n + 1) ≤ limit)
    (hs : ∀ j < ds * (n + 1), src j = .ok (s j)) :
    call (f.next src) FIRState.init n = .ok
      (future c.WT c.Ab c.Bb (Spec.ext s) ((ds * (n + 1) : ℕ) - (K2 : ℤ)) K2 -
        past c.WT c.Af c.Bf (Spec.ext s) ((ds * (n + 1) : ℕ) - (K2 : ℤ)) K1 + offset.getD 0) := by
  obtain ⟨hK2, rfl⟩ := fir_new_ok hf
  rw [fir_call _ src s FIRState.init hds n (by simpa [FIRState.init] using hlim)
    (by simpa [FIRState.init] using hs)]
  simp only [FIRState.init]
  rw [← tensordot_firTaps]
  congr 2
  apply tensordot_congr
  intro k hk
  exact firWindow_init _ _ _ _ _

/-- **C31** The constructor accepts exactly `K1 ≥ 0`, `K2 ≥ 1`, `eta2 ≥ 0` without mid point. -/
theorem C31_fir_accepts (c : Coeffs K N M L) (K1 K2 : ℤ) (eta2 : K) (mid : Bool) (ds limit : ℕ)
    (offset : Option (Fin L → K)) :
    (∃ f, FIR.new c K1 K2 eta2 mid ds limit offset = .ok f) ↔
      0 ≤ K1 ∧ 1 ≤ K2 ∧ 0 ≤ eta2 ∧ mid = false := by
  unfold FIR.new
  by_cases h1 : K1 < 0
  · rw [if_pos h1]; simp; intro h; omega
  rw [if_neg h1]
  by_cases h2 : K2 < 1
  · rw [if_pos h2]; simp; intro _ h; omega
  rw [if_neg h2]
  by_cases h3 : eta2 < 0
  · rw [if_pos h3]; simp; intro _ _ h; exact absurd h3 (not_lt.mpr h)
  rw [if_neg h3]
  cases mid with
  | true => simp
  | false => simp; exact ⟨by omega, by omega, not_lt.mp h3⟩

omit [LinearOrder K] in
/-- **C31** A filter with more downsampling than taps never delivers an estimate. -/
theorem C31_fir_downsample_too_large (f : FIR K M L) (h : f.K1 + f.K2 < f.ds)
    (src : ℕ → Res (Fin M → K)) (st : FIRState K M) (v : Fin L → K) (st' : FIRState K M) :
    f.next src st ≠ (.ok v, st') := by
  unfold FIR.next
  simp only
  split_ifs
  · simp
  · split <;> simp

example : ∃ f, FIR.new exCoeffs 2 3 1 false 1 0 none = .ok f ∧
    call (f.next exSrc) FIRState.init 4 = .ok ![37 / 18] := by
  refine ⟨_, rfl, (C31_fir_estimate exCoeffs 2 3 1 false 1 0 none _ rfl exSrc
    (fun n _ => if n % 2 = 0 then 1 else 0) 4 (by norm_num) (by norm_num) (fun j _ => rfl)).trans ?_⟩
  congr 1
  ext i
  simp [future, past, Spec.ext, exCoeffs, Finset.sum_range_succ, dotProduct, pow_succ]
  norm_num

/-! ### C32 -/

/-- **C32** The `n`-th estimate of an accepted `BatchEstimator` is the reference estimate of sample `n` with
all earlier control vectors and the present and future ones up to the end of the look-ahead of its batch
(`K1 - n % K1` to the end of the batch, then `K2` more). -/
theorem C32_batch_estimate (c : Coeffs K N M L) (K1 K2 : ℕ) (eta2 : K) (ds : ℤ) (limit : ℕ)
    (f : Batch K N M L) (hf : Batch.new c K1 K2 eta2 ds limit = .ok f)
    (src : ℕ → Res (Fin M → K)) (s : ℕ → Fin M → K) (n : ℕ)
    (hlim : n + n / K1 + 1 ≤ limit) (hs : ∀ j < n / K1 * K1 + (K1 + K2), src j = .ok (s j)) :
    call (f.next src) f.init n = .ok
      (future c.WT c.Ab c.Bb (Spec.ext s) n (K2 + (K1 - n % K1)) -
        past c.WT c.Af c.Bf (Spec.ext s) n n) := by
  obtain ⟨hK1, rfl⟩ := batch_new_ok hf
  rw [batch_call (⟨c, K1, K2, limit⟩ : Batch K N M L) src s hK1 n hlim hs]
  unfold batchOut
  simp only
  have e : n / K1 * K1 + n % K1 = n := by
    have := Nat.div_add_mod n K1
    rw [mul_comm]; exact this
  rw [e]

example : ∃ f, Batch.new exCoeffs 2 1 1 1 100 = .ok f ∧
    call (f.next exSrc) f.init 3 = .ok ![-25 / 12] := by
  refine ⟨_, rfl, (C32_batch_estimate exCoeffs 2 1 1 1 100 _ rfl exSrc
    (fun n _ => if n % 2 = 0 then 1 else 0) 3 (by norm_num) (fun j _ => rfl)).trans ?_⟩
  congr 1
  ext i
  simp [future, past, Spec.ext, exCoeffs, Finset.sum_range_succ, dotProduct, pow_succ]
  norm_num

/-- **C32** The constructor accepts exactly `K1 ≥ 1`, `K2 ≥ 0`, `eta2 ≥ 0` without downsampling, and a rejected
downsampling is reported as not implemented. -/
theorem C32_batch_accepts (c : Coeffs K N M L) (K1 K2 : ℤ) (eta2 : K) (ds : ℤ) (limit : ℕ) :
    ((∃ f, Batch.new c K1 K2 eta2 ds limit = .ok f) ↔ 1 ≤ K1 ∧ 0 ≤ K2 ∧ 0 ≤ eta2 ∧ ds = 1) ∧
      (1 ≤ K1 → 0 ≤ K2 → 0 ≤ eta2 → ds ≠ 1 → Batch.new c K1 K2 eta2 ds limit = .error .notImplemented) := by
  unfold Batch.new
  by_cases h1 : K1 < 1
  · rw [if_pos h1]; exact ⟨by simp; intro h; omega, fun h => by omega⟩
  rw [if_neg h1]
  by_cases h2 : K2 < 0
  · rw [if_pos h2]; exact ⟨by simp; intro _ h; omega, fun _ h => by omega⟩
  rw [if_neg h2]
  by_cases h3 : eta2 < 0
  · rw [if_pos h3]
    exact ⟨by simp; intro _ _ h; exact absurd h3 (not_lt.mpr h), fun _ _ h => absurd h3 (not_lt.mpr h)⟩
  rw [if_neg h3]
  by_cases h4 : ds = 1
  · rw [if_neg (not_not.2 h4)]
    exact ⟨by simp; exact ⟨by omega, by omega, not_lt.mp h3, h4⟩, fun _ _ _ h => absurd h4 h⟩
  · rw [if_pos h4]
    exact ⟨by simp [h4], fun _ _ _ _ => rfl⟩

/-! ### C33 -/

/-- **C33** The `n`-th estimate of an accepted `IIRFilter` is the reference estimate of sample
`downsample * n + 1 - K2` with every earlier control vector of the stream and the `K2` latest ones. -/
theorem C33_iir_estimate (c : Coeffs K N M L) (K2 : ℕ) (eta2 : K) (ds limit : ℕ) (f : IIR K N M L)
    (hf : IIR.new c K2 eta2 ds limit = .ok f) (hK2 : 1 ≤ K2) (hds : 1 ≤ ds)
    (src : ℕ → Res (Fin M → K)) (s : ℕ → Fin M → K) (n m : ℕ)
    (hm : ((ds * n : ℕ) : ℤ) + 1 - K2 ≤ m)
    (hlim : limit = 0 ∨ ds * n + 1 ≤ limit) (hs : ∀ j ≤ ds * n, src j = .ok (s j)) :
    call (f.next src) IIRState.init n = .ok
      (future c.WT c.Ab c.Bb (Spec.ext s) ((ds * n : ℕ) + 1 - (K2 : ℤ)) K2 -
        past c.WT c.Af c.Bf (Spec.ext s) ((ds * n : ℕ) + 1 - (K2 : ℤ)) m) := by
  obtain rfl := iir_new_ok hf
  rw [iir_call _ rfl src s (show K2 ≠ 0 by omega) (show ds ≠ 0 by omega) n hlim hs]
  unfold iirOut
  simp only
  rw [past_eq_of_le c.WT c.Af c.Bf s _ (ds * n) m (by omega) hm]

/-- **C33** A look-ahead of zero is accepted by the constructor, but every call then fails. -/
theorem C33_iir_zero_lookahead (c : Coeffs K N M L) (eta2 : K) (ds limit : ℕ) (f : IIR K N M L)
    (hf : IIR.new c 0 eta2 ds limit = .ok f) (src : ℕ → Res (Fin M → K)) (st : IIRState K N M) (v : Fin L → K) :
    (f.next src st).1 ≠ .ok v := by
  obtain rfl := iir_new_ok (K2 := 0) hf
  intro h
  unfold IIR.next at h
  simp only [IIR.nextFuel] at h
  have : ∀ o st', IIR.pass (⟨c, 0, ds, limit, (iirLookahead c 0).1⟩ : IIR K N M L) src st ≠ (.ok o, st') := by
    intro o st'
    unfold IIR.pass
    simp only [if_true]
    split_ifs
    · simp
    · split <;> simp
  rcases hp : IIR.pass (⟨c, 0, ds, limit, (iirLookahead c 0).1⟩ : IIR K N M L) src st with ⟨e | o, st'⟩
  · simp [hp] at h
  · exact this o st' hp

example : ∃ f, IIR.new exCoeffs 3 1 2 0 = .ok f ∧
    call (f.next exSrc) IIRState.init 2 = .ok ![37 / 18] := by
  refine ⟨_, rfl, (C33_iir_estimate exCoeffs 3 1 2 0 _ rfl (by norm_num) (by norm_num) exSrc
    (fun n _ => if n % 2 = 0 then 1 else 0) 2 2 (by norm_num) (by norm_num) (fun j _ => rfl)).trans ?_⟩
  congr 1
  ext i
  simp [future, past, Spec.ext, exCoeffs, Finset.sum_range_succ, dotProduct, pow_succ]
  norm_num

/-- **C33** The constructor accepts exactly `K2 ≥ 0` and `eta2 ≥ 0`. -/
theorem C33_iir_accepts (c : Coeffs K N M L) (K2 : ℤ) (eta2 : K) (ds limit : ℕ) :
    (∃ f, IIR.new c K2 eta2 ds limit = .ok f) ↔ 0 ≤ K2 ∧ 0 ≤ eta2 := by
  unfold IIR.new
  by_cases h1 : K2 < 0
  · rw [if_pos h1]; simp; intro h; omega
  rw [if_neg h1]
  by_cases h2 : eta2 < 0
  · rw [if_pos h2]; simp; intro _; exact h2
  rw [if_neg h2]
  simp
  exact ⟨by omega, not_lt.mp h2⟩

/-! ### C34 -/

/-- **C34** With correct eigen-decompositions of `Af` and `Ab` and a binary control stream, every call of a
`ParallelEstimator` has the same outcome (estimate or exception) as the same call of the `BatchEstimator`
with the same parameters, whatever the stream does and however long it is. -/
theorem C34_parallel_eq_batch (c : Coeffs ℝ N M L) (ef eb : Eig N) (K1 K2 : ℕ) (eta2 : ℝ) (ds : ℤ)
    (limit : ℕ) (p : Parallel N M L) (b : Batch ℝ N M L)
    (hp : Parallel.new c ef eb K1 K2 eta2 ds limit = .ok p) (hb : Batch.new c K1 K2 eta2 ds limit = .ok b)
    (hef : ef.Valid c.Af) (heb : eb.Valid c.Ab)
    (src : ℕ → Res (Fin M → ℝ)) (hsrc : ∀ n s, src n = .ok s → ∀ m, s m = 0 ∨ s m = 1) (n : ℕ) :
    call (p.next src) p.init n = call (b.next src) b.init n := by
  obtain ⟨hK1, rfl⟩ := batch_new_ok hb
  have hpe : p = parOf ⟨c, K1, K2, limit⟩ ef eb := by
    unfold Batch.new at hb
    unfold Parallel.new at hp
    split_ifs at hp hb
    simp at hp
    exact hp.symm
  rw [hpe]
  exact par_call ⟨c, K1, K2, limit⟩ ef eb hef heb hK1 src hsrc n

/-- **C34** Both constructors accept and reject the same arguments with the same exception. -/
theorem C34_same_acceptance (c : Coeffs ℝ N M L) (ef eb : Eig N) (K1 K2 : ℤ) (eta2 : ℝ) (ds : ℤ)
    (limit : ℕ) (e : Exc) :
    Parallel.new c ef eb K1 K2 eta2 ds limit = .error e ↔ Batch.new c K1 K2 eta2 ds limit = .error e := by
  unfold Parallel.new Batch.new
  split_ifs <;> simp

/-- The eigen-decomposition hypothesis is met by a rotation, whose eigenvalues are not real. -/
example : Eig.Valid (N := 2)
    ⟨![Complex.I, -Complex.I], !![1, 1; -Complex.I, Complex.I], !![1 / 2, Complex.I / 2; 1 / 2, -Complex.I / 2]⟩
    !![0, -1; 1, 0] := by
  refine ⟨?_, ?_⟩
  · ext i j
    fin_cases i <;> fin_cases j <;> simp [toC, Matrix.mul_apply, Fin.sum_univ_two, Matrix.diagonal]
  · ext i j
    fin_cases i <;> fin_cases j <;> simp [Matrix.mul_apply, Fin.sum_univ_two] <;>
      ring_nf; simp

/-! ### C35 -/

/-- **C35** On the same stream the outputs of the FIR (no downsampling, no offset) and the IIR estimator
differ exactly by the forward contribution of the control vectors older than the FIR window. -/
theorem C35_fir_iir (c : Coeffs K N M L) (K1 K2 : ℕ) (eta2 eta2' : K) (f : FIR K M L) (g : IIR K N M L)
    (hf : FIR.new c K1 K2 eta2 false 1 0 none = .ok f) (hg : IIR.new c K2 eta2' 1 0 = .ok g)
    (src : ℕ → Res (Fin M → K)) (s : ℕ → Fin M → K) (hs : ∀ j, src j = .ok (s j)) (n : ℕ) :
    ∃ y z, call (f.next src) FIRState.init n = .ok y ∧ call (g.next src) IIRState.init n = .ok z ∧
      y - z = ∑ i ∈ Finset.Ico K1 (K1 + n),
        (c.WT * (c.Af ^ i * c.Bf)) *ᵥ Spec.ext s ((n : ℤ) + 1 - K2 - 1 - i) := by
  obtain ⟨hK2, -⟩ := fir_new_ok hf
  refine ⟨_, _, C31_fir_estimate c K1 K2 eta2 false 1 0 none f hf src s n (by omega) (by omega)
    (fun j _ => hs j), C33_iir_estimate c K2 eta2' 1 0 g hg hK2 le_rfl src s n (K1 + n) (by omega) (by omega)
    (fun j _ => hs j), ?_⟩
  have e1 : ((1 * (n + 1) : ℕ) : ℤ) - K2 = (n : ℤ) + 1 - K2 := by push_cast; ring
  have e2 : ((1 * n : ℕ) : ℤ) + 1 - K2 = (n : ℤ) + 1 - K2 := by push_cast; ring
  rw [e1, e2]
  simp only [Option.getD_none, add_zero]
  rw [sub_sub_sub_cancel_left]
  unfold past
  rw [Finset.sum_Ico_eq_sub _ (by omega : K1 ≤ K1 + n)]

/-- **C35** While the stream is no longer than the FIR window, FIR and IIR estimates coincide. -/
theorem C35_fir_eq_iir (c : Coeffs K N M L) (K1 K2 : ℕ) (eta2 eta2' : K) (f : FIR K M L) (g : IIR K N M L)
    (hf : FIR.new c K1 K2 eta2 false 1 0 none = .ok f) (hg : IIR.new c K2 eta2' 1 0 = .ok g)
    (src : ℕ → Res (Fin M → K)) (s : ℕ → Fin M → K) (n : ℕ) (hs : ∀ j ≤ n, src j = .ok (s j))
    (hn : n + 1 ≤ K1 + K2) :
    call (f.next src) FIRState.init n = call (g.next src) IIRState.init n ∧
      ∃ y, call (f.next src) FIRState.init n = .ok y := by
  obtain ⟨hK2, -⟩ := fir_new_ok hf
  have h1 := C31_fir_estimate c K1 K2 eta2 false 1 0 none f hf src s n (by omega) (by omega)
    (fun j hj => hs j (by omega))
  have h2 := C33_iir_estimate c K2 eta2' 1 0 g hg hK2 le_rfl src s n K1 (by omega) (by omega)
    (fun j hj => hs j (by omega))
  refine ⟨?_, _, h1⟩
  rw [h1, h2]
  have e1 : ((1 * (n + 1) : ℕ) : ℤ) - K2 = ((1 * n : ℕ) : ℤ) + 1 - K2 := by push_cast; ring
  rw [e1]
  simp

/-- **C35** The batch estimate of sample `k` equals the estimate that an IIR filter with the same number of
look-ahead samples gives for it, `K - 1` calls later. -/
theorem C35_iir_eq_batch (c : Coeffs K N M L) (K1 K2 : ℕ) (eta2 eta2' : K) (ds : ℤ) (limit : ℕ)
    (b : Batch K N M L) (g : IIR K N M L) (k : ℕ)
    (hb : Batch.new c K1 K2 eta2 ds limit = .ok b)
    (hg : IIR.new c ((K2 + (K1 - k % K1) : ℕ)) eta2' 1 0 = .ok g)
    (src : ℕ → Res (Fin M → K)) (s : ℕ → Fin M → K) (hs : ∀ j, src j = .ok (s j))
    (hlim : k + k / K1 + 1 ≤ limit) :
    call (b.next src) b.init k =
      call (g.next src) IIRState.init (k + (K2 + (K1 - k % K1)) - 1) ∧
    ∃ y, call (b.next src) b.init k = .ok y := by
  obtain ⟨hK1, -⟩ := batch_new_ok hb
  have hlt := Nat.mod_lt k hK1
  have h1 := C32_batch_estimate c K1 K2 eta2 ds limit b hb src s k hlim (fun j _ => hs j)
  have h2 := C33_iir_estimate c (K2 + (K1 - k % K1)) eta2' 1 0 g hg (by omega) le_rfl src s
    (k + (K2 + (K1 - k % K1)) - 1) k (by omega) (by omega) (fun j _ => hs j)
  refine ⟨?_, _, h1⟩
  rw [h1, h2]
  have e1 : ((1 * (k + (K2 + (K1 - k % K1)) - 1) : ℕ) : ℤ) + 1 - ((K2 + (K1 - k % K1) : ℕ) : ℤ) = k := by
    omega
  rw [e1]

example : (∃ f, FIR.new exCoeffs 2 3 1 false 1 0 none = .ok f) ∧ (∃ g, IIR.new exCoeffs 3 1 1 0 = .ok g) ∧
    (∃ b, Batch.new exCoeffs 2 2 1 1 100 = .ok b) ∧
    (∃ g, IIR.new exCoeffs ((2 + (2 - 5 % 2) : ℕ)) 1 1 0 = .ok g) :=
  ⟨⟨_, rfl⟩, ⟨_, rfl⟩, ⟨_, rfl⟩, ⟨_, rfl⟩⟩

/-! ### C36 -/

omit [LinearOrder K] in
/-- **C36** (FIR) With a positive limit the estimates delivered from a long enough stream are exactly those
of the calls `n` with `downsample * (n + 1) ≤ limit`; every other call raises `StopIteration`, for ever.
Without downsampling that is exactly `limit` estimates. -/
theorem C36_fir_count_partial (f : FIR K M L) (hds : f.ds ≤ f.K1 + f.K2) (h0 : f.limit ≠ 0)
    (src : ℕ → Res (Fin M → K)) (s : ℕ → Fin M → K) (hs : ∀ j < f.limit, src j = .ok (s j)) (n : ℕ) :
    if f.ds * (n + 1) ≤ f.limit then ∃ v, call (f.next src) FIRState.init n = .ok v
    else call (f.next src) FIRState.init n = .error .stopIteration := by
  by_cases h : f.ds * (n + 1) ≤ f.limit
  · rw [if_pos h]
    exact ⟨_, fir_call f src s FIRState.init hds n (Or.inr (by simpa [FIRState.init] using h))
      (fun j hj => by
        simp only [FIRState.init, zero_add]
        exact hs j (by omega))⟩
  · rw [if_neg h]
    unfold call
    apply fir_limit_stop f src _ h0
    rw [fir_iteration_after]
    simp only [FIRState.init]
    have : f.ds * (n + 1) = f.ds * n + f.ds := by ring
    omega

/-- **C36** (IIR) Without downsampling a positive limit gives exactly `limit` estimates. -/
theorem C36_iir_count_partial (c : Coeffs K N M L) (K2 : ℕ) (eta2 : K) (limit : ℕ) (f : IIR K N M L)
    (hf : IIR.new c K2 eta2 1 limit = .ok f) (hK2 : 1 ≤ K2) (h0 : limit ≠ 0)
    (src : ℕ → Res (Fin M → K)) (s : ℕ → Fin M → K) (hs : ∀ j < limit, src j = .ok (s j)) (n : ℕ) :
    if n < limit then ∃ v, call (f.next src) IIRState.init n = .ok v
    else call (f.next src) IIRState.init n = .error .stopIteration := by
  by_cases h : n < limit
  · rw [if_pos h]
    exact ⟨_, C33_iir_estimate c K2 eta2 1 limit f hf hK2 le_rfl src s n (n + 1) (by omega) (by omega)
      (fun j hj => hs j (by omega))⟩
  · rw [if_neg h]
    obtain rfl := iir_new_ok hf
    unfold call
    apply iir_limit_stop _ src _ h0
    rw [iir_iteration_after _ rfl]
    simp only [IIRState.init]
    omega

/-- **C36** (batch) The `n`-th call delivers an estimate as long as `n + n / K1 + 1 ≤ limit`; the first call
for which this fails raises `StopIteration`.  Starting a batch is counted as an iteration. -/
theorem C36_batch_count_partial (c : Coeffs K N M L) (K1 K2 : ℕ) (eta2 : K) (ds : ℤ) (limit : ℕ)
    (f : Batch K N M L) (hf : Batch.new c K1 K2 eta2 ds limit = .ok f)
    (src : ℕ → Res (Fin M → K)) (s : ℕ → Fin M → K) (hs : ∀ j, src j = .ok (s j)) (n : ℕ)
    (hfirst : ∀ m < n, m + m / K1 + 1 ≤ limit) :
    if n + n / K1 + 1 ≤ limit then ∃ v, call (f.next src) f.init n = .ok v
    else call (f.next src) f.init n = .error .stopIteration := by
  by_cases h : n + n / K1 + 1 ≤ limit
  · rw [if_pos h]
    exact ⟨_, C32_batch_estimate c K1 K2 eta2 ds limit f hf src s n h (fun j _ => hs j)⟩
  · rw [if_neg h]
    obtain ⟨hK1, rfl⟩ := batch_new_ok hf
    have hI := batch_stateAfter (⟨c, K1, K2, limit⟩ : Batch K N M L) src s hK1 n hfirst (fun m _ j _ => hs j)
    exact batch_limit_stop (⟨c, K1, K2, limit⟩ : Batch K N M L) src s n _ hK1 hI
      (show limit < n + n / K1 + 1 by omega) (fun j _ => hs j)

/-- **C36 is false**: a `BatchEstimator` with batch size 1 and limit 2 delivers one estimate, a limit of 0
gives no bound for a `FIRFilter`, and a `FIRFilter` with downsampling 2 and limit 3 delivers one estimate. -/
theorem C36_false :
    (∃ f, Batch.new exCoeffs 1 1 1 1 2 = .ok f ∧
      (∃ v, call (f.next exSrc) f.init 0 = .ok v) ∧
      call (f.next exSrc) f.init 1 = .error .stopIteration) ∧
    (∃ f, FIR.new exCoeffs 1 1 1 false 1 0 none = .ok f ∧
      ∀ n, ∃ v, call (f.next exSrc) FIRState.init n = .ok v) ∧
    (∃ f, FIR.new exCoeffs 1 1 1 false 2 3 none = .ok f ∧
      (∃ v, call (f.next exSrc) FIRState.init 0 = .ok v) ∧
      call (f.next exSrc) FIRState.init 1 = .error .stopIteration) := by
  refine ⟨⟨_, rfl, ?_, ?_⟩, ⟨_, rfl, ?_⟩, ⟨_, rfl, ?_, ?_⟩⟩
  · have := C36_batch_count_partial exCoeffs 1 1 1 1 2 _ rfl exSrc
      (fun n _ => if n % 2 = 0 then 1 else 0) (fun j => rfl) 0 (by omega)
    simpa using this
  · have := C36_batch_count_partial exCoeffs 1 1 1 1 2 _ rfl exSrc
      (fun n _ => if n % 2 = 0 then 1 else 0) (fun j => rfl) 1 (by intro m hm; simp; omega)
    simpa using this
  · intro n
    exact ⟨_, C31_fir_estimate exCoeffs 1 1 1 false 1 0 none _ rfl exSrc
      (fun n _ => if n % 2 = 0 then 1 else 0) n (by omega) (by omega) (fun j _ => rfl)⟩
  · exact ⟨_, C31_fir_estimate exCoeffs 1 1 1 false 2 3 none _ rfl exSrc
      (fun n _ => if n % 2 = 0 then 1 else 0) 0 (by omega) (by omega) (fun j _ => rfl)⟩
  · have := C36_fir_count_partial (⟨1, 1, 2, 3, firTaps exCoeffs 1 1, 0⟩ : FIR ℚ 1 1) (by simp) (by simp)
      exSrc (fun n _ => if n % 2 = 0 then 1 else 0) (fun j _ => rfl) 1
    simpa using this

/-! ### C37 -/

/-- **C37** The `n`-th estimate of an FIR filter with downsampling `D` is the `D (n + 1) - 1`-th estimate of
the same filter without downsampling. -/
theorem C37_downsample_is_decimation (c : Coeffs K N M L) (K1 K2 : ℕ) (eta2 : K) (mid : Bool) (D : ℕ)
    (offset : Option (Fin L → K)) (f g : FIR K M L)
    (hf : FIR.new c K1 K2 eta2 mid D 0 offset = .ok f) (hg : FIR.new c K1 K2 eta2 mid 1 0 offset = .ok g)
    (hD : 1 ≤ D) (hD' : D ≤ K1 + K2)
    (src : ℕ → Res (Fin M → K)) (s : ℕ → Fin M → K) (n : ℕ)
    (hs : ∀ j < D * (n + 1), src j = .ok (s j)) :
    call (f.next src) FIRState.init n = call (g.next src) FIRState.init (D * (n + 1) - 1) ∧
      ∃ v, call (f.next src) FIRState.init n = .ok v := by
  have hpos : 1 ≤ D * (n + 1) := Nat.one_le_iff_ne_zero.mpr (Nat.mul_ne_zero (by omega) (by omega))
  obtain ⟨hK2, -⟩ := fir_new_ok hf
  have h1 := C31_fir_estimate c K1 K2 eta2 mid D 0 offset f hf src s n hD' (by omega) hs
  have h2 := C31_fir_estimate c K1 K2 eta2 mid 1 0 offset g hg src s (D * (n + 1) - 1) (by omega) (by omega)
    (fun j hj => hs j (by omega))
  refine ⟨?_, _, h1⟩
  rw [h1, h2]
  have e : 1 * (D * (n + 1) - 1 + 1) = D * (n + 1) := by omega
  rw [e]

example : ∃ f g, FIR.new exCoeffs 2 3 1 false 4 0 none = .ok f ∧ FIR.new exCoeffs 2 3 1 false 1 0 none = .ok g ∧
    call (f.next exSrc) FIRState.init 6 = call (g.next exSrc) FIRState.init 27 := by
  refine ⟨_, _, rfl, rfl, ?_⟩
  exact (C37_downsample_is_decimation exCoeffs 2 3 1 false 4 none _ _ rfl rfl (by norm_num) (by norm_num)
    exSrc (fun n _ => if n % 2 = 0 then 1 else 0) 6 (fun j _ => rfl)).1

/-! ### C38 -/

omit [LinearOrder K] in
/-- **C38** (FIR) If the first `n` calls all deliver estimates, the source really produced all the
`downsample * n` control vectors consumed for them. -/
theorem C38_fir_no_invention_partial (f : FIR K M L) (src : ℕ → Res (Fin M → K)) (n : ℕ)
    (h : ∀ m < n, ∃ v, call (f.next src) FIRState.init m = .ok v) :
    ∀ j < f.ds * n, ∃ s, src j = .ok s := by
  have := (fir_all_ok f src FIRState.init n h).2
  simpa [FIRState.init] using this

omit [LinearOrder K] in
/-- **C38** (FIR) When the source ends with `RuntimeError` at sample `r`, the call that needs sample `r`
raises `StopIteration`. -/
theorem C38_fir_end_partial (f : FIR K M L) (hds : f.ds ≤ f.K1 + f.K2) (src : ℕ → Res (Fin M → K))
    (s : ℕ → Fin M → K) (r n : ℕ) (hs : ∀ j < r, src j = .ok (s j)) (hr : src r = .error .runtimeError)
    (h1 : f.ds * n ≤ r) (h2 : r < f.ds * (n + 1)) :
    call (f.next src) FIRState.init n = .error .stopIteration := by
  have hmul : f.ds * (n + 1) = f.ds * n + f.ds := by ring
  unfold call
  by_cases hlim : f.limit = 0 ∨ f.ds * (n + 1) ≤ f.limit
  · obtain ⟨g1, g2, -, -⟩ := fir_stateAfter f src s FIRState.init hds n
      (by simp only [FIRState.init]; omega) (fun j hj => by
        simp only [FIRState.init, zero_add]; exact hs j (by omega))
    have hp := firPull_error src s (stateAfter (f.next src) FIRState.init n).calls f.ds (r - f.ds * n)
      .runtimeError (by omega) (fun j hj => by
        rw [g2]; simp only [FIRState.init, zero_add]; exact hs _ (by omega))
      (by
        rw [g2]; simp only [FIRState.init, zero_add]; rw [← hr]; congr 1; omega)
    exact fir_pull_stop f src _ _ hp
  · apply fir_limit_stop f src _ (by omega)
    rw [fir_iteration_after]
    simp only [FIRState.init]
    omega

omit [LinearOrder K] in
/-- **C38** (IIR) If the first `n + 1` calls all deliver estimates, the source really produced all the
`downsample * n + 1` control vectors consumed for them. -/
theorem C38_iir_no_invention_partial (f : IIR K N M L) (hds : f.ds ≠ 0) (src : ℕ → Res (Fin M → K)) (n : ℕ)
    (h : ∀ m ≤ n, ∃ v, call (f.next src) IIRState.init m = .ok v) :
    ∀ j ≤ f.ds * n, ∃ s, src j = .ok s := by
  intro j hj
  exact (iir_all_ok f hds src (n + 1) (fun m hm => h m (by omega))).2.2 j (by simp only [iirPasses]; omega)

/-- **C38** (IIR) When the source ends with `RuntimeError` at sample `r`, the call that needs sample `r` raises
`StopIteration`. -/
theorem C38_iir_end_partial (c : Coeffs K N M L) (K2 : ℕ) (eta2 : K) (ds limit : ℕ) (f : IIR K N M L)
    (hf : IIR.new c K2 eta2 ds limit = .ok f) (hK2 : 1 ≤ K2) (hds : 1 ≤ ds)
    (src : ℕ → Res (Fin M → K)) (s : ℕ → Fin M → K) (n r : ℕ)
    (hlim : limit = 0 ∨ r ≤ limit) (hs : ∀ j < r, src j = .ok (s j)) (hr : src r = .error .runtimeError)
    (h1 : n ≠ 0 → ds * (n - 1) < r) (h2 : r ≤ ds * n) :
    call (f.next src) IIRState.init n = .error .stopIteration := by
  obtain rfl := iir_new_ok hf
  refine iir_end _ rfl src s (by simpa using (by omega : K2 ≠ 0)) (by simpa using (by omega : ds ≠ 0)) n r hlim hs hr ?_ h2
  cases n with
  | zero => simp [iirPasses]
  | succ n => simp only [iirPasses]; have := h1 (by omega); simpa using this

/-- **C38** (batch) What the batch estimator does at the end of a stream of `r` control vectors: with `b` the first
batch that needs sample `r`, if each read beyond the end until that batch is full raises `RuntimeError`, exactly the first
`(b + 1) K1` calls deliver estimates, those of the stream padded with zero control vectors, and every later call raises
`StopIteration`.  (A generator raises `RuntimeError` only once, then `StopIteration`: see `C165_batch_generator`.) -/
theorem C38_batch_end_partial (c : Coeffs K N M L) (K1 K2 : ℕ) (eta2 : K) (ds : ℤ) (limit : ℕ)
    (f : Batch K N M L) (hf : Batch.new c K1 K2 eta2 ds limit = .ok f)
    (src : ℕ → Res (Fin M → K)) (s : ℕ → Fin M → K) (r b : ℕ) (hlim : (b + 1) * (K1 + 1) ≤ limit)
    (hs : ∀ j < r, src j = .ok (s j))
    (hr : ∀ j, r ≤ j → j < b * K1 + (K1 + K2) → src j = .error .runtimeError)
    (h1 : b = 0 ∨ b * K1 + K2 ≤ r) (h2 : r < b * K1 + (K1 + K2)) (n : ℕ) :
    call (f.next src) f.init n =
      if n < (b + 1) * K1 then .ok
        (future c.WT c.Ab c.Bb (Spec.ext fun j => if j < r then s j else 0) n (K2 + (K1 - n % K1)) -
          past c.WT c.Af c.Bf (Spec.ext fun j => if j < r then s j else 0) n n)
      else .error .stopIteration := by
  obtain ⟨hK1, rfl⟩ := batch_new_ok hf
  have hexp : (b + 1) * K1 = b * K1 + K1 := by ring
  have hexp2 : (b + 1) * (K1 + 1) = b * K1 + K1 + b + 1 := by ring
  have hs' : ∀ j < r, src j = .ok ((fun j => if j < r then s j else 0) j) := by
    intro j hj; simp only; rw [if_pos hj]; exact hs j hj
  have hr' : ∀ j, r ≤ j → j < b * K1 + (K1 + K2) →
      src j = .error .runtimeError ∧ (fun j => if j < r then s j else 0) j = 0 := by
    intro j hj hj'; simp only; rw [if_neg (by omega)]; exact ⟨hr j hj hj', rfl⟩
  have hend := batchEnd_stateAfter (⟨c, K1, K2, limit⟩ : Batch K N M L) src _ b r hK1 hlim hs' hr' h1 h2
  have hdm := Nat.div_add_mod n K1
  have hml := Nat.mod_lt n hK1
  by_cases hn : n < (b + 1) * K1
  · rw [if_pos hn]
    by_cases hnb : n < b * K1
    · have hdiv : n / K1 + 1 ≤ b := by
        have := (Nat.div_lt_iff_lt_mul hK1).2 hnb
        omega
      have hm := Nat.mul_le_mul_right K1 hdiv
      have e : (n / K1 + 1) * K1 = n / K1 * K1 + K1 := by ring
      exact C32_batch_estimate c K1 K2 eta2 ds limit _ hf src _ n (by omega)
        (fun j hj => hs' j (by
          rcases h1 with h1 | h1
          · subst h1; simp at hnb
          · omega))
    · have hq : n / K1 = b := by
        have h3 : b ≤ n / K1 := (Nat.le_div_iff_mul_le hK1).2 (by omega)
        have h4 : n / K1 < b + 1 := (Nat.div_lt_iff_lt_mul hK1).2 hn
        omega
      have e : b * K1 + n % K1 = n := by rw [← hq]; rw [mul_comm]; exact hdm
      have h := (hend (n % K1) hml).1
      simp only at h
      rw [e] at h
      rw [h]
      unfold batchOut
      simp only
      rw [e]
  · rw [if_neg hn]
    have h := (hend (K1 - 1) (by simp only; omega)).2
    simp only at h
    have e1 : b * K1 + (K1 - 1) + 1 = (b + 1) * K1 := by omega
    rw [e1] at h
    have h5 := batchEnd_after (⟨c, K1, K2, limit⟩ : Batch K N M L) src ((b + 1) * K1) (n - (b + 1) * K1)
      (by rw [h.pointer]; simp only; omega) h.stop
    rw [show (b + 1) * K1 + (n - (b + 1) * K1) = n by omega] at h5
    exact h5.1

/-- four samples, batches of 2 with look-ahead 1: the look-ahead of the second batch is padded, four estimates -/
example : ∃ f, Batch.new exCoeffs 2 1 1 1 100 = .ok f ∧
    (∃ v, call (f.next fun j => if j < 4 then exSrc j else .error .runtimeError) f.init 3 = .ok v) ∧
    call (f.next fun j => if j < 4 then exSrc j else .error .runtimeError) f.init 4 = .error .stopIteration := by
  have h := fun n => C38_batch_end_partial exCoeffs 2 1 1 1 100 _ rfl
    (fun j => if j < 4 then exSrc j else .error .runtimeError) (fun n _ => if n % 2 = 0 then 1 else 0) 4 1
    (by norm_num) (fun j hj => by rw [if_pos hj]; rfl) (fun j hj _ => by rw [if_neg (by omega)])
    (Or.inr (by norm_num)) (by norm_num) n
  refine ⟨_, rfl, ⟨_, (h 3).trans (if_pos (by norm_num))⟩, (h 4).trans (if_neg (by norm_num))⟩

/-- three samples, every second estimate kept: the third call needs sample 4 -/
example : ∃ f, IIR.new exCoeffs 2 1 2 0 = .ok f ∧
    call (f.next fun j => if j < 3 then exSrc j else .error .runtimeError) IIRState.init 2 = .error .stopIteration :=
  ⟨_, rfl, C38_iir_end_partial exCoeffs 2 1 2 0 _ rfl (by norm_num) (by norm_num) _
    (fun n _ => if n % 2 = 0 then 1 else 0) 2 3 (Or.inl rfl) (fun j hj => by rw [if_pos hj]; rfl)
    (by rw [if_neg (by omega)]) (by norm_num) (by norm_num)⟩

/-- **C38 is false** for the batch estimator: the stream below holds a single control vector, then raises
`RuntimeError` (as every generator of this package does); `BatchEstimator` with `K1 = K2 = 1` nevertheless
delivers an estimate, and it is the one for the stream extended by the fabricated sample 0 (valued -1), not
the estimate from the received samples. -/
theorem C38_batch_false :
    ∃ (f : Batch ℚ 1 1 1) (src : ℕ → Res (Fin 1 → ℚ)) (v : Fin 1 → ℚ),
      Batch.new exCoeffs 1 1 1 1 100 = .ok f ∧
      src 0 = .ok (fun _ => 1) ∧ (∀ j, 1 ≤ j → src j = .error .runtimeError) ∧
      call (f.next src) f.init 0 = .ok v ∧
      v = future exCoeffs.WT exCoeffs.Ab exCoeffs.Bb (Spec.ext fun j _ => if j = 0 then 1 else 0) 0 2 ∧
      v ≠ future exCoeffs.WT exCoeffs.Ab exCoeffs.Bb (Spec.ext fun j _ => if j = 0 then 1 else 0) 0 1 := by
  refine ⟨⟨exCoeffs, 1, 1, 100⟩, fun j => if j = 0 then .ok (fun _ => 1) else .error .runtimeError,
    ![4 / 3], rfl, rfl, ?_, ?_, ?_, ?_⟩
  · intro j hj; simp only; rw [if_neg (by omega)]
  · simp only [call, stateAfter, Batch.next, Batch.nextFuel, Batch.init, Batch.fill, Batch.input,
      Batch.computeBatch, batchLookahead, batchForward, batchBackward]
    simp
    ext i
    fin_cases i
    simp [Matrix.mulVec, dotProduct, exCoeffs, valued]
    norm_num
  · ext i
    fin_cases i
    simp [future, Spec.ext, exCoeffs, Finset.sum_range_succ, dotProduct]
    norm_num
  · intro h
    have := congrFun h 0
    simp [future, Spec.ext, exCoeffs, dotProduct] at this
    norm_num at this

example : ∃ f, FIR.new exCoeffs 2 3 1 false 2 0 none = .ok f ∧
    (∃ v, call (f.next fun j => if j < 5 then exSrc j else .error .runtimeError) FIRState.init 1 = .ok v) ∧
    call (f.next fun j => if j < 5 then exSrc j else .error .runtimeError) FIRState.init 2
      = .error .stopIteration := by
  refine ⟨_, rfl, ?_, ?_⟩
  · exact ⟨_, C31_fir_estimate exCoeffs 2 3 1 false 2 0 none _ rfl _
      (fun n _ => if n % 2 = 0 then 1 else 0) 1 (by norm_num) (by norm_num)
      (fun j hj => by rw [if_pos (by omega)]; rfl)⟩
  · exact C38_fir_end_partial _ (by decide) _ (fun n _ => if n % 2 = 0 then 1 else 0) 5 2
      (fun j hj => by rw [if_pos hj]; rfl) rfl (by decide) (by decide)

/-! ### C39 -/

omit [LinearOrder K] in
/-- **C39** Two runs of the same FIR filter, from arbitrary internal states (for example after another
stream has been processed) and on arbitrary streams, give the same estimate as soon as at least `K1 + K2`
samples were received in each and the last `K1 + K2` agree. -/
theorem C39_window (f : FIR K M L) (hds : f.ds ≤ f.K1 + f.K2) (hlim : f.limit = 0)
    (st st' : FIRState K M) (src src' : ℕ → Res (Fin M → K)) (s s' : ℕ → Fin M → K) (n n' : ℕ)
    (hs : ∀ j < f.ds * (n + 1), src (st.calls + j) = .ok (s (st.calls + j)))
    (hs' : ∀ j < f.ds * (n' + 1), src' (st'.calls + j) = .ok (s' (st'.calls + j)))
    (hn : f.K1 + f.K2 ≤ f.ds * (n + 1)) (hn' : f.K1 + f.K2 ≤ f.ds * (n' + 1))
    (hw : ∀ k < f.K1 + f.K2, s (st.calls + (f.ds * (n + 1) + k - (f.K1 + f.K2))) =
      s' (st'.calls + (f.ds * (n' + 1) + k - (f.K1 + f.K2)))) :
    call (f.next src) st n = call (f.next src') st' n' ∧ ∃ v, call (f.next src) st n = .ok v := by
  have h1 := fir_call f src s st hds n (Or.inl hlim) hs
  have h2 := fir_call f src' s' st' hds n' (Or.inl hlim) hs'
  refine ⟨?_, _, h1⟩
  rw [h1, h2]
  congr 2
  apply tensordot_congr
  intro k hk
  unfold firWindow
  rw [if_pos (by omega), if_pos (by omega), hw k hk]

omit [LinearOrder K] in
/-- **C39** FIR estimates are affine in the control stream. -/
theorem C39_affine (f : FIR K M L) (hds : f.ds ≤ f.K1 + f.K2) (hlim : f.limit = 0)
    (s s' : ℕ → Fin M → K) (t : K) (n : ℕ) :
    ∃ v v', call (f.next fun j => .ok (s j)) FIRState.init n = .ok v ∧
      call (f.next fun j => .ok (s' j)) FIRState.init n = .ok v' ∧
      call (f.next fun j => .ok (t • s j + (1 - t) • s' j)) FIRState.init n =
        .ok (t • v + (1 - t) • v') := by
  refine ⟨_, _, fir_call f _ s FIRState.init hds n (Or.inl hlim) (fun j _ => rfl),
    fir_call f _ s' FIRState.init hds n (Or.inl hlim) (fun j _ => rfl), ?_⟩
  rw [fir_call f _ (fun j => t • s j + (1 - t) • s' j) FIRState.init hds n (Or.inl hlim) (fun j _ => rfl)]
  congr 1
  have : tensordot (f.K1 + f.K2) f.h (firWindow (f.K1 + f.K2) f.ds (FIRState.init : FIRState K M).buf
        (FIRState.init : FIRState K M).calls
      (fun j => t • s j + (1 - t) • s' j) (n + 1)) =
      t • tensordot (f.K1 + f.K2) f.h (firWindow (f.K1 + f.K2) f.ds (FIRState.init : FIRState K M).buf
        (FIRState.init : FIRState K M).calls
        s (n + 1)) + (1 - t) • tensordot (f.K1 + f.K2) f.h
          (firWindow (f.K1 + f.K2) f.ds (FIRState.init : FIRState K M).buf
        (FIRState.init : FIRState K M).calls s' (n + 1)) := by
    rw [tensordot_eq, tensordot_eq, tensordot_eq, Finset.smul_sum, Finset.smul_sum, ← Finset.sum_add_distrib]
    apply Finset.sum_congr rfl
    intro k _
    rw [← Matrix.mulVec_smul, ← Matrix.mulVec_smul, ← Matrix.mulVec_add]
    congr 1
    unfold firWindow
    split_ifs
    · ext m; simp [valued]; ring
    · simp [FIRState.init]
  rw [this]
  ext l
  simp
  ring

/-- **C39** A constant offset shifts every estimate and changes nothing else. -/
theorem C39_offset (c : Coeffs K N M L) (K1 K2 : ℕ) (eta2 : K) (mid : Bool) (ds limit : ℕ)
    (o : Fin L → K) (f g : FIR K M L)
    (hf : FIR.new c K1 K2 eta2 mid ds limit (some o) = .ok f)
    (hg : FIR.new c K1 K2 eta2 mid ds limit none = .ok g)
    (src : ℕ → Res (Fin M → K)) (st : FIRState K M) :
    f.next src st = (((g.next src st).1.map (· + o)), (g.next src st).2) := by
  obtain ⟨-, rfl⟩ := fir_new_ok hf
  obtain ⟨-, rfl⟩ := fir_new_ok hg
  unfold FIR.next
  simp only
  split_ifs
  · rfl
  · split <;> rfl
  · split
    · rfl
    · rfl
    · simp [Except.map]

example : ∃ v : Fin 1 → ℚ,
    call (FIR.next (⟨1, 1, 1, 0, firTaps exCoeffs 1 1, 0⟩ : FIR ℚ 1 1) exSrc)
      ⟨fun _ _ => 77, 12, 0, 5⟩ 3 = .ok v ∧
    call (FIR.next (⟨1, 1, 1, 0, firTaps exCoeffs 1 1, 0⟩ : FIR ℚ 1 1) exSrc) FIRState.init 5 = .ok v := by
  obtain ⟨h, v, hv⟩ := C39_window (⟨1, 1, 1, 0, firTaps exCoeffs 1 1, 0⟩ : FIR ℚ 1 1) (by decide) rfl
    ⟨fun _ _ => 77, 12, 0, 5⟩ FIRState.init exSrc exSrc (fun n _ => if n % 2 = 0 then 1 else 0)
    (fun n _ => if n % 2 = 0 then 1 else 0) 3 5 (fun j _ => rfl) (fun j _ => rfl) (by decide) (by decide)
    (by
      intro k hk
      have hk : k < 2 := hk
      interval_cases k <;> rfl)
  exact ⟨v, hv, h ▸ hv⟩

/-! ### C40 -/

omit [LinearOrder K] in
/-- Summation form of `np.convolve`: filtering with the convolved taps is filtering twice. -/
theorem npConvolve_sum (n : ℕ) (a : ℕ → K) (F : ℕ) (g : ℕ → K) (X : ℕ → K) :
    ∑ u ∈ Finset.range (n + F - 1), npConvolve n a F g u * X u =
      ∑ j ∈ Finset.range F, g j * ∑ i ∈ Finset.range n, a i * X (i + j) := by
  unfold npConvolve
  simp_rw [Finset.sum_mul, Finset.mul_sum]
  rw [Finset.sum_comm]
  apply Finset.sum_congr rfl
  intro j hj
  have hj := Finset.mem_range.mp hj
  simp_rw [ite_mul, zero_mul]
  rw [← Finset.sum_filter]
  symm
  apply Finset.sum_nbij' (fun i => i + j) (fun u => u - j)
  · intro i hi
    have := Finset.mem_range.mp hi
    simp
    omega
  · intro u hu
    simp at hu ⊢
    omega
  · intro i _; simp
  · intro u hu
    simp at hu ⊢
    omega
  · intro i hi
    simp
    ring

omit [LinearOrder K] in
/-- **C40** When `FIRFilter.convolve` succeeds, the estimate from the new taps equals the former estimates
filtered by `g` (centred at `(F - 1) / 2`), minus the part of the convolution that falls outside the window
of `K1 + K2` taps; `x` is any two-sided control sequence and `y` the outputs of the former taps. -/
theorem C40_convolve_cascade_partial (f f' : FIR K M L) (F : ℕ) (g : ℕ → K) (hf : f.convolve F g = .ok f')
    (x : ℤ → Fin M → K) (e : ℤ) (l : Fin L) :
    tensordot (f'.K1 + f'.K2) f'.h (fun k => x (e + k)) l =
      (∑ j ∈ Finset.range F, g j *
        tensordot (f.K1 + f.K2) f.h (fun k => x ((e + j - ((F - 1) / 2 : ℕ)) + k)) l) -
      ∑ u ∈ (Finset.range (f.K1 + f.K2 + F - 1)).filter
          (fun u => ¬ ((F - 1) / 2 ≤ u ∧ u < (F - 1) / 2 + (f.K1 + f.K2))),
        ∑ m, npConvolve (f.K1 + f.K2) (fun i => f.h i l m) F g u * x (e - ((F - 1) / 2 : ℕ) + u) m := by
  have key : (∑ j ∈ Finset.range F, g j *
        tensordot (f.K1 + f.K2) f.h (fun k => x ((e + j - ((F - 1) / 2 : ℕ)) + k)) l) =
      ∑ u ∈ Finset.range (f.K1 + f.K2 + F - 1),
        ∑ m, npConvolve (f.K1 + f.K2) (fun i => f.h i l m) F g u * x (e - ((F - 1) / 2 : ℕ) + u) m := by
    rw [Finset.sum_comm]
    simp_rw [npConvolve_sum]
    rw [Finset.sum_comm]
    apply Finset.sum_congr rfl
    intro j _
    unfold tensordot
    rw [← Finset.mul_sum, Finset.sum_comm]
    congr 1
    apply Finset.sum_congr rfl
    intro m _
    apply Finset.sum_congr rfl
    intro i _
    congr 2
    push_cast; ring_nf
  rw [key, ← Finset.sum_filter_add_sum_filter_not (Finset.range (f.K1 + f.K2 + F - 1))
    (fun u => (F - 1) / 2 ≤ u ∧ u < (F - 1) / 2 + (f.K1 + f.K2)), add_sub_cancel_right]
  -- the window part
  have win : ∀ (hF : F ≠ 0), ∑ u ∈ (Finset.range (f.K1 + f.K2 + F - 1)).filter
        (fun u => (F - 1) / 2 ≤ u ∧ u < (F - 1) / 2 + (f.K1 + f.K2)),
      ∑ m, npConvolve (f.K1 + f.K2) (fun i => f.h i l m) F g u * x (e - ((F - 1) / 2 : ℕ) + u) m =
      ∑ k ∈ Finset.range (f.K1 + f.K2),
        ∑ m, npConvolve (f.K1 + f.K2) (fun i => f.h i l m) F g ((F - 1) / 2 + k) * x (e + k) m := by
    intro hF
    symm
    apply Finset.sum_nbij' (fun k => (F - 1) / 2 + k) (fun u => u - (F - 1) / 2)
    · intro k hk
      have := Finset.mem_range.mp hk
      simp
      omega
    · intro u hu
      simp at hu ⊢
      omega
    · intro k _; simp
    · intro u hu
      simp at hu ⊢
      omega
    · intro k _
      apply Finset.sum_congr rfl
      intro m _
      congr 2
      push_cast; ring
  unfold FIR.convolve at hf
  simp only at hf
  by_cases hF : F = 0
  · rw [if_pos hF] at hf; simp at hf
  rw [if_neg hF] at hf
  rw [win hF]
  by_cases h1 : f.K1 + f.K2 + F - 1 = f.K1 + f.K2
  · rw [if_pos h1] at hf
    simp only [Except.ok.injEq] at hf
    subst hf
    unfold tensordot
    apply Finset.sum_congr rfl
    intro k hk
    have : (F - 1) / 2 = 0 := by
      have := Finset.mem_range.mp hk
      omega
    simp only [this, zero_add]
  · rw [if_neg h1] at hf
    by_cases h2 : 2 * ((f.K1 + f.K2) / 2) ≠ f.K1 + f.K2
    · rw [if_pos h2] at hf; simp at hf
    rw [if_neg h2] at hf
    simp only [Except.ok.injEq] at hf
    subst hf
    unfold tensordot
    have e1 : (f.K1 + f.K2 + F - 1) / 2 - (f.K1 + f.K2) / 2 = (F - 1) / 2 := by omega
    simp only [e1]

omit [LinearOrder K] in
/-- **C40** `FIRFilter.convolve` succeeds exactly for a filter of one tap, or a longer one and an even number
of estimator taps; lookback, look-ahead, limit, downsampling and offset are kept. -/
theorem C40_convolve_accepts (f : FIR K M L) (F : ℕ) (g : ℕ → K) :
    ((∃ f', f.convolve F g = .ok f') ↔ F = 1 ∨ (2 ≤ F ∧ 2 ∣ f.K1 + f.K2)) ∧
    ∀ f', f.convolve F g = .ok f' →
      f'.K1 = f.K1 ∧ f'.K2 = f.K2 ∧ f'.limit = f.limit ∧ f'.ds = f.ds ∧ f'.offset = f.offset := by
  unfold FIR.convolve
  simp only
  by_cases hF : F = 0
  · simp [hF]
  rw [if_neg hF]
  by_cases h1 : f.K1 + f.K2 + F - 1 = f.K1 + f.K2
  · rw [if_pos h1]
    refine ⟨⟨fun _ => by omega, fun _ => ⟨_, rfl⟩⟩, ?_⟩
    intro f' h
    simp only [Except.ok.injEq] at h
    subst h
    simp
  rw [if_neg h1]
  by_cases h2 : 2 * ((f.K1 + f.K2) / 2) ≠ f.K1 + f.K2
  · rw [if_pos h2]
    refine ⟨⟨by simp, fun h => by omega⟩, by simp⟩
  · rw [if_neg h2]
    refine ⟨⟨fun _ => by omega, fun _ => ⟨_, rfl⟩⟩, ?_⟩
    intro f' h
    simp only [Except.ok.injEq] at h
    subst h
    simp

/-- **C40 is false** in general: with an odd number of estimator taps the method raises `ValueError` for
every filter with more than one tap, and with an even number the new taps are not the cascade: for the taps
`1, 2` and the filter `1, 1, 1` the impulse `x[0] = 1` gives a different response than filtering the former
estimates. -/
theorem C40_false :
    (∀ (f : FIR ℚ 1 1) (F : ℕ) (g : ℕ → ℚ), ¬ 2 ∣ f.K1 + f.K2 → 2 ≤ F →
      f.convolve F g = .error .valueError) ∧
    ∃ (f f' : FIR ℚ 1 1) (x : ℤ → Fin 1 → ℚ) (e : ℤ), f.convolve 3 (fun _ => 1) = .ok f' ∧
      tensordot (f'.K1 + f'.K2) f'.h (fun k => x (e + k)) 0 ≠
        ∑ j ∈ Finset.range 3, (1 : ℚ) *
          tensordot (f.K1 + f.K2) f.h (fun k => x ((e + j - 1) + k)) 0 := by
  refine ⟨?_, ?_⟩
  · intro f F g h1 h2
    unfold FIR.convolve
    simp only
    rw [if_neg (by omega), if_neg (by omega), if_pos (by omega)]
  · refine ⟨⟨1, 1, 1, 0, fun k => if k = 0 then !![1] else !![2], 0⟩, _, fun i _ => if i = 0 then 1 else 0, 1,
      by simp only [FIR.convolve]; rfl, ?_⟩
    simp [tensordot, npConvolve, Finset.sum_range_succ]

example : ∃ f', (⟨1, 1, 1, 0, firTaps exCoeffs 1 1, 0⟩ : FIR ℚ 1 1).convolve 3 (fun j => j + 1) = .ok f' :=
  (C40_convolve_accepts _ _ _).1.mpr (Or.inr ⟨by norm_num, by decide⟩)

/-- the sequence behind `exSrc` -/
def exBits : ℕ → Fin 1 → ℚ := fun n _ => if n % 2 = 0 then 1 else 0

/-- `C35_fir_iir`, `C35_fir_eq_iir`: the FIR filter with two samples of memory and the recursive one agree up to the fifth
call. -/
example : ∃ f g, FIR.new exCoeffs 2 3 1 false 1 0 none = .ok f ∧ IIR.new exCoeffs 3 1 1 0 = .ok g ∧
    call (f.next exSrc) FIRState.init 4 = call (g.next exSrc) IIRState.init 4 ∧
    ∃ y z, call (f.next exSrc) FIRState.init 7 = .ok y ∧ call (g.next exSrc) IIRState.init 7 = .ok z := by
  refine ⟨_, _, rfl, rfl, (C35_fir_eq_iir exCoeffs 2 3 1 1 _ _ rfl rfl exSrc exBits 4 (fun _ _ => rfl) (by norm_num)).1, ?_⟩
  obtain ⟨y, z, h1, h2, -⟩ := C35_fir_iir exCoeffs 2 3 1 1 _ _ rfl rfl exSrc exBits (fun _ => rfl) 7
  exact ⟨y, z, h1, h2⟩

/-- `C36_fir_count_partial`, `C36_iir_count_partial`, `C36_batch_count_partial`: with at most five samples the FIR filter that
keeps every second estimate gives two, the recursive filter five, and a batch estimator with batches of two three. -/
example : (∃ f, FIR.new exCoeffs 2 3 1 false 2 5 none = .ok f ∧ (∃ v, call (f.next exSrc) FIRState.init 1 = .ok v) ∧
      call (f.next exSrc) FIRState.init 2 = .error .stopIteration) ∧
    (∃ f, IIR.new exCoeffs 2 1 1 5 = .ok f ∧ (∃ v, call (f.next exSrc) IIRState.init 4 = .ok v) ∧
      call (f.next exSrc) IIRState.init 5 = .error .stopIteration) ∧
    ∃ f, Batch.new exCoeffs 2 1 1 1 5 = .ok f ∧ (∃ v, call (f.next exSrc) f.init 3 = .ok v) ∧
      call (f.next exSrc) f.init 4 = .error .stopIteration := by
  refine ⟨⟨_, rfl, ?_, ?_⟩, ⟨_, rfl, ?_, ?_⟩, ⟨_, rfl, ?_, ?_⟩⟩
  · have := C36_fir_count_partial (⟨2, 3, 2, 5, firTaps exCoeffs 2 3, 0⟩ : FIR ℚ 1 1) (by decide) (by decide) exSrc exBits
      (fun _ _ => rfl) 1
    rwa [if_pos (by decide)] at this
  · have := C36_fir_count_partial (⟨2, 3, 2, 5, firTaps exCoeffs 2 3, 0⟩ : FIR ℚ 1 1) (by decide) (by decide) exSrc exBits
      (fun _ _ => rfl) 2
    rwa [if_neg (by decide)] at this
  · have := C36_iir_count_partial exCoeffs 2 1 5 _ rfl (by norm_num) (by norm_num) exSrc exBits (fun _ _ => rfl) 4
    rwa [if_pos (by norm_num)] at this
  · have := C36_iir_count_partial exCoeffs 2 1 5 _ rfl (by norm_num) (by norm_num) exSrc exBits (fun _ _ => rfl) 5
    rwa [if_neg (by norm_num)] at this
  · have := C36_batch_count_partial exCoeffs 2 1 1 1 5 _ rfl exSrc exBits (fun _ => rfl) 3 (by intro m hm; omega)
    rwa [if_pos (by norm_num)] at this
  · have := C36_batch_count_partial exCoeffs 2 1 1 1 5 _ rfl exSrc exBits (fun _ => rfl) 4 (by intro m hm; omega)
    rwa [if_neg (by norm_num)] at this

/-- `C38_fir_no_invention_partial`, `C38_iir_no_invention_partial`: an estimate from the FIR filter that keeps every second
one has used two samples, the second one from the recursive filter three. -/
example (src : ℕ → Res (Fin 1 → ℚ)) : (∃ f, FIR.new exCoeffs 2 3 1 false 2 0 none = .ok f ∧
      (∀ v, call (f.next src) FIRState.init 0 = .ok v → ∃ s, src 1 = .ok s)) ∧
    ∃ f, IIR.new exCoeffs 2 1 2 0 = .ok f ∧ ∀ v w, call (f.next src) IIRState.init 0 = .ok v →
      call (f.next src) IIRState.init 1 = .ok w → ∃ s, src 2 = .ok s := by
  refine ⟨⟨_, rfl, fun v hv => ?_⟩, _, rfl, fun v w hv hw => ?_⟩
  · exact C38_fir_no_invention_partial (⟨2, 3, 2, 0, firTaps exCoeffs 2 3, 0⟩ : FIR ℚ 1 1) src 1
      (fun m hm => ⟨v, by obtain rfl : m = 0 := by omega
                          exact hv⟩) 1 (by decide)
  · refine C38_iir_no_invention_partial (⟨exCoeffs, 2, 2, 0, (iirLookahead exCoeffs 2).1⟩ : IIR ℚ 1 1 1) two_ne_zero src 1
      (fun m hm => ?_) 2 (by decide)
    rcases Nat.le_one_iff_eq_zero_or_eq_one.1 hm with rfl | rfl
    exacts [⟨v, hv⟩, ⟨w, hw⟩]

/-- `C39_affine` and `C40_convolve_cascade_partial` on the filter with one sample on each side. -/
example : (∃ v v', call (FIR.next (⟨1, 1, 1, 0, firTaps exCoeffs 1 1, 0⟩ : FIR ℚ 1 1) fun j => .ok (exBits j)) FIRState.init 3 = .ok v ∧
      call (FIR.next (⟨1, 1, 1, 0, firTaps exCoeffs 1 1, 0⟩ : FIR ℚ 1 1) fun _ => .ok 0) FIRState.init 3 = .ok v') ∧
    ∃ f', (⟨1, 1, 1, 0, firTaps exCoeffs 1 1, 0⟩ : FIR ℚ 1 1).convolve 3 (fun j => j + 1) = .ok f' ∧
      f'.K1 + f'.K2 = 2 := by
  obtain ⟨v, v', h1, h2, -⟩ := C39_affine (⟨1, 1, 1, 0, firTaps exCoeffs 1 1, 0⟩ : FIR ℚ 1 1) (by decide) rfl exBits 0 (1 / 2) 3
  exact ⟨⟨v, v', h1, h2⟩, _, rfl, rfl⟩

/-- the coefficients of a rotation, with eigen-decompositions for both directions -/
noncomputable def exRot : Coeffs ℝ 2 1 1 := ⟨!![0, -1; 1, 0], !![0, -1; 1, 0], !![1; 0], !![1; 0], !![1, 0]⟩

/-- the eigen-decomposition of `exRot` -/
noncomputable def exRotEig : Eig 2 :=
  ⟨![Complex.I, -Complex.I], !![1, 1; -Complex.I, Complex.I], !![1 / 2, Complex.I / 2; 1 / 2, -Complex.I / 2]⟩

/-- `C34_parallel_eq_batch` on a rotation, whose eigenvalues are not real; `C165_parallel` and `C132_parallel_partial` ask for
the same. -/
example (src : ℕ → Res (Fin 1 → ℝ)) (hsrc : ∀ n s, src n = .ok s → ∀ m, s m = 0 ∨ s m = 1) (n : ℕ) :
    ∃ p b, Parallel.new exRot exRotEig exRotEig 2 1 1 1 100 = .ok p ∧ Batch.new exRot 2 1 1 1 100 = .ok b ∧
      call (p.next src) p.init n = call (b.next src) b.init n := by
  have hv : exRotEig.Valid !![0, -1; 1, 0] := by
    refine ⟨?_, ?_⟩
    · ext i j
      fin_cases i <;> fin_cases j <;> simp [exRotEig, toC, Matrix.mul_apply, Fin.sum_univ_two, Matrix.diagonal]
    · ext i j
      fin_cases i <;> fin_cases j <;> simp [exRotEig, Matrix.mul_apply, Fin.sum_univ_two] <;>
        ring_nf; simp
  have hp : ∃ p, Parallel.new exRot exRotEig exRotEig 2 1 1 1 100 = .ok p := by
    unfold Parallel.new
    norm_num
  have hb : ∃ b, Batch.new exRot 2 1 1 1 100 = .ok b := by
    unfold Batch.new
    norm_num
  obtain ⟨p, hp⟩ := hp
  obtain ⟨b, hb⟩ := hb
  exact ⟨p, b, hp, hb, C34_parallel_eq_batch exRot exRotEig exRotEig 2 1 1 1 100 p b hp hb hv hv src hsrc n⟩

end Cbadc.Estimator
