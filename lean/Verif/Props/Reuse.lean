import Mathlib.Topology.Instances.Matrix
import Mathlib.Topology.Instances.Real.Lemmas
import Mathlib.Analysis.SpecificLimits.Basic
import Verif.Spec.Reuse
import Verif.Lemmas.Reuse
import Verif.Props.Estimator

/-! # C158: an estimator that is handed another control signal -/

namespace Cbadc.Estimator
open Matrix Cbadc.Spec Cbadc.Streams Filter Topology

variable {K : Type*} [CommRing K] {N M L : ℕ}

theorem handOver_lt {V : Type*} (n : ℕ) (src src' : ℕ → Res V) (i : ℕ) (h : i < n) :
    handOver n src src' i = src i := if_pos h

theorem handOver_add {V : Type*} (n : ℕ) (src src' : ℕ → Res V) (i : ℕ) :
    handOver n src src' (n + i) = src' i := by
  unfold handOver
  rw [if_neg (by omega), Nat.add_sub_cancel_left]

/-- **C158** (FIR) `k` calls, then another control signal: all results, also the raised exceptions, are those of an
estimator that reads the second signal as the continuation of the first. -/
theorem C158_fir (f : FIR K M L) (st0 : FIRState K M) (src src' : ℕ → Res (Fin M → K)) (k : ℕ) :
    let st := stateAfter (f.next src) st0 k
    (∀ i < k, call (f.next (handOver st.calls src src')) st0 i = call (f.next src) st0 i) ∧
    ∀ j, call (f.next (handOver st.calls src src')) st0 (k + j) = call (f.next src') st.given j :=
  (fir_reader f).switch src src' _ st0 k (handOver_lt _ _ _) (handOver_add _ _ _)

/-- **C158** (IIR) as `C158_fir`. -/
theorem C158_iir (f : IIR K N M L) (st0 : IIRState K N M) (src src' : ℕ → Res (Fin M → K)) (k : ℕ) :
    let st := stateAfter (f.next src) st0 k
    (∀ i < k, call (f.next (handOver st.calls src src')) st0 i = call (f.next src) st0 i) ∧
    ∀ j, call (f.next (handOver st.calls src src')) st0 (k + j) = call (f.next src') st.given j :=
  (iir_reader f).switch src src' _ st0 k (handOver_lt _ _ _) (handOver_add _ _ _)

/-- **C158** (batch) as `C158_fir`; a batch that has been computed is delivered before the new signal is read. -/
theorem C158_batch (f : Batch K N M L) (st0 : BatchState K N M L) (src src' : ℕ → Res (Fin M → K)) (k : ℕ) :
    let st := stateAfter (f.next src) st0 k
    (∀ i < k, call (f.next (handOver st.calls src src')) st0 i = call (f.next src) st0 i) ∧
    ∀ j, call (f.next (handOver st.calls src src')) st0 (k + j) = call (f.next src') st.given j :=
  (batch_reader f).switch src src' _ st0 k (handOver_lt _ _ _) (handOver_add _ _ _)

/-- **C158** (parallel) as `C158_batch`. -/
theorem C158_parallel (f : Parallel N M L) (st0 : ParState N M L) (src src' : ℕ → Res (Fin M → ℝ)) (k : ℕ) :
    let st := stateAfter (f.next src) st0 k
    (∀ i < k, call (f.next (handOver st.calls src src')) st0 i = call (f.next src) st0 i) ∧
    ∀ j, call (f.next (handOver st.calls src src')) st0 (k + j) = call (f.next src') st.given j :=
  (par_reader f).switch src src' _ st0 k (handOver_lt _ _ _) (handOver_add _ _ _)

/-- **C158** Before any control signal has been handed over, every call raises and changes nothing. -/
theorem C158_unset {S V W : Type*} (next : (ℕ → Res V) → S → Res W × S) (st : S) (j : ℕ) :
    call (nextSet next none) st j = .error .exception ∧ stateAfter (nextSet next none) st j = st ∧
      ∀ src, nextSet next (some src) = next src := by
  have h : ∀ j, stateAfter (nextSet next none) st j = st := by
    intro j
    induction j with
    | zero => rfl
    | succ j ih => exact ih
  refine ⟨?_, h j, fun src => rfl⟩
  unfold call
  rw [h j]; rfl

/-- **C158** (FIR) As soon as `K1 + K2` vectors of the new signal have been read, a used filter delivers what a new
one delivers, however the first signal ended. -/
theorem C158_fir_settles_partial (f : FIR K M L) (hds : f.ds ≤ f.K1 + f.K2) (hlim : f.limit = 0)
    (src src' : ℕ → Res (Fin M → K)) (s' : ℕ → Fin M → K) (k j : ℕ) (hs : ∀ i < f.ds * (j + 1), src' i = .ok (s' i))
    (hj : f.K1 + f.K2 ≤ f.ds * (j + 1)) :
    call (f.next src') (stateAfter (f.next src) FIRState.init k).given j = call (f.next src') FIRState.init j ∧
      ∃ v, call (f.next src') FIRState.init j = .ok v := by
  have h := C39_window f hds hlim (stateAfter (f.next src) FIRState.init k).given FIRState.init src' src' s' s' j j
    (fun i hi => by rw [show (stateAfter (f.next src) FIRState.init k).given.calls = 0 from rfl, Nat.zero_add]; exact hs i hi)
    (fun i hi => by rw [show (FIRState.init : FIRState K M).calls = 0 from rfl, Nat.zero_add]; exact hs i hi)
    hj hj (fun i _ => rfl)
  exact ⟨h.1, by rw [← h.1]; exact h.2⟩

/-- **C158** (IIR) The look-back has no end: once `K2` vectors of the new signal have been read, the estimate of a used
filter is that of a new one minus the contribution of the vectors of the first signal. -/
theorem C158_iir_memory_partial [LinearOrder K] (c : Coeffs K N M L) (K2 : ℕ) (eta2 : K) (f : IIR K N M L)
    (hf : IIR.new c K2 eta2 1 0 = .ok f) (hK : K2 ≠ 0) (src src' : ℕ → Res (Fin M → K)) (s s' : ℕ → Fin M → K)
    (k j : ℕ) (hs : ∀ i < k, src i = .ok (s i)) (hs' : ∀ i ≤ j, src' i = .ok (s' i)) (hj : K2 ≤ j + 1) :
    ∃ v, call (f.next src') IIRState.init j = .ok v ∧
      call (f.next src') (stateAfter (f.next src) IIRState.init k).given j = .ok (v -
        c.WT *ᵥ (c.Af ^ (j + 1 - K2) *ᵥ
          ∑ i ∈ Finset.range k, (c.Af ^ i * c.Bf) *ᵥ fun m => 2 * s (k - 1 - i) m - 1)) := by
  obtain rfl := iir_new_ok hf
  set f : IIR K N M L := ⟨c, K2, 1, 0, (iirLookahead c K2).1⟩ with hfdef
  have hI := iir_stateAfter f rfl src s hK one_ne_zero k (Or.inl rfl) (fun i hi => hs i (by
    cases k with
    | zero => exact hi
    | succ k => simpa [hfdef, iirPasses] using hi))
  have hcalls : (stateAfter (f.next src) IIRState.init k).calls = k := by
    rw [hI.calls]
    cases k with
    | zero => rfl
    | succ k => simp [hfdef, iirPasses]
  have hsw := (C158_iir f IIRState.init src src' k).2 j
  rw [hcalls] at hsw
  refine ⟨_, iir_call f rfl src' s' hK one_ne_zero j (Or.inl rfl)
    (fun i hi => hs' i (by simpa [hfdef] using hi)), ?_⟩
  rw [← hsw, iir_call f rfl (handOver k src src') (fun i => if i < k then s i else s' (i - k)) hK one_ne_zero (k + j)
    (Or.inl rfl) (fun i hi => by
      have hi : i ≤ k + j := by simpa [hfdef] using hi
      by_cases h : i < k
      · rw [handOver_lt _ _ _ _ h, hs i h, if_pos h]
      · unfold handOver
        rw [if_neg h, if_neg h, hs' _ (by omega)])]
  have hx1 : ∀ t : ℕ, Spec.ext (fun i => if i < k then s i else s' (i - k)) ((k : ℤ) + t) = Spec.ext s' t := by
    intro t
    rw [show (k : ℤ) + t = ((k + t : ℕ) : ℤ) by push_cast; rfl, ext_of_nonneg, ext_of_nonneg, if_neg (by omega),
      Nat.add_sub_cancel_left]
  congr 1
  unfold iirOut
  have hd : f.ds = 1 := rfl
  have hK2 : f.K2 = K2 := rfl
  have hc : f.c = c := rfl
  rw [hd, hK2, hc, one_mul, one_mul]
  have hfut : future c.WT c.Ab c.Bb (Spec.ext fun i => if i < k then s i else s' (i - k))
      (((k + j : ℕ) : ℤ) + 1 - K2) K2 = future c.WT c.Ab c.Bb (Spec.ext s') ((j : ℤ) + 1 - K2) K2 := by
    unfold future
    refine Finset.sum_congr rfl fun i _ => ?_
    have := hx1 (j + 1 - K2 + i)
    rw [show (k : ℤ) + ((j + 1 - K2 + i : ℕ) : ℤ) = ((k + j : ℕ) : ℤ) + 1 - K2 + i by omega,
      show ((j + 1 - K2 + i : ℕ) : ℤ) = (j : ℤ) + 1 - K2 + i by omega] at this
    rw [this]
  have hpast : past c.WT c.Af c.Bf (Spec.ext fun i => if i < k then s i else s' (i - k))
      (((k + j : ℕ) : ℤ) + 1 - K2) (k + j) = past c.WT c.Af c.Bf (Spec.ext s') ((j : ℤ) + 1 - K2) j +
      c.WT *ᵥ (c.Af ^ (j + 1 - K2) *ᵥ
          ∑ i ∈ Finset.range k, (c.Af ^ i * c.Bf) *ᵥ fun m => 2 * s (k - 1 - i) m - 1) := by
    rw [past_eq_of_le c.WT c.Af c.Bf _ _ (k + j) (j + 1 - K2 + k) (by push_cast; omega) (by push_cast; omega),
      past_eq_of_le c.WT c.Af c.Bf s' _ j (j + 1 - K2) (by omega) (by omega)]
    unfold past
    rw [Finset.sum_range_add, Matrix.mulVec_sum, Matrix.mulVec_sum]
    congr 1
    · refine Finset.sum_congr rfl fun i hi => ?_
      have hi := Finset.mem_range.1 hi
      have := hx1 (j - K2 - i)
      rw [show (k : ℤ) + ((j - K2 - i : ℕ) : ℤ) = ((k + j : ℕ) : ℤ) + 1 - K2 - 1 - i by omega,
        show ((j - K2 - i : ℕ) : ℤ) = (j : ℤ) + 1 - K2 - 1 - i by omega] at this
      rw [this]
    · refine Finset.sum_congr rfl fun i hi => ?_
      have hi := Finset.mem_range.1 hi
      rw [show ((k + j : ℕ) : ℤ) + 1 - K2 - 1 - ((j + 1 - K2 + i : ℕ) : ℤ) = ((k - 1 - i : ℕ) : ℤ) by omega,
        ext_of_nonneg, if_pos (by omega), pow_add, Matrix.mulVec_mulVec, Matrix.mulVec_mulVec, Matrix.mul_assoc,
        Matrix.mul_assoc]
      rfl
  rw [hfut, hpast, sub_add_eq_sub_sub]

/-- **C158** (IIR) When the powers of the forward matrix vanish, the estimates of a used filter approach those of a new
one. -/
theorem C158_iir_fades_partial (c : Coeffs ℝ N M L) (K2 : ℕ) (eta2 : ℝ) (f : IIR ℝ N M L)
    (hf : IIR.new c K2 eta2 1 0 = .ok f) (hK : K2 ≠ 0) (hA : Tendsto (fun n => c.Af ^ n) atTop (𝓝 0))
    (src src' : ℕ → Res (Fin M → ℝ)) (s s' : ℕ → Fin M → ℝ)
    (k : ℕ) (hs : ∀ i < k, src i = .ok (s i)) (hs' : ∀ i, src' i = .ok (s' i)) :
    ∃ u v : ℕ → Fin L → ℝ, (∀ j, K2 ≤ j + 1 →
      call (f.next src') (stateAfter (f.next src) IIRState.init k).given j = .ok (u j) ∧
      call (f.next src') IIRState.init j = .ok (v j)) ∧ Tendsto (fun j => u j - v j) atTop (𝓝 0) := by
  have h := fun j (hj : K2 ≤ j + 1) =>
    C158_iir_memory_partial c K2 eta2 f hf hK src src' s s' k j hs (fun i _ => hs' i) hj
  set m : Fin N → ℝ := ∑ i ∈ Finset.range k, (c.Af ^ i * c.Bf) *ᵥ fun m => 2 * s (k - 1 - i) m - 1 with hm
  refine ⟨fun j => if hj : K2 ≤ j + 1 then (h j hj).choose - c.WT *ᵥ (c.Af ^ (j + 1 - K2) *ᵥ m) else 0,
    fun j => if hj : K2 ≤ j + 1 then (h j hj).choose else 0, fun j hj => ?_, ?_⟩
  · dsimp only
    rw [dif_pos hj, dif_pos hj]
    exact ⟨(h j hj).choose_spec.2, (h j hj).choose_spec.1⟩
  · have h0 : Tendsto (fun n => -(c.WT *ᵥ (c.Af ^ n *ᵥ m))) atTop (𝓝 0) := by
      have hc : Continuous fun A : Matrix (Fin N) (Fin N) ℝ => -(c.WT *ᵥ (A *ᵥ m)) :=
        (continuous_const.matrix_mulVec (continuous_id.matrix_mulVec continuous_const)).neg
      have := (hc.tendsto 0).comp hA
      simpa [Function.comp_def] using this
    have h1 : Tendsto (fun j : ℕ => j + 1 - K2) atTop atTop := by
      refine tendsto_atTop.2 fun b => ?_
      filter_upwards [eventually_ge_atTop (b + K2)] with j hj
      omega
    refine (h0.comp h1).congr' ?_
    filter_upwards [eventually_ge_atTop K2] with j hj
    have hj' : K2 ≤ j + 1 := by omega
    dsimp only [Function.comp]
    rw [dif_pos hj', dif_pos hj']
    abel

/-- **C158** (batch) Once the first signal has ended and its last batch has been delivered, no other signal brings the
estimator back. -/
theorem C158_batch_ended_partial [LinearOrder K] (c : Coeffs K N M L) (K1 K2 : ℕ) (eta2 : K) (ds : ℤ) (limit : ℕ)
    (f : Batch K N M L) (hf : Batch.new c K1 K2 eta2 ds limit = .ok f) (src src' : ℕ → Res (Fin M → K))
    (s : ℕ → Fin M → K) (r b k : ℕ) (hlim : (b + 1) * (K1 + 1) ≤ limit)
    (hs : ∀ j < r, src j = .ok (s j))
    (hr : ∀ j, r ≤ j → j < b * K1 + (K1 + K2) → src j = .error .runtimeError)
    (h1 : b = 0 ∨ b * K1 + K2 ≤ r) (h2 : r < b * K1 + (K1 + K2)) (hk : (b + 1) * K1 ≤ k) (j : ℕ) :
    call (f.next src') (stateAfter (f.next src) f.init k).given j = .error .stopIteration := by
  obtain ⟨hK1, rfl⟩ := batch_new_ok hf
  set f : Batch K N M L := ⟨c, K1, K2, limit⟩
  have hexp : (b + 1) * K1 = b * K1 + K1 := by ring
  have hs' : ∀ j < r, src j = .ok ((fun j => if j < r then s j else 0) j) := by
    intro j hj; simp only; rw [if_pos hj]; exact hs j hj
  have hr' : ∀ j, r ≤ j → j < b * f.K1 + (f.K1 + f.K2) →
      src j = .error .runtimeError ∧ (fun j => if j < r then s j else 0) j = 0 := by
    intro j hj hj'; simp only; rw [if_neg (by omega)]; exact ⟨hr j hj hj', rfl⟩
  have h := (batchEnd_stateAfter f src _ b r hK1 hlim hs' hr' h1 h2 (K1 - 1) (by show K1 - 1 < K1; omega)).2
  rw [show b * f.K1 + (K1 - 1) + 1 = (b + 1) * K1 by show b * K1 + (K1 - 1) + 1 = _; omega] at h
  have h5 := (batchEnd_after f src ((b + 1) * K1) (k - (b + 1) * K1)
    (by rw [h.pointer]; show K1 - 1 + 1 = K1; omega) h.stop).2
  rw [show (b + 1) * K1 + (k - (b + 1) * K1) = k by omega] at h5
  have key : ∀ j, (stateAfter (f.next src') (stateAfter (f.next src) f.init k).given j).pointer = f.K1 ∧
      (stateAfter (f.next src') (stateAfter (f.next src) f.init k).given j).stop = true := by
    intro j
    induction j with
    | zero => exact h5
    | succ j ih => exact (batchEnd_stop f src' _ ih.1 ih.2).2
  exact (batchEnd_stop f src' _ (key j).1 (key j).2).1

/-- **C158 is false** for the batch estimator after the end of a signal: the estimator that has consumed a signal of four
vectors delivers nothing of the next one, a new estimator does. -/
theorem C158_batch_false :
    ∃ (f : Batch ℚ 1 1 1) (src : ℕ → Res (Fin 1 → ℚ)), Batch.new exCoeffs 2 1 1 1 100 = .ok f ∧
      (∀ j, 4 ≤ j → src j = .error .runtimeError) ∧
      (∀ j, call (f.next exSrc) (stateAfter (f.next src) f.init 5).given j = .error .stopIteration) ∧
      ∃ v, call (f.next exSrc) f.init 0 = .ok v := by
  refine ⟨_, fun j => if j < 4 then exSrc j else .error .runtimeError, rfl, fun j hj => if_neg (by omega), fun j => ?_,
    ⟨_, C32_batch_estimate exCoeffs 2 1 1 1 100 _ rfl exSrc (fun n _ => if n % 2 = 0 then 1 else 0) 0 (by norm_num)
      (fun j _ => rfl)⟩⟩
  exact C158_batch_ended_partial exCoeffs 2 1 1 1 100 _ rfl _ exSrc (fun n _ => if n % 2 = 0 then 1 else 0) 4 1 5
    (by norm_num) (fun j hj => by rw [if_pos hj]; rfl) (fun j hj _ => if_neg (by omega)) (Or.inr (by norm_num))
    (by norm_num) (by norm_num) j

/-- **C158 is false** with a limit on the number of estimates: it is not counted anew for another signal. -/
theorem C158_limit_false :
    ∃ f : FIR ℚ 1 1, FIR.new exCoeffs 1 1 1 false 1 2 none = .ok f ∧
      (∀ j, call (f.next exSrc) (stateAfter (f.next exSrc) FIRState.init 2).given j = .error .stopIteration) ∧
      ∀ j < 2, ∃ v, call (f.next exSrc) FIRState.init j = .ok v := by
  refine ⟨_, rfl, fun j => ?_, fun j hj => ⟨_, C31_fir_estimate exCoeffs 1 1 1 false 1 2 none _ rfl exSrc
    (fun n _ => if n % 2 = 0 then 1 else 0) j (by norm_num) (Or.inr (by omega)) (fun i _ => rfl)⟩⟩
  refine fir_limit_stop _ _ _ (by decide) ?_
  rw [fir_iteration_after]
  show _ < (stateAfter _ FIRState.init 2).iteration + _ + _
  rw [fir_iteration_after]
  show 2 < 0 + 1 * 2 + 1 * j + 1
  omega

/-- **C158 is false** after the end of a signal also for the FIR filter: the call that meets the end moves the window
without filling it, so that the oldest vector takes the place of the newest.  The first signal has the two vectors
`1, 0`; the next estimate, with one past vector, is the one that follows on `1`. -/
theorem C158_exhausted_false :
    ∃ (f : FIR ℚ 1 1) (src src' : ℕ → Res (Fin 1 → ℚ)), FIR.new exCoeffs 1 1 1 false 1 0 none = .ok f ∧
      src 0 = .ok (fun _ => 1) ∧ src 1 = .ok (fun _ => 0) ∧ (∀ j, 2 ≤ j → src j = .error .runtimeError) ∧
      call (f.next src) FIRState.init 2 = .error .stopIteration ∧
      call (f.next src') (stateAfter (f.next src) FIRState.init 3).given 0 = .ok (fun _ => 1) ∧
      call (f.next (handOver 2 src src')) FIRState.init 2 = .ok (fun _ => 3) := by
  refine ⟨_, fun j => if j = 0 then .ok (fun _ => 1) else if j = 1 then .ok (fun _ => 0) else .error .runtimeError,
    fun _ => .ok fun _ => 1, rfl, rfl, rfl, fun j hj => ?_, rfl, ?_, ?_⟩
  · dsimp only
    rw [if_neg (by omega), if_neg (by omega)]
  · simp only [call, stateAfter, FIR.next, firPull, FIRState.init, FIRState.given]
    simp [firTaps, firLookahead, firLookback, exCoeffs, roll, Function.update_apply]
    funext i
    fin_cases i
    simp [tensordot, Finset.sum_range_succ, valued]
    norm_num
  · simp only [call, stateAfter, FIR.next, firPull, FIRState.init, handOver]
    simp [firTaps, firLookahead, firLookback, exCoeffs, roll, Function.update_apply]
    funext i
    fin_cases i
    simp [tensordot, Finset.sum_range_succ, valued]
    norm_num

/-- **C158 is false** after the end of a signal for the IIR filter as well: after the same two vectors the call that meets
the end moves the window, so that the window of the next estimate begins with the first vector in place of the second. -/
theorem C158_iir_exhausted_false :
    ∃ (f : IIR ℚ 1 1 1) (src src' : ℕ → Res (Fin 1 → ℚ)), IIR.new exCoeffs 2 1 1 0 = .ok f ∧
      src 0 = .ok (fun _ => 1) ∧ src 1 = .ok (fun _ => 0) ∧ (∀ j, 2 ≤ j → src j = .error .runtimeError) ∧
      call (f.next src) IIRState.init 2 = .error .stopIteration ∧
      call (f.next src') (stateAfter (f.next src) IIRState.init 3).given 0 = .ok (fun _ => 5 / 3) ∧
      call (f.next (handOver 2 src src')) IIRState.init 2 = .ok (fun _ => -(7 / 3)) := by
  refine ⟨_, fun j => if j = 0 then .ok (fun _ => 1) else if j = 1 then .ok (fun _ => 0) else .error .runtimeError,
    fun _ => .ok fun _ => 1, rfl, rfl, rfl, fun j hj => ?_, rfl, ?_, ?_⟩
  · dsimp only
    rw [if_neg (by omega), if_neg (by omega)]
  · simp only [call, stateAfter, IIR.next, IIR.nextFuel, IIR.pass, IIRState.init, IIRState.given]
    simp [iirLookahead, exCoeffs]
    funext i
    fin_cases i
    simp [tensordot, Finset.sum_range_succ, valued, roll, vecHead, Function.update_apply]
    norm_num
  · simp only [call, stateAfter, IIR.next, IIR.nextFuel, IIR.pass, IIRState.init, handOver]
    simp [iirLookahead, exCoeffs]
    funext i
    fin_cases i
    simp [tensordot, Finset.sum_range_succ, valued, roll, vecHead, Function.update_apply]
    norm_num

/-! Examples -/

/-- after three calls the filter has read six vectors; the second signal follows -/
example : ∃ f, FIR.new exCoeffs 2 3 1 false 2 0 none = .ok f ∧
    (stateAfter (f.next exSrc) FIRState.init 3).calls = 6 ∧
    call (f.next (handOver 6 exSrc fun _ => .ok 1)) FIRState.init (3 + 1) =
      call (f.next fun _ => .ok 1) (stateAfter (f.next exSrc) FIRState.init 3).given 1 :=
  ⟨_, rfl, rfl, (C158_fir _ FIRState.init exSrc (fun _ => .ok 1) 3).2 1⟩

/-- after three calls the filter has read three vectors -/
example : ∃ f, IIR.new exCoeffs 2 1 1 0 = .ok f ∧
    call (f.next (handOver 3 exSrc fun _ => .ok 1)) IIRState.init (3 + 1) =
      call (f.next fun _ => .ok 1) (stateAfter (f.next exSrc) IIRState.init 3).given 1 := by
  refine ⟨_, rfl, ?_⟩
  have h := (iir_stateAfter (⟨exCoeffs, 2, 1, 0, (iirLookahead exCoeffs 2).1⟩ : IIR ℚ 1 1 1) rfl exSrc
    (fun n _ => if n % 2 = 0 then 1 else 0) (by decide) (by decide) 3 (Or.inl rfl) (fun j _ => rfl)).calls
  have g := (C158_iir (⟨exCoeffs, 2, 1, 0, (iirLookahead exCoeffs 2).1⟩ : IIR ℚ 1 1 1) IIRState.init exSrc
    (fun _ => .ok 1) 3).2 1
  rw [h] at g
  exact g

/-- batches of two and one vector of look-ahead -/
example : ∃ f, Batch.new exCoeffs 2 1 1 1 100 = .ok f ∧
    call (f.next (handOver (stateAfter (f.next exSrc) f.init 3).calls exSrc fun _ => .ok 1)) f.init (3 + 1) =
      call (f.next fun _ => .ok 1) (stateAfter (f.next exSrc) f.init 3).given 1 :=
  ⟨_, rfl, (C158_batch _ _ exSrc (fun _ => .ok 1) 3).2 1⟩

/-- the parallel filter bank of the batch estimator above -/
example (f : Batch ℝ 1 1 1) (ef eb : Eig 1) (src src' : ℕ → Res (Fin 1 → ℝ)) :
    let p := parOf f ef eb
    call (p.next (handOver (stateAfter (p.next src) p.init 3).calls src src')) p.init (3 + 1) =
      call (p.next src') (stateAfter (p.next src) p.init 3).given 1 :=
  (C158_parallel _ _ src src' 3).2 1

example : ∃ f, FIR.new exCoeffs 2 3 1 false 2 0 none = .ok f ∧
    call (f.next exSrc) (stateAfter (f.next fun _ => .ok 1) FIRState.init 3).given 2 =
      call (f.next exSrc) FIRState.init 2 :=
  ⟨_, rfl, (C158_fir_settles_partial _ (by decide) rfl (fun _ => .ok 1) exSrc
    (fun n _ => if n % 2 = 0 then 1 else 0) 3 2 (fun _ _ => rfl) (by decide)).1⟩

/-- one vector `1` of the first signal: it contributes `(1/2)^j` -/
example : ∃ f, IIR.new exCoeffs 1 1 1 0 = .ok f ∧ ∀ j, ∃ v, call (f.next exSrc) IIRState.init j = .ok v ∧
    call (f.next exSrc) (stateAfter (f.next fun _ => .ok 1) IIRState.init 1).given j =
      .ok (v - exCoeffs.WT *ᵥ (exCoeffs.Af ^ (j + 1 - 1) *ᵥ
        ∑ i ∈ Finset.range 1, (exCoeffs.Af ^ i * exCoeffs.Bf) *ᵥ fun _ => 2 * 1 - 1)) :=
  ⟨_, rfl, fun j => C158_iir_memory_partial exCoeffs 1 1 _ rfl one_ne_zero (fun _ => .ok 1) exSrc (fun _ _ => 1)
    (fun n _ => if n % 2 = 0 then 1 else 0) 1 j (fun _ _ => rfl) (fun _ _ => rfl) (by omega)⟩

/-- a forward matrix whose powers vanish -/
example (src src' : ℕ → Fin 1 → ℝ) : ∃ f : IIR ℝ 1 1 1,
    IIR.new ⟨!![1 / 2], !![1 / 3], !![1], !![2], !![1]⟩ 1 1 1 0 = .ok f ∧
    ∃ u v : ℕ → Fin 1 → ℝ, (∀ j, 1 ≤ j + 1 →
      call (f.next fun i => .ok (src' i)) (stateAfter (f.next fun i => .ok (src i)) IIRState.init 7).given j = .ok (u j) ∧
      call (f.next fun i => .ok (src' i)) IIRState.init j = .ok (v j)) ∧ Tendsto (fun j => u j - v j) atTop (𝓝 0) := by
  have hn : IIR.new (⟨!![1 / 2], !![1 / 3], !![1], !![2], !![1]⟩ : Coeffs ℝ 1 1 1) 1 1 1 0 =
      .ok ⟨⟨!![1 / 2], !![1 / 3], !![1], !![2], !![1]⟩, 1, 1, 0, (iirLookahead ⟨!![1 / 2], !![1 / 3], !![1], !![2], !![1]⟩ 1).1⟩ := by
    unfold IIR.new
    rw [if_neg (by norm_num), if_neg (by norm_num)]
    rfl
  refine ⟨_, hn, C158_iir_fades_partial _ 1 1 _ hn one_ne_zero ?_ _ _ src src' 7 (fun _ _ => rfl) (fun _ => rfl)⟩
  have e : (fun n : ℕ => (!![1 / 2] : Matrix (Fin 1) (Fin 1) ℝ) ^ n) = fun n => !![(1 / 2 : ℝ) ^ n] := by
    funext n
    induction n with
    | zero => ext i j; fin_cases i; fin_cases j; simp
    | succ n ih => rw [pow_succ, ih]; ext i j; fin_cases i; fin_cases j; simp [pow_succ]
  show Tendsto (fun n : ℕ => (!![1 / 2] : Matrix (Fin 1) (Fin 1) ℝ) ^ n) atTop (𝓝 0)
  rw [e]
  refine tendsto_pi_nhds.2 fun i => tendsto_pi_nhds.2 fun j => ?_
  fin_cases i; fin_cases j
  simpa using tendsto_pow_atTop_nhds_zero_of_lt_one (r := (1 / 2 : ℝ)) (by norm_num) (by norm_num)

example : call (nextSet (fun src => (⟨1, 1, 1, 0, firTaps exCoeffs 1 1, 0⟩ : FIR ℚ 1 1).next src) none)
    FIRState.init 3 = .error .exception := (C158_unset _ _ 3).1

/-- `C158_batch_ended_partial`: five vectors, batches of two with one of look-ahead; the two batches that can be made are
delivered, and the third one without the missing vectors; no vector afterwards helps. -/
example (src' : ℕ → Res (Fin 1 → ℚ)) (j : ℕ) : ∃ f, Batch.new exCoeffs 2 1 1 1 100 = .ok f ∧
    call (f.next src') (stateAfter (f.next fun n => if n < 5 then .ok 1 else .error .runtimeError) f.init 6).given j =
      .error .stopIteration :=
  ⟨_, rfl, C158_batch_ended_partial exCoeffs 2 1 1 1 100 _ rfl _ src' (fun _ => 1) 5 2 6 (by decide)
    (fun n hn => if_pos hn) (fun n hn _ => if_neg (by omega)) (.inr (by decide)) (by decide) (by decide) j⟩


end Cbadc.Estimator
