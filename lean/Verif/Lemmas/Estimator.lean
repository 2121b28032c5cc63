import Mathlib.Tactic.Ring
import Mathlib.Tactic.Abel
import Mathlib.Algebra.BigOperators.Intervals
import Mathlib.LinearAlgebra.Matrix.NonsingularInverse
import Verif.Model.Estimator
import Verif.Spec.Estimator

/-! Helper lemmas for the estimator properties. -/

namespace Cbadc.Estimator
open Matrix Cbadc.Spec Cbadc.Streams

variable {K : Type*} [CommRing K] {N M L : ℕ}

theorem firLookback_temp (c : Coeffs K N M L) (K1 i : ℕ) :
    (firLookback c K1 i).2 = c.Af ^ i * c.Bf := by
  induction i with
  | zero => simp [firLookback]
  | succ i ih => simp [firLookback, ih, pow_succ', Matrix.mul_assoc]

theorem firLookback_h (c : Coeffs K N M L) (K1 i : ℕ) (hi : i ≤ K1) (k : ℕ) :
    (firLookback c K1 i).1 k =
      if K1 - i ≤ k ∧ k < K1 then -(c.WT * (c.Af ^ (K1 - 1 - k) * c.Bf)) else 0 := by
  induction i with
  | zero =>
    simp only [firLookback]
    rw [if_neg (by omega)]
  | succ i ih =>
    simp only [firLookback]
    rw [Function.update_apply, firLookback_temp]
    by_cases hk : k = K1 - 1 - i
    · subst hk
      rw [if_pos rfl, if_pos (by omega)]
      congr 4; omega
    · rw [if_neg hk, ih (by omega)]
      by_cases h2 : K1 - i ≤ k ∧ k < K1
      · rw [if_pos h2, if_pos (by omega)]
      · rw [if_neg h2, if_neg (by omega)]

theorem firLookahead_temp (c : Coeffs K N M L) (K1 i : ℕ) (h0 : ℕ → Matrix (Fin L) (Fin M) K) :
    (firLookahead c K1 h0 i).2 = c.Ab ^ i * c.Bb := by
  induction i with
  | zero => simp [firLookahead]
  | succ i ih => simp [firLookahead, ih, pow_succ', Matrix.mul_assoc]

theorem firLookahead_h (c : Coeffs K N M L) (K1 i : ℕ) (h0 : ℕ → Matrix (Fin L) (Fin M) K) (k : ℕ) :
    (firLookahead c K1 h0 i).1 k =
      if K1 ≤ k ∧ k < K1 + i then c.WT * (c.Ab ^ (k - K1) * c.Bb) else h0 k := by
  induction i with
  | zero =>
    simp only [firLookahead]
    rw [if_neg (by omega)]
  | succ i ih =>
    simp only [firLookahead]
    rw [Function.update_apply, firLookahead_temp]
    by_cases hk : k = K1 + i
    · subst hk
      rw [if_pos rfl, if_pos (by omega)]
      congr 3; omega
    · rw [if_neg hk, ih]
      by_cases h2 : K1 ≤ k ∧ k < K1 + i
      · rw [if_pos h2, if_pos (by omega)]
      · rw [if_neg h2, if_neg (by omega)]

/-- closed form of the FIR taps -/
theorem firTaps_eq (c : Coeffs K N M L) (K1 K2 k : ℕ) (hk : k < K1 + K2) :
    firTaps c K1 K2 k =
      if k < K1 then -(c.WT * (c.Af ^ (K1 - 1 - k) * c.Bf)) else c.WT * (c.Ab ^ (k - K1) * c.Bb) := by
  unfold firTaps
  rw [firLookahead_h, firLookback_h c K1 K1 le_rfl]
  by_cases h : k < K1
  · rw [if_neg (by omega), if_pos (by omega), if_pos h]
  · rw [if_pos (by omega), if_neg h]

theorem iirLookahead_temp (c : Coeffs K N M L) (i : ℕ) :
    (iirLookahead c i).2 = c.Ab ^ i * c.Bb := by
  induction i with
  | zero => simp [iirLookahead]
  | succ i ih => simp [iirLookahead, ih, pow_succ', Matrix.mul_assoc]

theorem iirLookahead_h (c : Coeffs K N M L) (i k : ℕ) (hk : k < i) :
    (iirLookahead c i).1 k = c.WT * (c.Ab ^ k * c.Bb) := by
  induction i with
  | zero => omega
  | succ i ih =>
    simp only [iirLookahead]
    rw [Function.update_apply, iirLookahead_temp]
    by_cases h : k = i
    · subst h; simp
    · rw [if_neg h, ih (by omega)]

theorem tensordot_eq (n : ℕ) (h : ℕ → Matrix (Fin L) (Fin M) K) (buf : ℕ → Fin M → K) :
    tensordot n h buf = ∑ k ∈ Finset.range n, h k *ᵥ buf k := by
  ext l
  simp [tensordot, Finset.sum_apply, Matrix.mulVec, dotProduct]

theorem tensordot_congr (n : ℕ) (h : ℕ → Matrix (Fin L) (Fin M) K) (b b' : ℕ → Fin M → K)
    (hb : ∀ k < n, b k = b' k) : tensordot n h b = tensordot n h b' := by
  rw [tensordot_eq, tensordot_eq]
  apply Finset.sum_congr rfl
  intro k hk
  rw [hb k (Finset.mem_range.mp hk)]

theorem firPull_ok (src : ℕ → Res (Fin M → K)) (s : ℕ → Fin M → K) (start n : ℕ)
    (h : ∀ j < n, src (start + j) = .ok (s (start + j))) :
    ∃ rows, firPull src start n = (.ok rows, n) ∧ ∀ j < n, rows j = valued (s (start + j)) := by
  induction n with
  | zero => exact ⟨fun _ => 0, rfl, fun j hj => by omega⟩
  | succ n ih =>
    obtain ⟨rows, h1, h2⟩ := ih (fun j hj => h j (by omega))
    refine ⟨Function.update rows n (valued (s (start + n))), ?_, ?_⟩
    · simp [firPull, h1, h n (by omega)]
    · intro j hj
      rw [Function.update_apply]
      split_ifs with hjn
      · rw [hjn]
      · exact h2 j (by omega)

theorem firPull_error (src : ℕ → Res (Fin M → K)) (s : ℕ → Fin M → K) (start n d : ℕ) (e : Exc)
    (hd : d < n) (h : ∀ j < d, src (start + j) = .ok (s (start + j)))
    (he : src (start + d) = .error e) : firPull src start n = (.error e, d + 1) := by
  induction n with
  | zero => omega
  | succ n ih =>
    by_cases hdn : d = n
    · subst hdn
      obtain ⟨rows, h1, -⟩ := firPull_ok src s start d h
      simp [firPull, h1, he]
    · simp [firPull, ih (by omega)]

/-- FIR tap sum in terms of the specification, for a window ending at sample `e - 1` -/
theorem tensordot_firTaps (c : Coeffs K N M L) (K1 K2 : ℕ) (x : ℤ → Fin M → K) (e : ℤ) :
    tensordot (K1 + K2) (firTaps c K1 K2) (fun k => x (e - (K1 + K2 : ℕ) + k)) =
      future c.WT c.Ab c.Bb x (e - K2) K2 - past c.WT c.Af c.Bf x (e - K2) K1 := by
  rw [tensordot_eq, Finset.sum_range_add, sub_eq_add_neg (future _ _ _ _ _ _), add_comm (future _ _ _ _ _ _)]
  congr 1
  rotate_left
  · unfold future
    apply Finset.sum_congr rfl
    intro i hi
    have hi := Finset.mem_range.mp hi
    rw [firTaps_eq c K1 K2 _ (by omega), if_neg (by omega)]
    congr 2
    · congr 3; omega
    · push_cast; ring
  · unfold past
    rw [← Finset.sum_neg_distrib, ← Finset.sum_range_reflect]
    apply Finset.sum_congr rfl
    intro i hi
    have hi := Finset.mem_range.mp hi
    rw [firTaps_eq c K1 K2 _ (by omega), if_pos (by omega), Matrix.neg_mulVec]
    congr 3
    · congr 3; omega
    · push_cast [Nat.cast_sub (show 1 ≤ K1 by omega), Nat.cast_sub (show i ≤ K1 - 1 by omega)]
      ring

end Cbadc.Estimator

namespace Cbadc.Estimator
open Matrix Cbadc.Spec Cbadc.Streams

variable {K : Type*} [CommRing K] {N M L : ℕ}

/-- contents of row `k` of the FIR buffer after `n` successful calls from a state with buffer `b0`
and `c0` source calls already made -/
def firWindow (K3 ds : ℕ) (b0 : ℕ → Fin M → K) (c0 : ℕ) (s : ℕ → Fin M → K) (n k : ℕ) : Fin M → K :=
  if K3 ≤ ds * n + k then valued (s (c0 + (ds * n + k - K3))) else b0 (ds * n + k)

theorem fir_next_ok (f : FIR K M L) (src : ℕ → Res (Fin M → K)) (s : ℕ → Fin M → K)
    (st : FIRState K M) (hds : f.ds ≤ f.K1 + f.K2)
    (hlim : f.limit = 0 ∨ st.iteration + f.ds ≤ f.limit)
    (hs : ∀ j < f.ds, src (st.calls + j) = .ok (s (st.calls + j))) :
    ∃ buf, (∀ k < f.K1 + f.K2, buf k =
        if f.K1 + f.K2 ≤ f.ds + k then valued (s (st.calls + (f.ds + k - (f.K1 + f.K2))))
        else st.buf (f.ds + k)) ∧
      f.next src st = (.ok (tensordot (f.K1 + f.K2) f.h buf + f.offset),
        ⟨buf, st.iteration + f.ds, st.calls + f.ds, st.timeIndex + 1⟩) := by
  obtain ⟨rows, h1, h2⟩ := firPull_ok src s st.calls f.ds hs
  refine ⟨fun j => if f.K1 + f.K2 - f.ds ≤ j then rows (j - (f.K1 + f.K2 - f.ds))
    else roll (f.K1 + f.K2) f.ds st.buf j, ?_, ?_⟩
  · intro k hk
    simp only
    by_cases h : f.K1 + f.K2 ≤ f.ds + k
    · rw [if_pos h, if_pos (by omega), h2 _ (by omega)]
      congr 3; omega
    · rw [if_neg h, if_neg (by omega), roll, Nat.mod_eq_of_lt (by omega), add_comm]
  · unfold FIR.next
    simp only
    rw [if_neg (by omega), h1]
    simp only
    rw [if_neg (by omega)]

theorem fir_stateAfter (f : FIR K M L) (src : ℕ → Res (Fin M → K)) (s : ℕ → Fin M → K)
    (st : FIRState K M) (hds : f.ds ≤ f.K1 + f.K2) (n : ℕ)
    (hlim : f.limit = 0 ∨ st.iteration + f.ds * n ≤ f.limit)
    (hs : ∀ j < f.ds * n, src (st.calls + j) = .ok (s (st.calls + j))) :
    (stateAfter (f.next src) st n).iteration = st.iteration + f.ds * n ∧
    (stateAfter (f.next src) st n).calls = st.calls + f.ds * n ∧
    (stateAfter (f.next src) st n).timeIndex = st.timeIndex + n ∧
    ∀ k < f.K1 + f.K2, (stateAfter (f.next src) st n).buf k =
      firWindow (f.K1 + f.K2) f.ds st.buf st.calls s n k := by
  induction n with
  | zero =>
    refine ⟨by simp [stateAfter], by simp [stateAfter], by simp [stateAfter], ?_⟩
    intro k hk
    simp only [stateAfter, firWindow]
    rw [if_neg (by omega)]; congr 1; omega
  | succ n ih =>
    have hmul : f.ds * (n + 1) = f.ds * n + f.ds := by ring
    obtain ⟨h1, h2, h3, h4⟩ := ih (by omega) (fun j hj => hs j (by omega))
    obtain ⟨buf, hb1, hb2⟩ := fir_next_ok f src s (stateAfter (f.next src) st n) hds
      (by rw [h1]; omega)
      (by
        intro j hj
        rw [h2, add_assoc]
        exact hs _ (by omega))
    simp only [stateAfter, hb2]
    refine ⟨by rw [h1]; omega, by rw [h2]; omega, by rw [h3]; omega, ?_⟩
    intro k hk
    rw [hb1 k hk]
    unfold firWindow
    by_cases hc : f.K1 + f.K2 ≤ f.ds + k
    · rw [if_pos hc, if_pos (by omega), h2]
      congr 2; omega
    · rw [if_neg hc, h4 _ (by omega)]
      unfold firWindow
      by_cases hc2 : f.K1 + f.K2 ≤ f.ds * n + (f.ds + k)
      · rw [if_pos hc2, if_pos (by omega)]
        congr 3; omega
      · rw [if_neg hc2, if_neg (by omega)]
        congr 1; omega

/-- result of the `n`-th call from an arbitrary state -/
theorem fir_call (f : FIR K M L) (src : ℕ → Res (Fin M → K)) (s : ℕ → Fin M → K)
    (st : FIRState K M) (hds : f.ds ≤ f.K1 + f.K2) (n : ℕ)
    (hlim : f.limit = 0 ∨ st.iteration + f.ds * (n + 1) ≤ f.limit)
    (hs : ∀ j < f.ds * (n + 1), src (st.calls + j) = .ok (s (st.calls + j))) :
    call (f.next src) st n = .ok (tensordot (f.K1 + f.K2) f.h
      (firWindow (f.K1 + f.K2) f.ds st.buf st.calls s (n + 1)) + f.offset) := by
  have hmul : f.ds * (n + 1) = f.ds * n + f.ds := by ring
  obtain ⟨h1, h2, h3, h4⟩ := fir_stateAfter f src s st hds n (by omega) (fun j hj => hs j (by omega))
  obtain ⟨-, -, -, h5⟩ := fir_stateAfter f src s st hds (n + 1) (by omega) hs
  obtain ⟨buf, hb1, hb2⟩ := fir_next_ok f src s (stateAfter (f.next src) st n) hds
    (by rw [h1]; omega)
    (by
      intro j hj
      rw [h2, add_assoc]
      exact hs _ (by omega))
  unfold call
  rw [hb2]
  simp only
  congr 2
  apply tensordot_congr
  intro k hk
  rw [← h5 k hk]
  simp only [stateAfter, hb2]

theorem firWindow_init (K3 ds : ℕ) (s : ℕ → Fin M → K) (n k : ℕ) :
    firWindow K3 ds (fun _ => 0) 0 s n k = Spec.ext s ((ds * n : ℕ) - (K3 : ℤ) + k) := by
  unfold firWindow Spec.ext
  by_cases h : K3 ≤ ds * n + k
  · rw [if_pos h, if_pos (by omega)]
    ext m
    simp only [valued]
    congr 3
    omega
  · rw [if_neg h, if_neg (by omega)]

end Cbadc.Estimator
