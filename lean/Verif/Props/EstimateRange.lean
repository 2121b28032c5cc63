import Verif.Props.FIRFixed

/-! # C169: the range of the estimates of an FIR filter -/

namespace Cbadc.Estimator
open Matrix Cbadc.Streams

variable {K : Type*} [Field K] [LinearOrder K] [IsStrictOrderedRing K] {M L : ℕ}

/-- what a sequence of control vectors contributes to entry `l` -/
theorem tensordot_range (n : ℕ) (h : ℕ → Matrix (Fin L) (Fin M) K) (b : ℕ → Fin M → K)
    (hb : ∀ k < n, ∀ m, |b k m| ≤ 1) (l : Fin L) :
    |tensordot n h b l| ≤ ∑ k ∈ Finset.range n, ∑ m, |h k l m| := by
  unfold tensordot
  refine (Finset.abs_sum_le_sum_abs _ _).trans (Finset.sum_le_sum fun k hk => ?_)
  refine (Finset.abs_sum_le_sum_abs _ _).trans (Finset.sum_le_sum fun m _ => ?_)
  rw [abs_mul]
  exact mul_le_of_le_one_right (abs_nonneg _) (hb k (Finset.mem_range.mp hk) m)

omit [IsStrictOrderedRing K] in
theorem tensordot_sign (n : ℕ) (h : ℕ → Matrix (Fin L) (Fin M) K) (b : ℕ → Fin M → K) (c : K) (l : Fin L)
    (hb : ∀ k < n, ∀ m, h k l m * b k m = c * |h k l m|) :
    tensordot n h b l = c * ∑ k ∈ Finset.range n, ∑ m, |h k l m| := by
  unfold tensordot
  rw [Finset.mul_sum]
  refine Finset.sum_congr rfl fun k hk => ?_
  rw [Finset.mul_sum]
  exact Finset.sum_congr rfl fun m _ => hb k (Finset.mem_range.mp hk) m

theorem window_abs {K3 ds : ℕ} {buf : ℕ → Fin M → K} {calls : ℕ} {s : ℕ → Fin M → K} {n : ℕ}
    (hbuf : ∀ k m, |buf k m| ≤ 1) (h01 : ∀ j m, s j m = 0 ∨ s j m = 1) (k : ℕ) (m : Fin M) :
    |firWindow K3 ds buf calls s n k m| ≤ 1 := by
  unfold firWindow
  split_ifs
  · simp only [valued]
    rcases h01 _ m with h | h <;> rw [h] <;> norm_num
  · exact hbuf _ _

/-- the stream whose control `m` at tap `k` has the sign of `c * h k l m` -/
def worst (K3 e : ℕ) (h : ℕ → Matrix (Fin L) (Fin M) K) (c : K) (l : Fin L) : ℕ → Fin M → K :=
  fun j m => if 0 ≤ c * h (j + K3 - e) l m then 1 else 0

omit [IsStrictOrderedRing K] in
theorem worst_01 (K3 e : ℕ) (h : ℕ → Matrix (Fin L) (Fin M) K) (c : K) (l : Fin L) (j : ℕ) (m : Fin M) :
    worst K3 e h c l j m = 0 ∨ worst K3 e h c l j m = 1 := by
  unfold worst
  split_ifs <;> simp

theorem worst_window {K3 ds n calls : ℕ} (buf : ℕ → Fin M → K) (hn : K3 ≤ ds * n)
    (h : ℕ → Matrix (Fin L) (Fin M) K) (c : K) (hc : c = 1 ∨ c = -1) (l : Fin L) (k : ℕ) (m : Fin M) :
    h k l m * firWindow K3 ds buf calls (worst K3 (calls + ds * n) h c l) n k m = c * |h k l m| := by
  unfold firWindow
  rw [if_pos (by omega)]
  simp only [valued, worst]
  have : calls + (ds * n + k - K3) + K3 - (calls + ds * n) = k := by omega
  rw [this]
  rcases hc with rfl | rfl
  · rw [one_mul, one_mul]
    split_ifs with h0
    · rw [abs_of_nonneg h0]; ring
    · rw [abs_of_neg (not_le.mp h0)]; ring
  · rw [neg_one_mul]
    split_ifs with h0
    · rw [abs_of_nonpos (by linarith)]; ring
    · rw [abs_of_pos (by linarith)]; ring

/-- **C169** However a stream of 0/1 control vectors looks, an estimate of an FIR filter deviates from the
offset by at most the sum of the magnitudes of the taps; also while the buffer still holds zeros or the control
vectors of an earlier stream. -/
theorem C169_range (f : FIR K M L) (hds : f.ds ≤ f.K1 + f.K2) (st : FIRState K M)
    (hbuf : ∀ k m, |st.buf k m| ≤ 1) (src : ℕ → Res (Fin M → K)) (s : ℕ → Fin M → K)
    (h01 : ∀ j m, s j m = 0 ∨ s j m = 1) (n : ℕ)
    (hlim : f.limit = 0 ∨ st.iteration + f.ds * (n + 1) ≤ f.limit)
    (hs : ∀ j < f.ds * (n + 1), src (st.calls + j) = .ok (s (st.calls + j))) :
    ∃ y, call (f.next src) st n = .ok y ∧
      ∀ l, |y l - f.offset l| ≤ ∑ k ∈ Finset.range (f.K1 + f.K2), ∑ m, |f.h k l m| := by
  refine ⟨_, fir_call f src s st hds n hlim hs, fun l => ?_⟩
  rw [Pi.add_apply, add_sub_cancel_right]
  exact tensordot_range _ _ _ (fun k _ m => window_abs hbuf h01 k m) l

/-- **C169** The bound is attained on both sides, by a stream of 0/1 control vectors that depends on the entry
of the estimate, as soon as the filter is filled. -/
theorem C169_attained (f : FIR K M L) (hds : f.ds ≤ f.K1 + f.K2) (st : FIRState K M) (n : ℕ)
    (hlim : f.limit = 0 ∨ st.iteration + f.ds * (n + 1) ≤ f.limit) (hfull : f.K1 + f.K2 ≤ f.ds * (n + 1))
    (l : Fin L) (c : K) (hc : c = 1 ∨ c = -1) :
    ∃ s : ℕ → Fin M → K, (∀ j m, s j m = 0 ∨ s j m = 1) ∧
      ∀ src : ℕ → Res (Fin M → K), (∀ j, src j = .ok (s j)) →
        ∃ y, call (f.next src) st n = .ok y ∧
          y l = f.offset l + c * ∑ k ∈ Finset.range (f.K1 + f.K2), ∑ m, |f.h k l m| := by
  refine ⟨worst (f.K1 + f.K2) (st.calls + f.ds * (n + 1)) f.h c l, worst_01 _ _ _ _ _, fun src hsrc => ?_⟩
  refine ⟨_, fir_call f src _ st hds n hlim (fun j _ => hsrc _), ?_⟩
  rw [Pi.add_apply, tensordot_sign _ _ _ c l fun k _ m => worst_window st.buf hfull f.h c hc l k m]
  ring

omit [LinearOrder K] [IsStrictOrderedRing K] in
/-- **C169** What a wrong control value does: if two streams differ only in control `m` of sample `j`, the
estimates differ only while this sample is among the last `K1 + K2`, each by twice the difference times the one
tap it meets. -/
theorem C169_bit_error (f : FIR K M L) (hds : f.ds ≤ f.K1 + f.K2) (st : FIRState K M)
    (src src' : ℕ → Res (Fin M → K)) (s s' : ℕ → Fin M → K) (j : ℕ) (m : Fin M)
    (hdiff : ∀ j' m', (j' ≠ j ∨ m' ≠ m) → s' (st.calls + j') m' = s (st.calls + j') m') (n : ℕ)
    (hlim : f.limit = 0 ∨ st.iteration + f.ds * (n + 1) ≤ f.limit)
    (hs : ∀ j < f.ds * (n + 1), src (st.calls + j) = .ok (s (st.calls + j)))
    (hs' : ∀ j < f.ds * (n + 1), src' (st.calls + j) = .ok (s' (st.calls + j))) :
    ∃ y y', call (f.next src) st n = .ok y ∧ call (f.next src') st n = .ok y' ∧
      ∀ l, y' l - y l =
        if f.ds * (n + 1) ≤ j + (f.K1 + f.K2) ∧ j < f.ds * (n + 1) then
          2 * (s' (st.calls + j) m - s (st.calls + j) m) * f.h (j + (f.K1 + f.K2) - f.ds * (n + 1)) l m
        else 0 := by
  refine ⟨_, _, fir_call f src s st hds n hlim hs, fir_call f src' s' st hds n hlim hs', fun l => ?_⟩
  rw [Pi.add_apply, Pi.add_apply, add_sub_add_right_eq_sub]
  unfold tensordot
  rw [← Finset.sum_sub_distrib]
  have hw : ∀ k m', firWindow (f.K1 + f.K2) f.ds st.buf st.calls s' (n + 1) k m' -
      firWindow (f.K1 + f.K2) f.ds st.buf st.calls s (n + 1) k m' =
      if f.ds * (n + 1) + k = j + (f.K1 + f.K2) ∧ m' = m then
        2 * (s' (st.calls + j) m - s (st.calls + j) m) else 0 := by
    intro k m'
    unfold firWindow
    by_cases h : f.K1 + f.K2 ≤ f.ds * (n + 1) + k
    · rw [if_pos h, if_pos h]
      simp only [valued]
      by_cases hj : f.ds * (n + 1) + k = j + (f.K1 + f.K2)
      · have e : f.ds * (n + 1) + k - (f.K1 + f.K2) = j := by omega
        rw [e]
        by_cases hm : m' = m
        · rw [if_pos ⟨hj, hm⟩, hm]; ring
        · rw [if_neg (fun h => hm h.2), hdiff j m' (Or.inr hm)]; ring
      · rw [if_neg (fun h => hj h.1), hdiff _ m' (Or.inl (by omega))]; ring
    · rw [if_neg h, if_neg h, if_neg (by rintro ⟨h1, -⟩; omega)]; ring
  simp only [← Finset.sum_sub_distrib, ← mul_sub, hw, mul_ite, mul_zero]
  by_cases hin : f.ds * (n + 1) ≤ j + (f.K1 + f.K2) ∧ j < f.ds * (n + 1)
  · rw [if_pos hin, Finset.sum_eq_single (j + (f.K1 + f.K2) - f.ds * (n + 1)),
      Finset.sum_eq_single m]
    · rw [if_pos ⟨by omega, rfl⟩]; ring
    · intro m' _ hm; rw [if_neg (fun h => hm h.2)]
    · intro h; exact absurd (Finset.mem_univ _) h
    · intro k _ hk
      refine Finset.sum_eq_zero fun m' _ => ?_
      rw [if_neg (by rintro ⟨h1, -⟩; omega)]
    · intro h; exact absurd (Finset.mem_range.mpr (by omega)) h
  · rw [if_neg hin]
    refine Finset.sum_eq_zero fun k hk => Finset.sum_eq_zero fun m' _ => ?_
    have := Finset.mem_range.mp hk
    rw [if_neg (by rintro ⟨h1, -⟩; omega)]

section fixed
variable [FloorRing K]

omit [IsStrictOrderedRing K] [FloorRing K] in
theorem fixed_outcome (f : FixedFIR K M L) (hds : f.ds ≤ f.K1 + f.K2) (hlim : f.limit = 0)
    (s : ℕ → Fin M → K) (st : FIRState K M) (n : ℕ) :
    call (f.next fun j => .ok (s j)) st n = toFloat f.fp
      (tensordot (f.K1 + f.K2) (fun k l m => (f.h k l m : K))
        (firWindow (f.K1 + f.K2) f.ds st.buf st.calls s (n + 1)) + f.offset) := by
  rw [fixed_call, fir_call f.numeric _ s st hds n (Or.inl hlim) (fun j _ => rfl)]
  rfl

/-- **C169** A fixed-point filter estimates every stream of 0/1 control vectors without an error exactly if for
every input the magnitude of the offset and the magnitudes of the integer taps add up to at most the largest
integer of the format; otherwise some stream ends in `ArithmeticError`. -/
theorem C169_fixed (f : FixedFIR K M L) (hpos : 0 < f.ds) (hds : f.ds ≤ f.K1 + f.K2) (hlim : f.limit = 0) :
    ((∀ s : ℕ → Fin M → K, (∀ j m, s j m = 0 ∨ s j m = 1) →
        ∀ n, ∃ y, call (f.next fun j => .ok (s j)) FIRState.init n = .ok y) ↔
      ∀ l, |f.offset l| + ∑ k ∈ Finset.range (f.K1 + f.K2), ∑ m, |(f.h k l m : K)| ≤ (f.fp.intMax : K)) ∧
    ((∃ l, (f.fp.intMax : K) < |f.offset l| + ∑ k ∈ Finset.range (f.K1 + f.K2), ∑ m, |(f.h k l m : K)|) →
      ∃ (s : ℕ → Fin M → K) (n : ℕ), (∀ j m, s j m = 0 ∨ s j m = 1) ∧
        call (f.next fun j => .ok (s j)) FIRState.init n = .error .arithmeticError) := by
  have key : (∃ l, (f.fp.intMax : K) <
        |f.offset l| + ∑ k ∈ Finset.range (f.K1 + f.K2), ∑ m, |(f.h k l m : K)|) →
      ∃ (s : ℕ → Fin M → K) (n : ℕ), (∀ j m, s j m = 0 ∨ s j m = 1) ∧
        call (f.next fun j => .ok (s j)) FIRState.init n = .error .arithmeticError := by
    rintro ⟨l, hl⟩
    have hfull : f.K1 + f.K2 ≤ f.ds * (f.K1 + f.K2 + 1) := by nlinarith
    obtain ⟨c, hc, hco⟩ : ∃ c : K, (c = 1 ∨ c = -1) ∧ f.offset l = c * |f.offset l| := by
      rcases le_total 0 (f.offset l) with h | h
      · exact ⟨1, Or.inl rfl, by rw [abs_of_nonneg h, one_mul]⟩
      · exact ⟨-1, Or.inr rfl, by rw [abs_of_nonpos h]; ring⟩
    refine ⟨worst (f.K1 + f.K2) (0 + f.ds * (f.K1 + f.K2 + 1)) (fun k l m => (f.h k l m : K)) c l,
      f.K1 + f.K2, worst_01 _ _ _ _ _, ?_⟩
    rw [fixed_outcome f hds hlim]
    unfold toFloat
    rw [if_pos]
    refine ⟨l, ?_⟩
    rw [Pi.add_apply]
    have := tensordot_sign (f.K1 + f.K2) (fun k l m => (f.h k l m : K)) _ c l
      fun k _ m => worst_window (calls := 0) (FIRState.init : FIRState K M).buf hfull
        (fun k l m => (f.h k l m : K)) c hc l k m
    simp only [FIRState.init] at this ⊢
    rw [this, hco, ← mul_add, abs_mul]
    have h1 : |c| = 1 := by rcases hc with rfl | rfl <;> simp
    rw [h1, one_mul, add_comm, abs_of_nonneg (add_nonneg (abs_nonneg _)
      (Finset.sum_nonneg fun _ _ => Finset.sum_nonneg fun _ _ => abs_nonneg _))]
    exact hl
  refine ⟨⟨fun h l => ?_, fun h s h01 n => ?_⟩, key⟩
  · by_contra hc
    obtain ⟨s, n, h01, he⟩ := key ⟨l, not_le.mp hc⟩
    obtain ⟨y, hy⟩ := h s h01 n
    rw [he] at hy
    cases hy
  · rw [fixed_outcome f hds hlim]
    unfold toFloat
    rw [if_neg]
    · exact ⟨_, rfl⟩
    rintro ⟨l, hl⟩
    rw [Pi.add_apply] at hl
    have h1 := tensordot_range (f.K1 + f.K2) (fun k l m => (f.h k l m : K))
      (firWindow (f.K1 + f.K2) f.ds (FIRState.init : FIRState K M).buf (FIRState.init : FIRState K M).calls s
        (n + 1)) (fun k _ m => window_abs (by intro k m; simp [FIRState.init]) h01 k m) l
    have h2 := h l
    have h3 := abs_add_le (tensordot (f.K1 + f.K2) (fun k l m => (f.h k l m : K))
      (firWindow (f.K1 + f.K2) f.ds (FIRState.init : FIRState K M).buf (FIRState.init : FIRState K M).calls s
        (n + 1)) l) (f.offset l)
    linarith

end fixed

/-! ## Examples -/

/-- two taps and an offset -/
def exRange : FIR ℚ 1 1 := ⟨1, 1, 1, 0, fun k => if k = 0 then !![-1] else !![2], ![1 / 2]⟩

example : ∃ y, call (exRange.next exSrc) FIRState.init 3 = .ok y ∧ |y 0 - 1 / 2| ≤ 3 := by
  obtain ⟨y, hy, h⟩ := C169_range exRange (by decide) FIRState.init (by intro k m; simp [FIRState.init]) exSrc
    (fun n _ => if n % 2 = 0 then 1 else 0) (by intro j m; split_ifs <;> simp) 3 (Or.inl rfl)
    (fun j _ => rfl)
  refine ⟨y, hy, ?_⟩
  have := h 0
  norm_num [exRange, Finset.sum_range_succ] at this
  exact this

example : ∃ s : ℕ → Fin 1 → ℚ, (∀ j m, s j m = 0 ∨ s j m = 1) ∧
    ∃ y, call (exRange.next fun j => .ok (s j)) FIRState.init 1 = .ok y ∧ y 0 = -5 / 2 := by
  obtain ⟨s, h01, h⟩ := C169_attained exRange (by decide) FIRState.init 1 (Or.inl rfl) (by decide) 0 (-1) (Or.inr rfl)
  obtain ⟨y, hy, hy0⟩ := h (fun j => .ok (s j)) (fun _ => rfl)
  refine ⟨s, h01, y, hy, ?_⟩
  rw [hy0]
  norm_num [exRange, Finset.sum_range_succ]

/-- one wrong decision at sample 2: it meets the tap -1 one estimate after the tap 2 -/
example : ∃ y y', call (exRange.next fun _ => .ok fun _ => 0) FIRState.init 3 = .ok y ∧
    call (exRange.next fun j => .ok fun _ => if j = 2 then 1 else 0) FIRState.init 3 = .ok y' ∧
    y' 0 - y 0 = -2 := by
  obtain ⟨y, y', hy, hy', h⟩ := C169_bit_error exRange (by decide) FIRState.init (fun _ => .ok fun _ => 0)
    (fun j => .ok fun _ => if j = 2 then 1 else 0) (fun _ _ => 0) (fun j _ => if j = 2 then 1 else 0) 2 0
    (by
      intro j m hj
      have h0 : j ≠ 2 := hj.resolve_right (by simp [Subsingleton.elim m 0])
      simp [FIRState.init, h0]) 3 (Or.inl rfl) (fun j _ => rfl) (fun j _ => rfl)
  refine ⟨y, y', hy, hy', ?_⟩
  rw [h 0]
  norm_num [exRange, FIRState.init]

/-- the format of 8 bits for numbers up to 2 with the taps -64 and 127: their magnitudes exceed the largest integer,
and there is a stream that cannot be estimated, although each tap is representable -/
example : ∃ (s : ℕ → Fin 1 → ℚ) (n : ℕ), (∀ j m, s j m = 0 ∨ s j m = 1) ∧
    call (FixedFIR.next (⟨fp8, 1, 1, 1, 0, fun k => if k = 0 then !![-64] else !![127], 0⟩ : FixedFIR ℚ 1 1)
      fun j => .ok (s j)) FIRState.init n = .error .arithmeticError := by
  refine (C169_fixed (⟨fp8, 1, 1, 1, 0, fun k => if k = 0 then !![-64] else !![127], 0⟩ : FixedFIR ℚ 1 1)
    (by decide) (by decide) rfl).2 ⟨0, ?_⟩
  norm_num [fp8, Finset.sum_range_succ]

example (s : ℕ → Fin 1 → ℚ) (h01 : ∀ j m, s j m = 0 ∨ s j m = 1) (n : ℕ) :
    ∃ y, call (FixedFIR.next (⟨fp8, 1, 1, 1, 0, fun k => if k = 0 then !![-60] else !![61], 0⟩ : FixedFIR ℚ 1 1)
      fun j => .ok (s j)) FIRState.init n = .ok y := by
  refine (C169_fixed (⟨fp8, 1, 1, 1, 0, fun k => if k = 0 then !![-60] else !![61], 0⟩ : FixedFIR ℚ 1 1)
    (by decide) (by decide) rfl).1.mpr ?_ s h01 n
  intro l
  fin_cases l
  norm_num [fp8, Finset.sum_range_succ]

end Cbadc.Estimator
