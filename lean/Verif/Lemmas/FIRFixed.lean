import Mathlib.Tactic.Linarith
import Mathlib.Algebra.Order.BigOperators.Group.Finset
import Verif.Model.FIRFixed
import Verif.Lemmas.Estimator
import Verif.Props.FixedPoint

/-! # Lemmas for the fixed-point FIR filter -/

namespace Cbadc.Estimator
open Matrix Cbadc.Streams

variable {K : Type*} [Field K] [LinearOrder K] [FloorRing K] {N M L : ℕ}

/-- All entries of a matrix can be converted. -/
def InRange (fp : FixedPoint K) (X : Matrix (Fin L) (Fin M) K) : Prop := ∀ l m, |X l m| ≤ fp.max

/-- The converted matrix. -/
def quant (fp : FixedPoint K) (X : Matrix (Fin L) (Fin M) K) : Matrix (Fin L) (Fin M) ℤ :=
  fun l m => pyInt (X l m * fp.scale)

theorem toFixed_ok {fp : FixedPoint K} {X : Matrix (Fin L) (Fin M) K} (h : InRange fp X) :
    toFixed fp X = .ok (quant fp X) := by
  unfold toFixed
  rw [if_neg (by rintro ⟨l, m, hlm⟩; exact absurd (h l m) (not_le.mpr hlm))]
  rfl

theorem toFixed_error {fp : FixedPoint K} {X : Matrix (Fin L) (Fin M) K} (h : ¬ InRange fp X) :
    toFixed fp X = .error .arithmeticError := by
  unfold toFixed
  rw [if_pos]
  unfold InRange at h
  push Not at h
  exact h

theorem quant_zero [IsStrictOrderedRing K] (fp : FixedPoint K) :
    quant fp (0 : Matrix (Fin L) (Fin M) K) = 0 := by
  funext l m
  unfold quant
  have := pyInt_intCast (K := K) 0
  simpa using this

theorem fixedLookback_spec [IsStrictOrderedRing K] (fp : FixedPoint K) (c : Coeffs K N M L) (K1 i : ℕ) :
    ((∀ j < i, InRange fp (-(c.WT * (c.Af ^ j * c.Bf)))) →
      fixedLookback fp c K1 i =
        .ok (fun k => quant fp ((firLookback c K1 i).1 k), (firLookback c K1 i).2)) ∧
    (¬ (∀ j < i, InRange fp (-(c.WT * (c.Af ^ j * c.Bf)))) →
      fixedLookback fp c K1 i = .error .arithmeticError) := by
  induction i with
  | zero =>
    refine ⟨fun _ => ?_, fun h => absurd (fun j hj => absurd hj (by omega)) h⟩
    simp only [fixedLookback, firLookback, quant_zero]
  | succ i ih =>
    by_cases h : ∀ j < i, InRange fp (-(c.WT * (c.Af ^ j * c.Bf)))
    · have e := ih.1 h
      simp only [fixedLookback, e, firLookback]
      by_cases hi : InRange fp (-(c.WT * (c.Af ^ i * c.Bf)))
      · refine ⟨fun _ => ?_, fun hn => absurd (fun j hj => ?_) hn⟩
        · rw [toFixed_ok (by rw [firLookback_temp]; exact hi)]
          simp only [Except.ok.injEq, Prod.mk.injEq, and_true]
          funext k
          by_cases hk : k = K1 - 1 - i
          · rw [hk, Function.update_self, Function.update_self]
          · rw [Function.update_of_ne hk, Function.update_of_ne hk]
        · rcases Nat.lt_succ_iff_lt_or_eq.mp hj with hj | rfl
          · exact h j hj
          · exact hi
      · refine ⟨fun hn => absurd (hn i (by omega)) hi, fun _ => ?_⟩
        rw [toFixed_error (by rw [firLookback_temp]; exact hi)]
    · refine ⟨fun hn => absurd (fun j hj => hn j (by omega)) h, fun _ => ?_⟩
      simp only [fixedLookback, ih.2 h]

theorem fixedLookahead_spec (fp : FixedPoint K) (c : Coeffs K N M L) (K1 i : ℕ)
    (h0 : ℕ → Matrix (Fin L) (Fin M) K) :
    ((∀ j < i, InRange fp (c.WT * (c.Ab ^ j * c.Bb))) →
      fixedLookahead fp c K1 (fun k => quant fp (h0 k)) i =
        .ok (fun k => quant fp ((firLookahead c K1 h0 i).1 k), (firLookahead c K1 h0 i).2)) ∧
    (¬ (∀ j < i, InRange fp (c.WT * (c.Ab ^ j * c.Bb))) →
      fixedLookahead fp c K1 (fun k => quant fp (h0 k)) i = .error .arithmeticError) := by
  induction i with
  | zero =>
    refine ⟨fun _ => ?_, fun h => absurd (fun j hj => absurd hj (by omega)) h⟩
    simp only [fixedLookahead, firLookahead]
  | succ i ih =>
    by_cases h : ∀ j < i, InRange fp (c.WT * (c.Ab ^ j * c.Bb))
    · have e := ih.1 h
      simp only [fixedLookahead, e, firLookahead]
      by_cases hi : InRange fp (c.WT * (c.Ab ^ i * c.Bb))
      · refine ⟨fun _ => ?_, fun hn => absurd (fun j hj => ?_) hn⟩
        · rw [toFixed_ok (by rw [firLookahead_temp]; exact hi)]
          simp only [Except.ok.injEq, Prod.mk.injEq, and_true]
          funext k
          by_cases hk : k = K1 + i
          · rw [hk, Function.update_self, Function.update_self]
          · rw [Function.update_of_ne hk, Function.update_of_ne hk]
        · rcases Nat.lt_succ_iff_lt_or_eq.mp hj with hj | rfl
          · exact h j hj
          · exact hi
      · refine ⟨fun hn => absurd (hn i (by omega)) hi, fun _ => ?_⟩
        rw [toFixed_error (by rw [firLookahead_temp]; exact hi)]
    · refine ⟨fun hn => absurd (fun j hj => hn j (by omega)) h, fun _ => ?_⟩
      simp only [fixedLookahead, ih.2 h]

omit [FloorRing K] in
theorem taps_inRange (fp : FixedPoint K) (c : Coeffs K N M L) (K1 K2 : ℕ) :
    (∀ k < K1 + K2, InRange fp (firTaps c K1 K2 k)) ↔
      (∀ j < K1, InRange fp (-(c.WT * (c.Af ^ j * c.Bf)))) ∧
        ∀ j < K2, InRange fp (c.WT * (c.Ab ^ j * c.Bb)) := by
  constructor
  · intro h
    refine ⟨fun j hj => ?_, fun j hj => ?_⟩
    · have := h (K1 - 1 - j) (by omega)
      rw [firTaps_eq c K1 K2 _ (by omega), if_pos (by omega),
        show K1 - 1 - (K1 - 1 - j) = j by omega] at this
      exact this
    · have := h (K1 + j) (by omega)
      rw [firTaps_eq c K1 K2 _ (by omega), if_neg (by omega), Nat.add_sub_cancel_left] at this
      exact this
  · rintro ⟨h1, h2⟩ k hk
    rw [firTaps_eq c K1 K2 k hk]
    by_cases h : k < K1
    · rw [if_pos h]; exact h1 _ (by omega)
    · rw [if_neg h]; exact h2 _ (by omega)

theorem fixedTaps_spec [IsStrictOrderedRing K] (fp : FixedPoint K) (c : Coeffs K N M L) (K1 K2 : ℕ) :
    ((∀ k < K1 + K2, InRange fp (firTaps c K1 K2 k)) →
      fixedTaps fp c K1 K2 = .ok fun k => quant fp (firTaps c K1 K2 k)) ∧
    (¬ (∀ k < K1 + K2, InRange fp (firTaps c K1 K2 k)) →
      fixedTaps fp c K1 K2 = .error .arithmeticError) := by
  rw [taps_inRange]
  unfold fixedTaps firTaps
  by_cases h1 : ∀ j < K1, InRange fp (-(c.WT * (c.Af ^ j * c.Bf)))
  · rw [(fixedLookback_spec fp c K1 K1).1 h1]
    dsimp only
    by_cases h2 : ∀ j < K2, InRange fp (c.WT * (c.Ab ^ j * c.Bb))
    · rw [(fixedLookahead_spec fp c K1 K2 _).1 h2]
      exact ⟨fun _ => rfl, fun h => absurd ⟨h1, h2⟩ h⟩
    · rw [(fixedLookahead_spec fp c K1 K2 _).2 h2]
      exact ⟨fun h => absurd h.2 h2, fun _ => rfl⟩
  · rw [(fixedLookback_spec fp c K1 K1).2 h1]
    exact ⟨fun h => absurd h.1 h1, fun _ => rfl⟩

omit [FloorRing K] in
theorem fixed_state (f : FixedFIR K M L) (src : ℕ → Res (Fin M → K)) (st : FIRState K M) (n : ℕ) :
    stateAfter (f.next src) st n = stateAfter (f.numeric.next src) st n := by
  induction n with
  | zero => rfl
  | succ n ih =>
    simp only [stateAfter, ih]
    unfold FixedFIR.next
    split
    · rename_i h; rw [h]
    · rename_i h; rw [h]

omit [FloorRing K] in
theorem fixed_call (f : FixedFIR K M L) (src : ℕ → Res (Fin M → K)) (st : FIRState K M) (n : ℕ) :
    call (f.next src) st n = match call (f.numeric.next src) st n with
      | .error e => .error e
      | .ok res => toFloat f.fp res := by
  unfold call
  rw [fixed_state]
  generalize stateAfter (f.numeric.next src) st n = s
  unfold FixedFIR.next
  rcases h : f.numeric.next src s with ⟨e | r, s'⟩ <;> rfl

variable [IsStrictOrderedRing K]

omit [FloorRing K] in
theorem ext_abs {s : ℕ → Fin M → K} (hs : ∀ j m, s j m = 0 ∨ s j m = 1) (j : ℤ) (m : Fin M) :
    |Spec.ext s j m| ≤ 1 := by
  unfold Spec.ext
  split_ifs
  · dsimp only
    rcases hs j.toNat m with h | h
    · rw [h]; norm_num
    · rw [h]; norm_num
  · simp

theorem quant_error {fp : FixedPoint K} {bits : ℕ} {mx : K} (hmax : 0 < mx)
    (hfp : FixedPoint.new bits mx = .ok fp) (x : K) :
    |((pyInt (x * fp.scale) : ℤ) : K) - x * fp.scale| ≤ 1 ∧
      |((pyInt (x * fp.scale) : ℤ) : K)| ≤ |x| * fp.scale := by
  obtain ⟨-, -, -, -, hs, -⟩ := FixedPoint.new_spec bits mx hmax fp hfp
  have hb := pyInt_bounds (x * fp.scale)
  have e : |x| * fp.scale = |x * fp.scale| := by rw [abs_mul, abs_of_pos hs]
  rw [e]
  rcases le_total 0 (x * fp.scale) with h | h
  · obtain ⟨h1, h2, h3⟩ := hb.1 h
    rw [abs_of_nonneg h1, abs_of_nonneg h, abs_le]
    exact ⟨⟨by linarith, by linarith⟩, h2⟩
  · obtain ⟨h1, h2, h3⟩ := hb.2 h
    rw [abs_of_nonpos h2, abs_of_nonpos h, abs_le]
    exact ⟨⟨by linarith, by linarith⟩, by linarith⟩

/-- The accumulated integers differ from the scaled estimate by at most one per tap and control. -/
theorem accumulate_error {fp : FixedPoint K} {bits : ℕ} {mx : K} (hmax : 0 < mx)
    (hfp : FixedPoint.new bits mx = .ok fp) (n : ℕ) (h : ℕ → Matrix (Fin L) (Fin M) K)
    (w : ℕ → Fin M → K) (hw : ∀ k m, |w k m| ≤ 1) (l : Fin L) :
    |tensordot n (fun k l m => ((quant fp (h k) l m : ℤ) : K)) w l - tensordot n h w l * fp.scale| ≤ n * M := by
  unfold tensordot
  rw [Finset.sum_mul, ← Finset.sum_sub_distrib]
  calc _ ≤ ∑ k ∈ Finset.range n, |∑ m, ((quant fp (h k) l m : ℤ) : K) * w k m -
          (∑ m, h k l m * w k m) * fp.scale| := Finset.abs_sum_le_sum_abs _ _
    _ ≤ ∑ k ∈ Finset.range n, (M : K) := by
        apply Finset.sum_le_sum
        intro k _
        rw [Finset.sum_mul, ← Finset.sum_sub_distrib]
        calc _ ≤ ∑ m, |((quant fp (h k) l m : ℤ) : K) * w k m - h k l m * w k m * fp.scale| :=
              Finset.abs_sum_le_sum_abs _ _
          _ ≤ ∑ _m : Fin M, (1 : K) := by
              apply Finset.sum_le_sum
              intro m _
              rw [show ((quant fp (h k) l m : ℤ) : K) * w k m - h k l m * w k m * fp.scale =
                (((quant fp (h k) l m : ℤ) : K) - h k l m * fp.scale) * w k m by ring, abs_mul]
              exact mul_le_one₀ (quant_error hmax hfp _).1 (abs_nonneg _) (hw k m)
          _ = M := by simp
    _ = n * M := by simp

/-- The accumulated integers are at most the scaled sum of the magnitudes of the taps. -/
theorem accumulate_bound {fp : FixedPoint K} {bits : ℕ} {mx : K} (hmax : 0 < mx)
    (hfp : FixedPoint.new bits mx = .ok fp) (n : ℕ) (h : ℕ → Matrix (Fin L) (Fin M) K)
    (w : ℕ → Fin M → K) (hw : ∀ k m, |w k m| ≤ 1) (l : Fin L) :
    |tensordot n (fun k l m => ((quant fp (h k) l m : ℤ) : K)) w l| ≤
      (∑ k ∈ Finset.range n, ∑ m, |h k l m|) * fp.scale := by
  unfold tensordot
  rw [Finset.sum_mul]
  refine (Finset.abs_sum_le_sum_abs _ _).trans (Finset.sum_le_sum fun k _ => ?_)
  rw [Finset.sum_mul]
  refine (Finset.abs_sum_le_sum_abs _ _).trans (Finset.sum_le_sum fun m _ => ?_)
  rw [abs_mul]
  have := (quant_error hmax hfp (h k l m)).2
  calc _ ≤ |((quant fp (h k) l m : ℤ) : K)| * 1 := mul_le_mul_of_nonneg_left (hw k m) (abs_nonneg _)
    _ ≤ _ := by rw [mul_one]; exact this

end Cbadc.Estimator
