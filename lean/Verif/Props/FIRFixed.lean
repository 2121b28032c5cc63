import Verif.Lemmas.FIRFixed
import Verif.Props.Estimator

/-! # C121: the FIR filter with fixed-point coefficients -/

namespace Cbadc.Estimator
open Matrix Cbadc.Streams

variable {K : Type*} [Field K] [LinearOrder K] [IsStrictOrderedRing K] [FloorRing K] {N M L : ℕ}

/-- what both constructors return for the same arguments -/
theorem fixed_new {fp : FixedPoint K} {c : Coeffs K N M L} {K1 K2 : ℕ} {eta2 : K} {mid : Bool}
    {ds limit : ℕ} {offset : Option (Fin L → K)} {f : FixedFIR K M L}
    (hf : FixedFIR.new fp c K1 K2 eta2 mid ds limit offset = .ok f) :
    FIR.new c K1 K2 eta2 mid ds limit offset =
        .ok ⟨K1, K2, ds, limit, firTaps c K1 K2, offset.getD 0⟩ ∧
      f = ⟨fp, K1, K2, ds, limit, fun k => quant fp (firTaps c K1 K2 k), offset.getD 0⟩ := by
  unfold FixedFIR.new at hf
  unfold FIR.new
  by_cases h1 : (K1 : ℤ) < 0
  · omega
  rw [if_neg h1] at hf ⊢
  by_cases h2 : (K2 : ℤ) < 1
  · rw [if_pos h2] at hf; simp at hf
  rw [if_neg h2] at hf ⊢
  by_cases h3 : eta2 < 0
  · rw [if_pos h3] at hf; simp at hf
  rw [if_neg h3] at hf ⊢
  cases mid with
  | true => simp at hf
  | false =>
    simp only [Bool.false_eq_true, if_false, Int.toNat_natCast] at hf ⊢
    refine ⟨trivial, ?_⟩
    by_cases h : ∀ k < K1 + K2, InRange fp (firTaps c K1 K2 k)
    · rw [(fixedTaps_spec fp c K1 K2).1 h] at hf
      simp only [Except.ok.injEq] at hf
      exact hf.symm
    · rw [(fixedTaps_spec fp c K1 K2).2 h] at hf
      simp at hf

/-- **C121** A fixed-point filter can be constructed exactly when the floating-point filter with the same
arguments can and none of its taps exceeds the largest representable number; a tap that is too large raises
`ArithmeticError`. -/
theorem C121_accepts (fp : FixedPoint K) (c : Coeffs K N M L) (K1 K2 : ℕ) (eta2 : K) (mid : Bool)
    (ds limit : ℕ) (offset : Option (Fin L → K)) :
    ((∃ f, FixedFIR.new fp c K1 K2 eta2 mid ds limit offset = .ok f) ↔
      ∃ g, FIR.new c K1 K2 eta2 mid ds limit offset = .ok g ∧
        ∀ k < K1 + K2, ∀ l m, |g.h k l m| ≤ fp.max) ∧
    ∀ g, FIR.new c K1 K2 eta2 mid ds limit offset = .ok g →
      (∃ k < K1 + K2, ∃ l m, fp.max < |g.h k l m|) →
      FixedFIR.new fp c K1 K2 eta2 mid ds limit offset = .error .arithmeticError := by
  have key : ∀ g, FIR.new c K1 K2 eta2 mid ds limit offset = .ok g →
      g.h = firTaps c K1 K2 ∧
      ((∀ k < K1 + K2, InRange fp (firTaps c K1 K2 k)) →
        ∃ f, FixedFIR.new fp c K1 K2 eta2 mid ds limit offset = .ok f) ∧
      (¬ (∀ k < K1 + K2, InRange fp (firTaps c K1 K2 k)) →
        FixedFIR.new fp c K1 K2 eta2 mid ds limit offset = .error .arithmeticError) := by
    intro g hg
    obtain ⟨-, hge⟩ := fir_new_ok hg
    refine ⟨by rw [hge], ?_⟩
    unfold FIR.new at hg
    unfold FixedFIR.new
    by_cases h1 : (K1 : ℤ) < 0
    · omega
    rw [if_neg h1] at hg ⊢
    by_cases h2 : (K2 : ℤ) < 1
    · rw [if_pos h2] at hg; simp at hg
    rw [if_neg h2] at hg ⊢
    by_cases h3 : eta2 < 0
    · rw [if_pos h3] at hg; simp at hg
    rw [if_neg h3] at hg ⊢
    cases mid with
    | true => simp at hg
    | false =>
      simp only [Bool.false_eq_true, if_false, Int.toNat_natCast]
      refine ⟨fun h => ?_, fun h => ?_⟩
      · rw [(fixedTaps_spec fp c K1 K2).1 h]; exact ⟨_, rfl⟩
      · rw [(fixedTaps_spec fp c K1 K2).2 h]
  refine ⟨⟨?_, ?_⟩, ?_⟩
  · rintro ⟨f, hf⟩
    obtain ⟨hg, -⟩ := fixed_new hf
    refine ⟨_, hg, ?_⟩
    by_contra hc
    have := (key _ hg).2.2 hc
    rw [this] at hf
    cases hf
  · rintro ⟨g, hg, hb⟩
    rw [(key g hg).1] at hb
    exact (key g hg).2.1 hb
  · rintro g hg ⟨k, hk, l, m, hlm⟩
    rw [(key g hg).1] at hlm
    exact (key g hg).2.2 fun h => absurd (h k hk l m) (not_le.mpr hlm)

/-- **C121** What a call of a fixed-point filter returns: the sum of the integer taps times the control
sequence, plus the offset, divided by the scale; or `ArithmeticError` if that sum exceeds the largest
integer. -/
theorem fixed_estimate {fp : FixedPoint K} {c : Coeffs K N M L} {K1 K2 : ℕ} {eta2 : K} {mid : Bool}
    {ds limit : ℕ} {offset : Option (Fin L → K)} {f : FixedFIR K M L}
    (hf : FixedFIR.new fp c K1 K2 eta2 mid ds limit offset = .ok f)
    (src : ℕ → Res (Fin M → K)) (s : ℕ → Fin M → K) (n : ℕ)
    (hds : ds ≤ K1 + K2) (hlim : limit = 0 ∨ ds * (n + 1) ≤ limit)
    (hs : ∀ j < ds * (n + 1), src j = .ok (s j)) :
    call (f.next src) FIRState.init n = toFloat fp
      (tensordot (K1 + K2) (fun k l m => ((quant fp (firTaps c K1 K2 k) l m : ℤ) : K))
        (fun k => Spec.ext s ((ds * (n + 1) : ℕ) - ((K1 + K2 : ℕ) : ℤ) + k)) + offset.getD 0) := by
  obtain ⟨-, rfl⟩ := fixed_new hf
  rw [fixed_call, fir_call _ src s FIRState.init hds n (by simpa [FIRState.init, FixedFIR.numeric] using hlim)
    (by simpa [FIRState.init, FixedFIR.numeric] using hs)]
  simp only [FixedFIR.numeric, FIRState.init]
  congr 2
  apply tensordot_congr
  intro k _
  rw [firWindow_init]

omit [IsStrictOrderedRing K] [FloorRing K] in
theorem float_estimate {c : Coeffs K N M L} {K1 K2 : ℕ} {eta2 : K} {mid : Bool} {ds limit : ℕ}
    {offset : Option (Fin L → K)} {g : FIR K M L}
    (hg : FIR.new c K1 K2 eta2 mid ds limit offset = .ok g)
    (src : ℕ → Res (Fin M → K)) (s : ℕ → Fin M → K) (n : ℕ)
    (hds : ds ≤ K1 + K2) (hlim : limit = 0 ∨ ds * (n + 1) ≤ limit)
    (hs : ∀ j < ds * (n + 1), src j = .ok (s j)) :
    call (g.next src) FIRState.init n = .ok
      (tensordot (K1 + K2) (firTaps c K1 K2)
        (fun k => Spec.ext s ((ds * (n + 1) : ℕ) - ((K1 + K2 : ℕ) : ℤ) + k)) + offset.getD 0) := by
  obtain ⟨-, rfl⟩ := fir_new_ok hg
  rw [fir_call _ src s FIRState.init hds n (by simpa [FIRState.init] using hlim)
    (by simpa [FIRState.init] using hs)]
  simp only [FIRState.init]
  congr 2
  apply tensordot_congr
  intro k _
  rw [firWindow_init]

/-- **C121** Without an offset and for 0/1 control signals, an estimate of the fixed-point filter differs
from that of the floating-point filter by at most one step per tap and control; otherwise it raises
`ArithmeticError`, and then the floating-point estimate reaches the largest representable number up to the
same tolerance. -/
theorem C121_estimate_partial (bits : ℕ) (mx : K) (hmax : 0 < mx) (fp : FixedPoint K)
    (hfp : FixedPoint.new bits mx = .ok fp) (step : K) (hstep : fp.fixedToFloat 1 = .ok step)
    (c : Coeffs K N M L) (K1 K2 : ℕ) (eta2 : K) (mid : Bool) (ds limit : ℕ) (f : FixedFIR K M L)
    (g : FIR K M L) (hf : FixedFIR.new fp c K1 K2 eta2 mid ds limit none = .ok f)
    (hg : FIR.new c K1 K2 eta2 mid ds limit none = .ok g)
    (src : ℕ → Res (Fin M → K)) (s : ℕ → Fin M → K) (h01 : ∀ j m, s j m = 0 ∨ s j m = 1) (n : ℕ)
    (hds : ds ≤ K1 + K2) (hlim : limit = 0 ∨ ds * (n + 1) ≤ limit)
    (hs : ∀ j < ds * (n + 1), src j = .ok (s j)) :
    ∃ z, call (g.next src) FIRState.init n = .ok z ∧
      ((∃ y, call (f.next src) FIRState.init n = .ok y ∧
          ∀ l, |y l - z l| ≤ ((K1 + K2 : ℕ) * M : K) * step) ∨
        (call (f.next src) FIRState.init n = .error .arithmeticError ∧
          ∃ l, mx - ((K1 + K2 : ℕ) * M : K) * step < |z l|)) := by
  obtain ⟨-, -, hm, him, hsc, hsm⟩ := FixedPoint.new_spec bits mx hmax fp hfp
  have hst : step * fp.scale = 1 := by
    unfold FixedPoint.fixedToFloat at hstep
    split_ifs at hstep
    simp only [Except.ok.injEq, Int.cast_one] at hstep
    rw [← hstep]
    exact div_mul_cancel₀ _ hsc.ne'
  refine ⟨_, float_estimate hg src s n hds hlim hs, ?_⟩
  rw [fixed_estimate hf src s n hds hlim hs]
  set W : ℕ → Fin M → K := fun k => Spec.ext s ((ds * (n + 1) : ℕ) - ((K1 + K2 : ℕ) : ℤ) + k) with hW
  have hw : ∀ k m, |W k m| ≤ 1 := fun k m => ext_abs h01 _ m
  have herr := accumulate_error hmax hfp (K1 + K2) (firTaps c K1 K2) W hw
  simp only [Option.getD_none, add_zero]
  generalize tensordot (K1 + K2) (fun k l m => ((quant fp (firTaps c K1 K2 k) l m : ℤ) : K)) W = q at *
  generalize tensordot (K1 + K2) (firTaps c K1 K2) W = z at *
  generalize hB : (((K1 + K2 : ℕ) : K) * (M : K)) = B at *
  unfold toFloat
  by_cases ho : ∃ l, |q l| > (fp.intMax : K)
  · right
    rw [if_pos ho]
    obtain ⟨l, hl⟩ := ho
    refine ⟨rfl, l, ?_⟩
    have h1 : |q l| ≤ |z l| * fp.scale + B := by
      have := abs_sub_abs_le_abs_sub (q l) (z l * fp.scale)
      rw [abs_mul, abs_of_pos hsc] at this
      linarith [herr l]
    rw [← hsm] at hl
    have h2 : (mx - B * step) * fp.scale < |z l| * fp.scale := by
      rw [sub_mul, mul_assoc, hst]; linarith
    exact lt_of_mul_lt_mul_right h2 hsc.le
  · left
    rw [if_neg ho]
    refine ⟨_, rfl, fun l => ?_⟩
    have h3 : |q l / fp.scale - z l| * fp.scale ≤ B * step * fp.scale := by
      rw [mul_assoc, hst, mul_one, ← abs_of_pos hsc, ← abs_mul, abs_of_pos hsc, sub_mul,
        div_mul_cancel₀ _ hsc.ne']
      exact herr l
    exact le_of_mul_le_mul_right h3 hsc

/-- **C121** If the magnitudes of the taps of every input add up to at most the largest representable
number, no call fails for lack of range. -/
theorem C121_no_overflow (bits : ℕ) (mx : K) (hmax : 0 < mx) (fp : FixedPoint K)
    (hfp : FixedPoint.new bits mx = .ok fp) (c : Coeffs K N M L) (K1 K2 : ℕ) (eta2 : K) (mid : Bool)
    (ds limit : ℕ) (g : FIR K M L) (hg : FIR.new c K1 K2 eta2 mid ds limit none = .ok g)
    (hsum : ∀ l, ∑ k ∈ Finset.range (K1 + K2), ∑ m, |g.h k l m| ≤ mx)
    (src : ℕ → Res (Fin M → K)) (s : ℕ → Fin M → K) (h01 : ∀ j m, s j m = 0 ∨ s j m = 1) (n : ℕ)
    (hds : ds ≤ K1 + K2) (hlim : limit = 0 ∨ ds * (n + 1) ≤ limit)
    (hs : ∀ j < ds * (n + 1), src j = .ok (s j)) :
    ∃ f, FixedFIR.new fp c K1 K2 eta2 mid ds limit none = .ok f ∧
      ∃ y, call (f.next src) FIRState.init n = .ok y := by
  obtain ⟨-, -, hm, him, hsc, hsm⟩ := FixedPoint.new_spec bits mx hmax fp hfp
  obtain ⟨f, hf⟩ := ((C121_accepts fp c K1 K2 eta2 mid ds limit none).1).mpr ⟨g, hg, by
    intro k hk l m
    rw [hm]
    refine le_trans ?_ (hsum l)
    calc |g.h k l m| ≤ ∑ m, |g.h k l m| :=
          Finset.single_le_sum (f := fun m => |g.h k l m|) (fun _ _ => abs_nonneg _) (Finset.mem_univ m)
      _ ≤ _ := Finset.single_le_sum (f := fun k => ∑ m, |g.h k l m|)
          (fun _ _ => Finset.sum_nonneg fun _ _ => abs_nonneg _) (Finset.mem_range.mpr hk)⟩
  refine ⟨f, hf, ?_⟩
  rw [fixed_estimate hf src s n hds hlim hs]
  obtain ⟨-, rfl⟩ := fir_new_ok hg
  unfold toFloat
  rw [if_neg]
  · exact ⟨_, rfl⟩
  · rintro ⟨l, hl⟩
    simp only [Option.getD_none, add_zero] at hl
    have := accumulate_bound hmax hfp (K1 + K2) (firTaps c K1 K2)
      (fun k => Spec.ext s ((ds * (n + 1) : ℕ) - ((K1 + K2 : ℕ) : ℤ) + k)) (fun k m => ext_abs h01 _ m) l
    have h2 := mul_le_mul_of_nonneg_right (hsum l) hsc.le
    rw [mul_comm mx, hsm] at h2
    exact absurd (this.trans h2) (not_le.mpr hl)

/-- **C121** The offset of a fixed-point filter is divided by the scale of the format: with an offset `b`
the estimates are those without plus `b / scale`. -/
theorem C121_offset_partial (bits : ℕ) (mx : K) (hmax : 0 < mx) (fp : FixedPoint K)
    (hfp : FixedPoint.new bits mx = .ok fp) (step : K) (hstep : fp.fixedToFloat 1 = .ok step)
    (c : Coeffs K N M L) (K1 K2 : ℕ) (eta2 : K) (mid : Bool) (ds limit : ℕ) (b : Fin L → K)
    (f f' : FixedFIR K M L) (hf : FixedFIR.new fp c K1 K2 eta2 mid ds limit none = .ok f)
    (hf' : FixedFIR.new fp c K1 K2 eta2 mid ds limit (some b) = .ok f')
    (src : ℕ → Res (Fin M → K)) (s : ℕ → Fin M → K) (n : ℕ)
    (hds : ds ≤ K1 + K2) (hlim : limit = 0 ∨ ds * (n + 1) ≤ limit)
    (hs : ∀ j < ds * (n + 1), src j = .ok (s j)) (y y' : Fin L → K)
    (hy : call (f.next src) FIRState.init n = .ok y) (hy' : call (f'.next src) FIRState.init n = .ok y') :
    y' = y + step • b := by
  obtain ⟨-, -, hm, him, hsc, hsm⟩ := FixedPoint.new_spec bits mx hmax fp hfp
  rw [fixed_estimate hf src s n hds hlim hs] at hy
  rw [fixed_estimate hf' src s n hds hlim hs] at hy'
  unfold toFloat at hy hy'
  split_ifs at hy hy'
  unfold FixedPoint.fixedToFloat at hstep
  split_ifs at hstep
  simp only [Except.ok.injEq, Int.cast_one] at hstep hy hy'
  rw [← hy, ← hy', ← hstep]
  funext l
  simp only [Option.getD_none, Option.getD_some, Pi.add_apply, Pi.smul_apply, smul_eq_mul,
    Pi.zero_apply]
  ring

/-- **C121** Hence an offset spoils the estimates: an 8 bit filter with two taps and the offset -1, whose
first estimate is 63/64 away from that of the floating-point filter; the tolerance is 1/32. -/
theorem C121_offset_false : ∃ (f : FixedFIR ℚ 1 1) (g : FIR ℚ 1 1) (y z : Fin 1 → ℚ),
    FixedPoint.new 8 (2 : ℚ) = .ok fp8 ∧ fp8.fixedToFloat 1 = .ok (1 / 64) ∧
    FixedFIR.new fp8 exCoeffs 1 1 1 false 1 0 (some ![-1]) = .ok f ∧
    FIR.new exCoeffs 1 1 1 false 1 0 (some ![-1]) = .ok g ∧
    call (f.next exSrc) FIRState.init 0 = .ok y ∧ call (g.next exSrc) FIRState.init 0 = .ok z ∧
    (((1 + 1 : ℕ) : ℚ) * (1 : ℕ)) * (1 / 64) < |y 0 - z 0| := by
  have hg : FIR.new exCoeffs 1 1 1 false 1 0 (some ![-1]) =
      .ok ⟨1, 1, 1, 0, firTaps exCoeffs 1 1, ![-1]⟩ := by
    simp [FIR.new]
  have t0 : firTaps exCoeffs 1 1 0 = !![-1] := by
    rw [firTaps_eq _ _ _ _ (by norm_num)]; ext i j; simp [exCoeffs]
  have t1 : firTaps exCoeffs 1 1 1 = !![2] := by
    rw [firTaps_eq _ _ _ _ (by norm_num)]; ext i j; simp [exCoeffs]
  obtain ⟨f, hf⟩ := ((C121_accepts fp8 exCoeffs 1 1 1 false 1 0 (some ![-1])).1).mpr ⟨_, hg, by
    intro k hk l m
    have : k = 0 ∨ k = 1 := by omega
    fin_cases l; fin_cases m
    rcases this with rfl | rfl
    · simp [t0, fp8]
    · simp [t1, fp8]⟩
  refine ⟨f, _, ![127 / 64], ![1], fp8_new, ?_, hf, hg, ?_, ?_, ?_⟩
  · simp [FixedPoint.fixedToFloat, fp8]
  · rw [fixed_estimate hf exSrc (fun n _ => if n % 2 = 0 then 1 else 0) 0 (by norm_num) (by norm_num)
      (fun j _ => rfl)]
    have e : tensordot (1 + 1) (fun k l m => ((quant fp8 (firTaps exCoeffs 1 1 k) l m : ℤ) : ℚ))
        (fun k => Spec.ext (fun n _ => if n % 2 = 0 then 1 else 0)
          ((1 * (0 + 1) : ℕ) - ((1 + 1 : ℕ) : ℤ) + k)) + (some ![-1]).getD 0 = ![127] := by
      funext l
      fin_cases l
      have := pyInt_intCast (K := ℚ) 128
      simp [tensordot, Finset.sum_range_succ, Spec.ext, t0, t1, quant, fp8]
      norm_num at this ⊢
      rw [this]; norm_num
    rw [e]
    unfold toFloat
    rw [if_neg (by rintro ⟨l, hl⟩; fin_cases l; norm_num [fp8] at hl)]
    congr 1
    funext l
    fin_cases l
    rfl
  · rw [float_estimate hg exSrc (fun n _ => if n % 2 = 0 then 1 else 0) 0 (by norm_num) (by norm_num)
      (fun j _ => rfl)]
    congr 1
    funext l
    fin_cases l
    simp [tensordot, Finset.sum_range_succ, Spec.ext, t0, t1]
    norm_num
  · norm_num

/-! A concrete case: 8 bits, largest number 4, three taps 2, 2/3 and 2/9 (sum 26/9), rounded to 64, 21
and 7 thirty-seconds. -/

/-- the format of the examples -/
def fp8' : FixedPoint ℚ := ⟨8, 4, 128, 32⟩

theorem fp8'_new : FixedPoint.new 8 (4 : ℚ) = .ok fp8' := by
  simp [FixedPoint.new, fp8']; norm_num

theorem ex_new : FIR.new exCoeffs 0 3 1 false 1 0 none = .ok ⟨0, 3, 1, 0, firTaps exCoeffs 0 3, 0⟩ := by
  simp [FIR.new]

/-- the taps of the example -/
theorem ex_taps : firTaps exCoeffs 0 3 0 = !![2] ∧ firTaps exCoeffs 0 3 1 = !![2 / 3] ∧
    firTaps exCoeffs 0 3 2 = !![2 / 9] := by
  refine ⟨?_, ?_, ?_⟩ <;> rw [firTaps_eq _ _ _ _ (by norm_num)] <;> ext i j <;>
    simp [exCoeffs, pow_succ, Matrix.mul_apply] <;> norm_num

theorem ex_sum (l : Fin 1) : ∑ k ∈ Finset.range (0 + 3), ∑ m, |firTaps exCoeffs 0 3 k l m| ≤ 4 := by
  obtain ⟨h0, h1, h2⟩ := ex_taps
  fin_cases l
  simp [Finset.sum_range_succ, h0, h1, h2, abs_of_pos]
  norm_num

/-- every call of the fixed-point filter of the example succeeds and its result is within 3/32 of the one of
the floating-point filter -/
example (n : ℕ) : ∃ (f : FixedFIR ℚ 1 1) (g : FIR ℚ 1 1) (y z : Fin 1 → ℚ),
    FixedFIR.new fp8' exCoeffs 0 3 1 false 1 0 none = .ok f ∧ FIR.new exCoeffs 0 3 1 false 1 0 none = .ok g ∧
    call (f.next exSrc) FIRState.init n = .ok y ∧ call (g.next exSrc) FIRState.init n = .ok z ∧
    |y 0 - z 0| ≤ 3 / 32 := by
  have h01 : ∀ (j : ℕ) (m : Fin 1), (fun n _ => if n % 2 = 0 then 1 else 0 : ℕ → Fin 1 → ℚ) j m = 0 ∨
      (fun n _ => if n % 2 = 0 then 1 else 0 : ℕ → Fin 1 → ℚ) j m = 1 := by
    intro j m
    by_cases h : j % 2 = 0
    · right; simp [h]
    · left; simp [h]
  obtain ⟨f, hf, y, hy⟩ := C121_no_overflow 8 4 (by norm_num) fp8' fp8'_new exCoeffs 0 3 1 false 1 0 _ ex_new
    ex_sum exSrc _ h01 n (by norm_num) (Or.inl rfl) (fun j _ => rfl)
  obtain ⟨z, hz, ⟨y', hy', hb⟩ | ⟨he, -⟩⟩ := C121_estimate_partial 8 4 (by norm_num) fp8' fp8'_new (1 / 32)
    (by simp [FixedPoint.fixedToFloat, fp8']) exCoeffs 0 3 1 false 1 0 f _ hf ex_new exSrc _ h01 n
    (by norm_num) (Or.inl rfl) (fun j _ => rfl)
  · refine ⟨f, _, y', z, hf, ex_new, hy', hz, (hb 0).trans (by norm_num)⟩
  · rw [hy] at he; cases he

/-- a tap above the largest number: the format of `C121_offset_false` and a first tap of 3 -/
def bigCoeffs : Coeffs ℚ 1 1 1 := ⟨!![1 / 2], !![1 / 3], !![1], !![3], !![1]⟩

example : FixedFIR.new fp8 bigCoeffs (0 : ℕ) (1 : ℕ) 1 false 1 0 none = .error .arithmeticError := by
  have hg : FIR.new bigCoeffs (0 : ℕ) (1 : ℕ) 1 false 1 0 none =
      .ok ⟨0, 1, 1, 0, firTaps bigCoeffs 0 1, 0⟩ := by
    simp [FIR.new]
  refine (C121_accepts fp8 bigCoeffs 0 1 1 false 1 0 none).2 _ hg ⟨0, by norm_num, 0, 0, ?_⟩
  dsimp only
  rw [firTaps_eq _ _ _ _ (by norm_num)]
  simp [fp8, bigCoeffs]
  norm_num

/-- `C121_offset_partial`: the filter of the example with an offset of one half and without; the estimates differ by a half
of the step of the format instead. -/
example (n : ℕ) (f f' : FixedFIR ℚ 1 1) (y y' : Fin 1 → ℚ) (hf : FixedFIR.new fp8' exCoeffs 0 3 1 false 1 0 none = .ok f)
    (hf' : FixedFIR.new fp8' exCoeffs 0 3 1 false 1 0 (some ![1 / 2]) = .ok f')
    (hy : call (f.next exSrc) FIRState.init n = .ok y) (hy' : call (f'.next exSrc) FIRState.init n = .ok y') :
    y' = y + (1 / 32 : ℚ) • ![1 / 2] :=
  C121_offset_partial 8 4 (by norm_num) fp8' fp8'_new (1 / 32) (by simp [FixedPoint.fixedToFloat, fp8']) exCoeffs 0 3 1 false 1 0
    ![1 / 2] f f' hf hf' exSrc _ n (by norm_num) (Or.inl rfl) (fun j _ => rfl) y y' hy hy'


end Cbadc.Estimator
