import Mathlib.Tactic.FieldSimp
import Mathlib.Tactic.Linarith
import Mathlib.Tactic.Positivity
import Mathlib.Tactic.NormNum
import Verif.Model.Fom

/-!
# C46, C47, C63: figures of merit
-/

namespace Cbadc.Fom
open Real

private theorem pos20 : 0 < twentyLog2 := by
  unfold twentyLog2
  have : 0 < logb 10 2 := logb_pos (by norm_num) (by norm_num)
  linarith

private theorem off_eq : quantizationNoiseOffset = 10 * logb 10 (3 / 2) := by
  unfold quantizationNoiseOffset
  have h : (sqrt 6 / 2) ^ 2 = 3 / 2 := by
    rw [div_pow, Real.sq_sqrt (by norm_num)]; norm_num
  have h2 : logb 10 ((sqrt 6 / 2) ^ 2) = 2 * logb 10 (sqrt 6 / 2) := by
    rw [logb_pow]; norm_num
  rw [h] at h2
  rw [h2]; ring

/-- **C46**: the conversions between effective number of bits and SNR in dB invert each other and are strictly
increasing. -/
theorem C46_enob_inverse :
    (∀ e, snrToEnob (enobToSnr e) = e) ∧ (∀ s, enobToSnr (snrToEnob s) = s) ∧
      StrictMono enobToSnr ∧ StrictMono snrToEnob := by
  have hp := pos20
  refine ⟨fun e => ?_, fun s => ?_, fun a b h => ?_, fun a b h => ?_⟩
  · unfold snrToEnob enobToSnr; field_simp; ring
  · unfold snrToEnob enobToSnr; field_simp; ring
  · unfold enobToSnr
    have := mul_lt_mul_of_pos_right h hp
    linarith
  · unfold snrToEnob
    exact div_lt_div_of_pos_right (by linarith) hp

/-- **C46**: the conversions between an SNR and its value in dB invert each other (the SNR being positive) and
are strictly increasing. -/
theorem C46_dB_inverse :
    (∀ r, 0 < r → snrFromDB (snrToDB r) = r) ∧ (∀ d, snrToDB (snrFromDB d) = d) ∧
      (∀ d, 0 < snrFromDB d) ∧ StrictMono snrFromDB ∧
      (∀ a b, 0 < a → a < b → snrToDB a < snrToDB b) := by
  refine ⟨fun r hr => ?_, fun d => ?_, fun d => ?_, fun a b h => ?_, fun a b ha h => ?_⟩
  · unfold snrFromDB snrToDB
    rw [mul_div_cancel_left₀ _ (by norm_num : (10 : ℝ) ≠ 0)]
    exact rpow_logb (by norm_num) (by norm_num) hr
  · unfold snrFromDB snrToDB
    rw [logb_rpow (by norm_num) (by norm_num)]; ring
  · exact rpow_pos_of_pos (by norm_num) _
  · exact rpow_lt_rpow_of_exponent_lt (by norm_num) (by linarith)
  · unfold snrToDB
    have := logb_lt_logb (by norm_num : (1 : ℝ) < 10) ha h
    linarith

/-- **C46**: `ENOB` bits correspond to the signal-to-noise ratio `3/2 · 4^ENOB` of a full-scale sine wave over
uniform quantisation noise; in particular one bit more is a factor of four. -/
theorem C46_ideal_quantiser (e : ℝ) :
    snrFromDB (enobToSnr e) = 3 / 2 * (4 : ℝ) ^ e ∧
      enobToSnr (e + 1) - enobToSnr e = 20 * logb 10 2 := by
  constructor
  · unfold snrFromDB enobToSnr
    rw [off_eq]
    unfold twentyLog2
    have h : (e * (20 * logb 10 2) + 10 * logb 10 (3 / 2)) / 10 =
        logb 10 2 * (2 * e) + logb 10 (3 / 2) := by ring
    rw [h, rpow_add (by norm_num), rpow_mul (by norm_num), rpow_logb (by norm_num) (by norm_num)
      (by norm_num), rpow_logb (by norm_num) (by norm_num) (by norm_num), rpow_mul (by norm_num)]
    norm_num
    ring
  · unfold enobToSnr twentyLog2; ring

set_option exponentiation.threshold 300 in
/-- **C46**: the constants agree with the rounded values `6.02` and `1.76` of the documentation. -/
theorem C46_documented (e : ℝ) :
    |enobToSnr e - (6.02 * e + 1.76)| ≤ 0.001 * |e| + 0.002 := by
  have a1 : (59 / 196 : ℝ) < logb 10 2 := by
    rw [lt_logb_iff_rpow_lt (by norm_num) (by norm_num)]
    have : ((10 : ℝ) ^ (59 / 196 : ℝ)) ^ (196 : ℕ) < 2 ^ (196 : ℕ) := by
      rw [← rpow_natCast, ← rpow_mul (by norm_num)]
      norm_num
    exact lt_of_pow_lt_pow_left₀ 196 (by norm_num) this
  have a2 : logb 10 2 < 87 / 289 := by
    rw [logb_lt_iff_lt_rpow (by norm_num) (by norm_num)]
    have : (2 : ℝ) ^ (289 : ℕ) < ((10 : ℝ) ^ (87 / 289 : ℝ)) ^ (289 : ℕ) := by
      rw [← rpow_natCast ((10 : ℝ) ^ (87 / 289 : ℝ)), ← rpow_mul (by norm_num)]
      norm_num
    exact lt_of_pow_lt_pow_left₀ 289 (by positivity) this
  have b1 : (25 / 142 : ℝ) < logb 10 (3 / 2) := by
    rw [lt_logb_iff_rpow_lt (by norm_num) (by norm_num)]
    have : ((10 : ℝ) ^ (25 / 142 : ℝ)) ^ (142 : ℕ) < (3 / 2) ^ (142 : ℕ) := by
      rw [← rpow_natCast, ← rpow_mul (by norm_num)]
      norm_num
    exact lt_of_pow_lt_pow_left₀ 142 (by norm_num) this
  have b2 : logb 10 (3 / 2) < 28 / 159 := by
    rw [logb_lt_iff_lt_rpow (by norm_num) (by norm_num)]
    have : (3 / 2 : ℝ) ^ (159 : ℕ) < ((10 : ℝ) ^ (28 / 159 : ℝ)) ^ (159 : ℕ) := by
      rw [← rpow_natCast ((10 : ℝ) ^ (28 / 159 : ℝ)), ← rpow_mul (by norm_num)]
      norm_num
    exact lt_of_pow_lt_pow_left₀ 159 (by positivity) this
  unfold enobToSnr
  rw [off_eq]
  unfold twentyLog2
  have h : e * (20 * logb 10 2) + 10 * logb 10 (3 / 2) - (6.02 * e + 1.76) =
      e * (20 * logb 10 2 - 6.02) + (10 * logb 10 (3 / 2) - 1.76) := by ring
  rw [h]
  have h1 : |20 * logb 10 2 - 6.02| ≤ 0.001 := by rw [abs_le]; constructor <;> linarith
  have h2 : |10 * logb 10 (3 / 2) - 1.76| ≤ 0.002 := by rw [abs_le]; constructor <;> linarith
  calc _ ≤ |e * (20 * logb 10 2 - 6.02)| + |10 * logb 10 (3 / 2) - 1.76| := abs_add_le _ _
    _ ≤ |e| * 0.001 + 0.002 := by
        rw [abs_mul]
        exact add_le_add (mul_le_mul_of_nonneg_left h1 (abs_nonneg _)) h2
    _ = _ := by ring

/-- A 10-bit converter: about 62 dB. -/
example : |enobToSnr 10 - 61.96| ≤ 0.012 := by
  have := C46_documented 10
  norm_num at this ⊢
  exact this

/-- **C47**: Walden's figure of merit is positive, proportional to the power, and strictly decreasing in the
resolution and in the sampling frequency. -/
theorem C47_walden (P fs e : ℝ) (hP : 0 < P) (hf : 0 < fs) :
    0 < fomW P fs e ∧ (∀ c, fomW (c * P) fs e = c * fomW P fs e) ∧
      (∀ e', e < e' → fomW P fs e' < fomW P fs e) ∧ (∀ fs', fs < fs' → fomW P fs' e < fomW P fs e) ∧
      fomW P fs (e + 1) = fomW P fs e / 2 := by
  have h2 : ∀ e : ℝ, (0 : ℝ) < 2 ^ e := fun e => rpow_pos_of_pos (by norm_num) e
  have h2e := h2 e
  refine ⟨by unfold fomW; positivity, fun c => by unfold fomW; ring, fun e' h => ?_, fun fs' h => ?_, ?_⟩
  · unfold fomW
    exact div_lt_div_of_pos_left hP (by positivity)
      (mul_lt_mul_of_pos_left (rpow_lt_rpow_of_exponent_lt (by norm_num) h) hf)
  · unfold fomW
    exact div_lt_div_of_pos_left hP (by positivity) (mul_lt_mul_of_pos_right h h2e)
  · unfold fomW
    rw [rpow_add (by norm_num), rpow_one]
    field_simp

/-- **C47**: Schreier's figure of merit is strictly increasing in the SNR and in the sampling frequency and
strictly decreasing in the power; half the power is worth `10 log10 2` dB. -/
theorem C47_schreier (P fs s : ℝ) (hP : 0 < P) (hf : 0 < fs) :
    (∀ s', s < s' → fomS P fs s < fomS P fs s') ∧ (∀ fs', fs < fs' → fomS P fs s < fomS P fs' s) ∧
      (∀ P', P < P' → fomS P' fs s < fomS P fs s) ∧ fomS (P / 2) fs s = fomS P fs s + 10 * logb 10 2 := by
  refine ⟨fun s' h => ?_, fun fs' h => ?_, fun P' h => ?_, ?_⟩
  · unfold fomS; linarith
  · unfold fomS nyquistFrequency
    have := logb_lt_logb (by norm_num : (1 : ℝ) < 10) (x := fs / 2 / P) (y := fs' / 2 / P) (by positivity)
      (by gcongr)
    linarith
  · unfold fomS nyquistFrequency
    have hP' : 0 < P' := hP.trans h
    have := logb_lt_logb (by norm_num : (1 : ℝ) < 10) (x := fs / 2 / P') (y := fs / 2 / P) (by positivity)
      (by gcongr)
    linarith
  · unfold fomS nyquistFrequency
    have h : fs / 2 / (P / 2) = fs / 2 / P * 2 := by field_simp
    rw [h, logb_mul (by positivity) (by norm_num)]
    ring

/-- **C47**: the oversampling ratio is the sampling frequency over twice the bandwidth. -/
theorem C47_osr (fs bw : ℝ) (hb : 0 < bw) : osr fs bw * (2 * bw) = fs := by
  unfold osr nyquistFrequency; field_simp

/-- One milliwatt at one megahertz. -/
example : 0 < fomW (1 / 1000) 1000000 10 := (C47_walden _ _ _ (by norm_num) (by norm_num)).1

/-- **C63**: the survey's contour lines: a converter with power `P`, frequency `fs` and the given SNDR has Walden's
(Schreier's) figure of merit `F` exactly when `P / fs` is the value of the contour line. -/
theorem C63_contours (P fs sndr F : ℝ) (hP : 0 < P) (hf : 0 < fs) :
    (fomW P fs (snrToEnob sndr) = F ↔ P / fs = fomWToPfs F sndr) ∧
      (fomS P fs sndr = F ↔ P / fs = fomSToPfs F sndr) := by
  constructor
  · unfold fomW fomWToPfs
    have h2 : (0 : ℝ) < 2 ^ snrToEnob sndr := rpow_pos_of_pos (by norm_num) _
    rw [div_eq_iff (by positivity), div_eq_iff (by positivity)]
    constructor <;> intro h <;> rw [h] <;> ring
  · unfold fomS fomSToPfs nyquistFrequency
    have hpos : 0 < fs / 2 / P := by positivity
    have hid : -(F - sndr) / 10 = (sndr - F) / 10 := by ring
    rw [hid]
    constructor
    · intro h
      have hl : (sndr - F) / 10 = -logb 10 (fs / 2 / P) := by rw [← h]; ring
      rw [hl, rpow_neg (by norm_num), rpow_logb (by norm_num) (by norm_num) hpos]
      field_simp
    · intro h
      have h' : fs / 2 / P = (10 : ℝ) ^ (-((sndr - F) / 10)) := by
        rw [rpow_neg (by norm_num)]
        have h10 : (0 : ℝ) < 10 ^ ((sndr - F) / 10) := rpow_pos_of_pos (by norm_num) _
        refine eq_inv_of_mul_eq_one_left ?_
        rw [div_eq_iff (by positivity)] at h
        rw [h]
        field_simp
      rw [h', logb_rpow (by norm_num) (by norm_num)]
      ring

/-- **C63**: selection returns, in the order of the data base, exactly the entries whose frequency and effective
number of bits lie in the half-open ranges; reversed ranges are rejected. -/
theorem C63_selection (db : List Row) (BW ENOB : ℝ × ℝ) :
    (BW.1 ≤ BW.2 → ENOB.1 ≤ ENOB.2 → ∃ l, selectBwAndEnob db BW ENOB = .ok l ∧ l.Sublist db ∧
      ∀ r ∈ db, (r ∈ l ↔ r.fsnyq ∈ Set.Ico BW.1 BW.2 ∧ snrToEnob r.snr ∈ Set.Ico ENOB.1 ENOB.2)) ∧
    (BW.2 < BW.1 ∨ ENOB.2 < ENOB.1 → selectBwAndEnob db BW ENOB = .error .exception) := by
  classical
  constructor
  · intro h1 h2
    unfold selectBwAndEnob
    rw [if_neg (not_lt.2 h1), if_neg (not_lt.2 h2)]
    refine ⟨_, rfl, List.filter_sublist, fun r hmem => ?_⟩
    obtain ⟨i1, i2, m1, m2⟩ := C46_enob_inverse
    have e1 : enobToSnr ENOB.1 ≤ r.snr ↔ ENOB.1 ≤ snrToEnob r.snr := by
      rw [← m1.le_iff_le (b := snrToEnob r.snr), i2]
    have e2 : r.snr < enobToSnr ENOB.2 ↔ snrToEnob r.snr < ENOB.2 := by
      rw [← m1.lt_iff_lt (a := snrToEnob r.snr), i2]
    simp only [List.mem_filter, hmem, true_and, decide_eq_true_eq, e1, e2, Set.mem_Ico]
    tauto
  · intro h
    unfold selectBwAndEnob
    by_cases h1 : BW.1 > BW.2
    · rw [if_pos h1]
    · rw [if_neg h1]
      rcases h with h | h
      · exact absurd h h1
      · rw [if_pos h]

/-- An entry at 1 MHz with 10 bits is selected from `[0.5, 2)` MHz and `[9, 11)` bits. -/
example : ∃ l, selectBwAndEnob [⟨0, 1, enobToSnr 10⟩] (1 / 2, 2) (9, 11) = .ok l ∧
    (⟨0, 1, enobToSnr 10⟩ : Row) ∈ l := by
  obtain ⟨l, h1, -, h3⟩ := (C63_selection [⟨0, 1, enobToSnr 10⟩] (1 / 2, 2) (9, 11)).1 (by norm_num) (by norm_num)
  refine ⟨l, h1, (h3 _ (List.mem_singleton.2 rfl)).2 ⟨by norm_num, ?_⟩⟩
  simp only [C46_enob_inverse.1]
  norm_num

/-- **C63**: the envelopes start at their low-frequency value and get worse with frequency; the jitter limit falls
with frequency and jitter, by `20 log10 2` dB per doubling.  At the corner frequency the envelope of the Walden figure
has grown by the square root of two; the envelope of the Schreier figure loses, in dB, what the other one grows. -/
theorem C63_envelopes (o c f f' σ : ℝ) (ho : 0 < o) (hc : 0 < c) (hf : 0 < f) (hff : f < f') (hσ : 0 < σ) :
    fomWEnvelope o c 0 = o ∧ fomSEnvelope o c 0 = o ∧ fomWEnvelope o c f < fomWEnvelope o c f' ∧
      fomSEnvelope o c f' < fomSEnvelope o c f ∧ jitterSndr f' σ < jitterSndr f σ ∧
      jitterSndr f (2 * σ) = jitterSndr f σ - 20 * logb 10 2 ∧
      fomWEnvelope o c c = sqrt 2 * o ∧
      fomSEnvelope o c 0 - fomSEnvelope o c f = 10 * logb 10 (fomWEnvelope o c f / fomWEnvelope o c 0) := by
  have hd : f / c < f' / c := by gcongr
  have h0 : 0 < f / c := by positivity
  have hs : sqrt (1 + (f / c) ^ 2) < sqrt (1 + (f' / c) ^ 2) := by
    refine Real.sqrt_lt_sqrt (by positivity) ?_
    have := pow_lt_pow_left₀ hd h0.le two_ne_zero
    linarith
  have hpi := Real.pi_pos
  refine ⟨by unfold fomWEnvelope; simp, by unfold fomSEnvelope; simp, ?_, ?_, ?_, ?_, ?_, ?_⟩
  · unfold fomWEnvelope
    exact mul_lt_mul_of_pos_left hs ho
  · unfold fomSEnvelope
    have := logb_lt_logb (by norm_num : (1 : ℝ) < 10) (Real.sqrt_pos.2 (by positivity)) hs
    linarith
  · unfold jitterSndr
    have := logb_lt_logb (by norm_num : (1 : ℝ) < 10) (x := 2 * Real.pi * σ * f)
      (y := 2 * Real.pi * σ * f') (by positivity) (by gcongr)
    linarith
  · unfold jitterSndr
    have h : 2 * Real.pi * (2 * σ) * f = 2 * Real.pi * σ * f * 2 := by ring
    rw [h, logb_mul (by positivity) (by norm_num)]
    ring
  · unfold fomWEnvelope
    rw [div_self hc.ne', one_pow, one_add_one_eq_two, mul_comm]
  · unfold fomWEnvelope fomSEnvelope
    rw [zero_div, zero_pow two_ne_zero, add_zero, sqrt_one, mul_one, logb_one, mul_div_cancel_left₀ _ ho.ne']
    ring

example : jitterSndr 2 1 < jitterSndr 1 1 :=
  (C63_envelopes 1 1 1 2 1 one_pos one_pos one_pos (by norm_num) one_pos).2.2.2.2.1

/-- `C47_schreier` and `C63_contours` for one milliwatt at one megahertz: half the power is worth three decibel. -/
example : fomS (1 / 1000 / 2) 1000000 60 = fomS (1 / 1000) 1000000 60 + 10 * logb 10 2 ∧
    (1 / 1000 : ℝ) / 1000000 = fomSToPfs (fomS (1 / 1000) 1000000 60) 60 :=
  ⟨(C47_schreier (1 / 1000) 1000000 60 (by norm_num) (by norm_num)).2.2.2,
    (C63_contours (1 / 1000) 1000000 60 _ (by norm_num) (by norm_num)).2.1 rfl⟩


end Cbadc.Fom
