import Verif.Lemmas.Peaks
import Verif.Props.Tone

/-!
# C181: the distortion figures of a mixture of tones
-/

namespace Cbadc.Spectrum

open Finset

variable {ι : Type*} [Fintype ι] [DecidableEq ι] {m : ι → ℕ} {size nperseg : ℕ}

omit [DecidableEq ι] in
/-- **C181** The spectrum of a mixture of tones that are at least five bins apart is the sum of their spectra, whatever their
phases. -/
theorem C181_mixture (A φ : ι → ℝ) (fs : ℝ) (hm : ∀ i, 3 ≤ m i) (hn : ∀ i, 2 * (m i + 2) < min nperseg size)
    (hsep : ∀ i l, i ≠ l → m i + 5 ≤ m l ∨ m l + 5 ≤ m i) (h0 : 0 < min nperseg size) (k : ℕ) (hk : k < bins size nperseg) :
    psd (fun j => ∑ i, A i * Real.cos (2 * Real.pi * m i * j / (min nperseg size : ℕ) + φ i)) size nperseg fs k =
      ∑ i, A i ^ 2 * (min nperseg size : ℕ) / (2 * fs) * (Spec.lobe (k - m i) ^ 2 / (1523 / 5000)) := by
  by_cases hι : IsEmpty ι
  · have hd : ∀ s j, detrend (fun _ => (0 : ℝ)) (segmentLength size nperseg) s j = 0 := by
      intro s j
      simp [detrend]
    simp only [univ_eq_empty, sum_empty, psd, hd, mul_zero]
    simp [rfft, oneSided]
  rw [not_isEmpty_iff] at hι
  have hk' : k ≤ min nperseg size / 2 := Nat.lt_succ_iff.1 hk
  have hsize : min nperseg size ≤ size := min_le_right _ _
  unfold psd
  have hl : segmentLength size nperseg = min nperseg size := rfl
  rw [hl]
  obtain ⟨n, e⟩ : ∃ n, n = min nperseg size := ⟨_, rfl⟩
  rw [← e] at hn hk' hsize h0 ⊢
  dsimp only
  have hn0 : (n : ℝ) ≠ 0 := by exact_mod_cast h0.ne'
  have hS : (segments size n : ℝ) ≠ 0 := by
    have : 0 < segments size n := Nat.div_pos (by omega) (by omega)
    exact_mod_cast this.ne'
  have hW : ∑ j ∈ range n, blackman n false j ^ 2 = 1523 / 5000 * n := by
    have := hn hι.some
    rw [← window_sq (by omega : 5 ≤ n)]
    exact sum_congr rfl fun j _ => by rw [window_eq]
  have hz : ∀ d : ℤ, d < -2 ∨ 2 < d → Spec.lobe d = 0 := by
    intro d hd
    unfold Spec.lobe
    rw [if_neg (by omega), if_neg (by omega), if_neg (by omega)]
  have hseg : ∀ s ∈ range (segments size n), oneSided n k (‖rfft n (fun j => blackman n false j *
      detrend (fun j => ∑ i, A i * Real.cos (2 * Real.pi * m i * j / n + φ i)) n (s * (n - n / 2)) j) k‖ ^ 2 /
      (fs * ∑ j ∈ range n, blackman n false j ^ 2)) =
      ∑ i, A i ^ 2 * n / (2 * fs) * (Spec.lobe (k - m i) ^ 2 / (1523 / 5000)) := by
    intro s _
    obtain ⟨t, ht⟩ : ∃ t, t = s * (n - n / 2) := ⟨_, rfl⟩
    rw [← ht]
    have hshift : ∀ (i : ι) (j : ℕ), 2 * Real.pi * m i * ((t + j : ℕ) : ℝ) / n + φ i =
        2 * Real.pi * m i * j / n + (2 * Real.pi * m i * t / n + φ i) := by
      intro i j
      push_cast
      ring
    have hy : rfft n (fun j => blackman n false j *
        detrend (fun j => ∑ i, A i * Real.cos (2 * Real.pi * m i * j / n + φ i)) n t j) k =
        ∑ i, rfft n (fun j => Spec.window n j * (A i * Real.cos (2 * Real.pi * m i * j / n + (2 * Real.pi * m i * t / n + φ i)))) k := by
      unfold rfft
      rw [sum_comm]
      refine sum_congr rfl fun j _ => ?_
      rw [← sum_mul]
      congr 1
      unfold detrend
      simp only [hshift]
      rw [sum_comm (s := range n)]
      have : ∑ i, ∑ j ∈ range n, A i * Real.cos (2 * Real.pi * m i * j / n + (2 * Real.pi * m i * t / n + φ i)) = 0 :=
        sum_eq_zero fun i _ => by
          have := hm i
          have := hn i
          rw [← mul_sum, tone_mean (by omega) (by omega), mul_zero]
      rw [this, zero_div, sub_zero, window_eq, mul_sum, Complex.ofReal_sum]
    have hr : ∀ i ∈ univ, rfft n (fun j => Spec.window n j * (A i * Real.cos (2 * Real.pi * m i * j / n +
        (2 * Real.pi * m i * t / n + φ i)))) k = (A i : ℂ) * n / 2 *
        Complex.exp (((2 * Real.pi * m i * t / n + φ i : ℝ) : ℂ) * Complex.I) * Spec.lobe (k - m i) :=
      fun i _ => rfft_tone (hm i) (hn i) hk' _ _
    rw [hy, sum_congr rfl hr, hW]
    by_cases hex : ∃ i, Spec.lobe ((k : ℤ) - m i) ≠ 0
    · obtain ⟨i, hi⟩ := hex
      have hki : (m i : ℤ) - 2 ≤ k ∧ (k : ℤ) ≤ m i + 2 := by
        by_contra hc
        exact hi (hz _ (by omega))
      have ho : ∀ l ∈ univ, l ≠ i → Spec.lobe ((k : ℤ) - m l) = 0 := by
        intro l _ hl
        have := hsep l i hl
        exact hz _ (by omega)
      rw [sum_eq_single i (fun l h1 h2 => by rw [ho l h1 h2, Complex.ofReal_zero, mul_zero]) (fun h => absurd (mem_univ i) h),
        sum_eq_single i (fun l h1 h2 => by rw [ho l h1 h2]; norm_num) (fun h => absurd (mem_univ i) h)]
      have hnorm : ‖(A i : ℂ) * n / 2 * Complex.exp (((2 * Real.pi * m i * t / n + φ i : ℝ) : ℂ) * Complex.I) *
          Spec.lobe (k - m i)‖ ^ 2 = A i ^ 2 * n ^ 2 / 4 * Spec.lobe (k - m i) ^ 2 := by
        rw [norm_mul, norm_mul, Complex.norm_exp_ofReal_mul_I, norm_div, norm_mul, Complex.norm_real, Complex.norm_real,
          Complex.norm_natCast, Complex.norm_ofNat, mul_one, mul_pow, div_pow, mul_pow, Real.norm_eq_abs, Real.norm_eq_abs, sq_abs,
          sq_abs]
        norm_num
      have h2 : ∀ r, oneSided n k r = 2 * r := by
        intro r
        have := hm i
        have := hn i
        unfold oneSided
        by_cases hp : n % 2 = 1
        · rw [if_pos hp, if_pos (by omega)]
        · rw [if_neg hp, if_pos (by omega)]
      rw [h2, hnorm]
      field_simp
      ring
    · have hex' : ∀ i, Spec.lobe ((k : ℤ) - m i) = 0 := fun i => by
        by_contra h
        exact hex ⟨i, h⟩
      simp only [hex']
      unfold oneSided
      simp
  rw [sum_congr rfl hseg, sum_const, card_range, nsmul_eq_mul]
  exact mul_div_cancel_left₀ _ hS

/-- a tone in bin 5 and its third harmonic, in segments of 64 values -/
example := C181_mixture (m := ![5, 15]) (size := 1000) (nperseg := 64) ![2, 1] ![0, 1] 1
  (by intro i; fin_cases i <;> simp) (by intro i; fin_cases i <;> simp)
  (by intro i l; fin_cases i <;> fin_cases l <;> simp) (by norm_num) 6 (by decide)

omit [DecidableEq ι] in
/-- **C181** `find_n_sinusoidals`, asked for as many tones as there are, returns the windows around all of them, if they are
further apart than the mask is wide. -/
theorem C181_found (A φ : ι → ℝ) (fs : ℝ) (hf : 0 < fs) (hA : ∀ i, A i ≠ 0) (hm : ∀ i, 3 ≤ m i)
    (hn : ∀ i, 2 * (m i + 2) < min nperseg size) (h0 : 0 < min nperseg size) (width : ℤ) (hw : 6 ≤ width)
    (hsep : ∀ i l, i ≠ l → (m i : ℤ) + width + 2 ≤ m l ∨ (m l : ℤ) + width + 2 ≤ m i) :
    ∃ l : List ℤ, findN (bins size nperseg) (psd (fun j => ∑ i, A i *
        Real.cos (2 * Real.pi * m i * j / (min nperseg size : ℕ) + φ i)) size nperseg fs) (Fintype.card ι) width none = .ok l ∧
      ∀ z, z ∈ l ↔ (0 ≤ z ∧ z < bins size nperseg) ∧ ∃ i, (m i : ℤ) - width / 2 ≤ z ∧ z < m i + width / 2 := by
  have hb : bins size nperseg = min nperseg size / 2 + 1 := rfl
  have hsep5 : ∀ i l, i ≠ l → m i + 5 ≤ m l ∨ m l + 5 ≤ m i := fun i l h => by
    have := hsep i l h
    omega
  have hx := fun k hk => C181_mixture A φ fs hm hn hsep5 h0 k hk
  obtain ⟨f, hfe⟩ : ∃ f, f = psd (fun j => ∑ i, A i * Real.cos (2 * Real.pi * m i * j / (min nperseg size : ℕ) + φ i))
      size nperseg fs := ⟨_, rfl⟩
  rw [← hfe] at hx ⊢
  have hz : ∀ d : ℤ, ¬ |d| ≤ 2 → Spec.lobe d = 0 := by
    intro d hd
    rw [abs_le] at hd
    unfold Spec.lobe
    rw [if_neg (by omega), if_neg (by omega), if_neg (by omega)]
  have hn0 : (0 : ℝ) < (min nperseg size : ℕ) := by exact_mod_cast h0
  have hc : ∀ i, 0 < A i ^ 2 * (min nperseg size : ℕ) / (2 * fs) := fun i => by
    have := hA i
    positivity
  have hN : ∀ i, m i < bins size nperseg := fun i => by
    have := hn i
    omega
  have hat : ∀ i, ∀ q < bins size nperseg, |(q : ℤ) - m i| ≤ 2 →
      f q = A i ^ 2 * (min nperseg size : ℕ) / (2 * fs) * (Spec.lobe (q - m i) ^ 2 / (1523 / 5000)) := by
    intro i q hq hd
    rw [hx q hq]
    refine sum_eq_single i (fun l _ hl => ?_) fun h => absurd (mem_univ i) h
    have := hsep5 l i hl
    rw [abs_le] at hd
    rw [hz _ (by rw [abs_le]; omega)]
    norm_num
  obtain ⟨ps, l, e1, e2, e3, e4⟩ := C45_windows (bins size nperseg) (by omega) f (Fintype.card ι) width none (by omega)
    (by intro d hd; cases hd)
  rw [Option.getD_none] at e3
  have hps := peaks_of_tones (m := m) hw hN hsep (fun i => by
      rw [hat i _ (hN i) (by rw [sub_self, abs_zero]; norm_num), sub_self]
      exact (mul_pos (hc i) (by norm_num [Spec.lobe])).ne')
    (fun q hq hne => by
      obtain ⟨i, hi⟩ : ∃ i, |(q : ℤ) - m i| ≤ 2 := by
        by_contra hcon
        push Not at hcon
        apply hne
        rw [hx q hq]
        exact sum_eq_zero fun i _ => by
          rw [hz _ (not_le.2 (hcon i))]
          norm_num
      refine ⟨i, hi, fun hqi => ?_⟩
      rw [hat i q hq hi, hat i _ (hN i) (by rw [sub_self, abs_zero]; norm_num), sub_self, abs_mul, abs_mul]
      refine mul_lt_mul_of_pos_left ?_ (abs_pos.2 (hc i).ne')
      have hd : ((q : ℤ) - m i) ≠ 0 := by omega
      rw [abs_of_nonneg (by positivity), abs_of_nonneg (by positivity)]
      refine div_lt_div_of_pos_right ?_ (by norm_num)
      unfold Spec.lobe
      rw [if_neg hd, if_pos rfl]
      split_ifs <;> norm_num) e3 (by rw [e1, Int.toNat_natCast])
  refine ⟨l, e2, fun z => ?_⟩
  rw [e4]
  refine and_congr_right fun _ => ⟨?_, ?_⟩
  · rintro ⟨p, hp, h⟩
    obtain ⟨i, rfl⟩ := (hps p).1 hp
    exact ⟨i, h⟩
  · rintro ⟨i, h⟩
    exact ⟨m i, (hps _).2 ⟨i, rfl⟩, h⟩

/-- a tone in bin 5 and its third harmonic -/
example := C181_found (m := ![5, 15]) (size := 1000) (nperseg := 64) ![2, 1] ![0, 1] 1 one_pos
  (by intro i; fin_cases i <;> simp) (by intro i; fin_cases i <;> simp) (by intro i; fin_cases i <;> simp) (by norm_num) 6 le_rfl
  (by intro i l; fin_cases i <;> fin_cases l <;> simp)

/-- **C181** The bins of a mask that covers the tones of `J` (two bins on either side) and stays clear of the others contain
their powers. -/
theorem C181_power (A φ : ι → ℝ) (fs : ℝ) (hf : 0 < fs) (hm : ∀ i, 3 ≤ m i) (hn : ∀ i, 2 * (m i + 2) < min nperseg size)
    (hsep : ∀ i l, i ≠ l → m i + 5 ≤ m l ∨ m l + 5 ≤ m i) (h0 : 0 < min nperseg size) (J : Finset ι) (mask : List ℤ)
    (hmask : mask.Nodup) (hin : ∀ z ∈ mask, 0 ≤ z ∧ z < bins size nperseg)
    (hJ : ∀ i ∈ J, ∀ d : ℤ, |d| ≤ 2 → (m i : ℤ) + d ∈ mask) (hJ' : ∀ i ∉ J, ∀ d : ℤ, |d| ≤ 2 → (m i : ℤ) + d ∉ mask) :
    ∃ p, power (bins size nperseg) (psd (fun j => ∑ i, A i * Real.cos (2 * Real.pi * m i * j / (min nperseg size : ℕ) + φ i))
        size nperseg fs) mask = .ok p ∧ p * (freq size nperseg fs 1 - freq size nperseg fs 0) = ∑ i ∈ J, A i ^ 2 / 2 := by
  refine ⟨_, power_nodup _ hmask hin, ?_⟩
  have hb : bins size nperseg = min nperseg size / 2 + 1 := rfl
  rw [sum_congr rfl fun k hk => C181_mixture A φ fs hm hn hsep h0 k (mem_range.1 (mem_filter.1 hk).1), sum_comm]
  have hz : ∀ d : ℤ, ¬ |d| ≤ 2 → Spec.lobe d ^ 2 = 0 := by
    intro d hd
    rw [abs_le] at hd
    unfold Spec.lobe
    rw [if_neg (by omega), if_neg (by omega), if_neg (by omega)]
    norm_num
  have hi : ∀ i ∈ univ, ∑ k ∈ (range (bins size nperseg)).filter (fun k : ℕ => (k : ℤ) ∈ mask),
      A i ^ 2 * (min nperseg size : ℕ) / (2 * fs) * (Spec.lobe (k - m i) ^ 2 / (1523 / 5000)) =
      if i ∈ J then A i ^ 2 * (min nperseg size : ℕ) / (2 * fs) else 0 := by
    intro i _
    have := hm i
    have := hn i
    rw [← mul_sum, ← sum_div]
    by_cases h : i ∈ J
    · rw [if_pos h, sum_subset (filter_subset _ _), (lobe_sum (hm i) (by omega)).1, div_self (by norm_num), mul_one]
      intro k hk hk'
      refine hz _ fun hd => hk' (mem_filter.2 ⟨hk, ?_⟩)
      have := hJ i h _ hd
      rwa [add_sub_cancel] at this
    · rw [if_neg h, sum_eq_zero, zero_div, mul_zero]
      intro k hk
      refine hz _ fun hd => hJ' i h _ hd ?_
      rw [add_sub_cancel]
      exact (mem_filter.1 hk).2
  have hn0 : ((min nperseg size : ℕ) : ℝ) ≠ 0 := by exact_mod_cast h0.ne'
  have hl : segmentLength size nperseg = min nperseg size := rfl
  rw [sum_congr rfl hi, sum_ite_mem, univ_inter, sum_mul]
  refine sum_congr rfl fun i _ => ?_
  unfold freq
  rw [hl, Nat.cast_one, Nat.cast_zero, zero_mul, zero_div, sub_zero, one_mul]
  field_simp

/-- the third harmonic alone -/
example := C181_power (m := ![5, 15]) (size := 1000) (nperseg := 64) ![2, 1] ![0, 1] 1 one_pos
  (by intro i; fin_cases i <;> simp) (by intro i; fin_cases i <;> simp)
  (by intro i l; fin_cases i <;> fin_cases l <;> simp) (by norm_num) {1} [12, 13, 14, 15, 16, 17] (by decide) (by decide)
  (by intro i hi d hd; rw [abs_le] at hd; fin_cases i <;> simp at hi ⊢; omega)
  (by intro i hi d hd; rw [abs_le] at hd; fin_cases i <;> simp at hi ⊢; omega)

/-- **C181** With the mask of one tone as signal, the masks of the others as harmonics and a noise mask clear of all tones,
the distortion figures are the ratios of the amplitudes. -/
theorem C181_distortion (A φ : ι → ℝ) (fs : ℝ) (hf : 0 < fs) (hm : ∀ i, 3 ≤ m i) (hn : ∀ i, 2 * (m i + 2) < min nperseg size)
    (hsep : ∀ i l, i ≠ l → m i + 5 ≤ m l ∨ m l + 5 ≤ m i) (i0 : ι) (hA : A i0 ≠ 0) (sm nm hm' : List ℤ)
    (hs : sm.Nodup) (hsin : ∀ z ∈ sm, 0 ≤ z ∧ z < bins size nperseg) (hs1 : ∀ d : ℤ, |d| ≤ 2 → (m i0 : ℤ) + d ∈ sm)
    (hs2 : ∀ i, i ≠ i0 → ∀ d : ℤ, |d| ≤ 2 → (m i : ℤ) + d ∉ sm)
    (hh : hm'.Nodup) (hhin : ∀ z ∈ hm', 0 ≤ z ∧ z < bins size nperseg)
    (hh1 : ∀ i, i ≠ i0 → ∀ d : ℤ, |d| ≤ 2 → (m i : ℤ) + d ∈ hm') (hh2 : ∀ d : ℤ, |d| ≤ 2 → (m i0 : ℤ) + d ∉ hm')
    (hnd : nm.Nodup) (hnin : ∀ z ∈ nm, 0 ≤ z ∧ z < bins size nperseg) (hn1 : ∀ i, ∀ d : ℤ, |d| ≤ 2 → (m i : ℤ) + d ∉ nm) :
    ∃ r, snrExtended (bins size nperseg) (psd (fun j => ∑ i, A i *
        Real.cos (2 * Real.pi * m i * j / (min nperseg size : ℕ) + φ i)) size nperseg fs) sm nm (some hm') = .ok r ∧
      r.thd = Real.sqrt (∑ i ∈ univ.erase i0, A i ^ 2) / |A i0| ∧ r.thdN = r.thd ∧
      ((∃ i, i ≠ i0 ∧ A i ≠ 0) → r.sinad = 1 + A i0 ^ 2 / ∑ i ∈ univ.erase i0, A i ^ 2) := by
  have h0 : 0 < min nperseg size := by
    have := hn i0
    omega
  obtain ⟨s, es, hs'⟩ := C181_power A φ fs hf hm hn hsep h0 {i0} sm hs hsin
    (fun i hi => by rw [mem_singleton] at hi; rw [hi]; exact hs1) (fun i hi => hs2 i fun h => hi (mem_singleton.2 h))
  obtain ⟨h, eh, hh'⟩ := C181_power A φ fs hf hm hn hsep h0 (univ.erase i0) hm' hh hhin
    (fun i hi => hh1 i (mem_erase.1 hi).1) (fun i hi => by
      have : i = i0 := by
        by_contra hne
        exact hi (mem_erase.2 ⟨hne, mem_univ i⟩)
      rw [this]
      exact hh2)
  obtain ⟨n, en, hn'⟩ := C181_power A φ fs hf hm hn hsep h0 ∅ nm hnd hnin (fun i hi => absurd hi (notMem_empty i))
    (fun i _ => hn1 i)
  have hc : 0 < freq size nperseg fs 1 - freq size nperseg fs 0 := by
    have hn0 : (0 : ℝ) < (segmentLength size nperseg : ℕ) := by exact_mod_cast h0
    unfold freq
    rw [Nat.cast_one, Nat.cast_zero, zero_mul, zero_div, sub_zero, one_mul]
    exact div_pos hf hn0
  rw [sum_singleton] at hs'
  rw [sum_empty] at hn'
  obtain rfl : n = 0 := (mul_eq_zero.1 hn').resolve_right hc.ne'
  rw [← sum_div] at hh'
  have hA2 : 0 < A i0 ^ 2 := by positivity
  have es' : s = A i0 ^ 2 / 2 / (freq size nperseg fs 1 - freq size nperseg fs 0) := (eq_div_iff hc.ne').2 hs'
  have eh' : h = (∑ i ∈ univ.erase i0, A i ^ 2) / 2 / (freq size nperseg fs 1 - freq size nperseg fs 0) :=
    (eq_div_iff hc.ne').2 hh'
  have hq : h / s = (∑ i ∈ univ.erase i0, A i ^ 2) / A i0 ^ 2 := by
    rw [es', eh']
    field_simp
  refine ⟨_, by unfold snrExtended; rw [en, es, Option.getD_some, eh], ?_, ?_, fun ⟨i, hi, hAi⟩ => ?_⟩
  · dsimp only
    rw [hq, Real.sqrt_div' _ hA2.le, Real.sqrt_sq_eq_abs]
  · dsimp only
    rw [add_zero]
  · have hp : 0 < ∑ i ∈ univ.erase i0, A i ^ 2 :=
      sum_pos' (fun i _ => sq_nonneg _) ⟨i, mem_erase.2 ⟨hi, mem_univ i⟩, by positivity⟩
    dsimp only
    rw [add_zero, zero_add, es', eh']
    field_simp
    exact add_comm _ _

/-- a tone in bin 5 and its third harmonic, in segments of 64 values -/
example := C181_distortion (m := ![5, 15]) (size := 1000) (nperseg := 64) ![2, 1] ![0, 1] 1 one_pos
  (by intro i; fin_cases i <;> simp) (by intro i; fin_cases i <;> simp)
  (by intro i l; fin_cases i <;> fin_cases l <;> simp) 0 (by simp) [3, 4, 5, 6, 7] [1, 2, 20] [13, 14, 15, 16, 17] (by decide)
  (by decide) (by intro d hd; rw [abs_le] at hd; simp; omega) (by intro i hi d hd; rw [abs_le] at hd; fin_cases i <;> simp at hi ⊢; omega)
  (by decide) (by decide) (by intro i hi d hd; rw [abs_le] at hd; fin_cases i <;> simp at hi ⊢; omega)
  (by intro d hd; rw [abs_le] at hd; simp; omega) (by decide) (by decide)
  (by intro i d hd; rw [abs_le] at hd; fin_cases i <;> simp <;> omega)

end Cbadc.Spectrum
