import Verif.Lemmas.Disturbed
import Verif.Props.Spectrum
import Verif.Props.Welch

/-!
# C183: a tone with a disturbance
-/

namespace Cbadc.Spectrum

open Finset

variable {m size nperseg : ℕ}

/-- The bins of the segments of a disturbed tone. -/
theorem disturbed_bins (A φ δ : ℝ) (e : ℕ → ℝ) {n : ℕ} (hm : 3 ≤ m) (hn : 2 * (m + 2) < n)
    (he : ∀ j < size, |e j| ≤ δ) {k : ℕ} (hk : k ≤ n / 2) {s : ℕ} (hs : s < segments size n) :
    abs (segBin (fun j => A * Real.cos (2 * Real.pi * m * j / n + φ) + e j) n s k - |A| * n / 2 * abs (Spec.lobe (k - m))) ≤
      21 / 25 * δ * n := by
  obtain ⟨ψ, h⟩ := rfft_disturbed hm hn hk A φ e (s * (n - n / 2))
  have hb := rfft_disturbance (n := n) (e := e) (δ := δ) (t := s * (n - n / 2)) (by omega)
    (fun j hj => he _ (segment_index (by omega) hs hj)) k
  unfold segBin
  rw [h, ← norm_tone A ψ]
  refine (abs_norm_sub_norm_le _ _).trans ?_
  rwa [add_sub_cancel_left]

/-- **C183** A tone is found in spite of any disturbance of at most a twentieth of its amplitude. -/
theorem C183_found (A φ fs : ℝ) (e : ℕ → ℝ) (hA : A ≠ 0) (hf : 0 < fs) (hm : 3 ≤ m) (hn : 2 * (m + 2) < min nperseg size)
    (he : ∀ j < size, |e j| ≤ |A| / 20) (width : ℤ) (hw : 1 ≤ width) :
    ∃ l : List ℤ, findOne (bins size nperseg)
        (psd (fun j => A * Real.cos (2 * Real.pi * m * j / (min nperseg size : ℕ) + φ) + e j) size nperseg fs) width = .ok l ∧
      l.Pairwise (· < ·) ∧
      ∀ z, z ∈ l ↔ (0 ≤ z ∧ z < bins size nperseg) ∧ (m : ℤ) - width / 2 ≤ z ∧ z < m + width / 2 := by
  have hb : bins size nperseg = min nperseg size / 2 + 1 := rfl
  obtain ⟨l, p, h1, h2, hp, h3, -, h5⟩ := C45_single (bins size nperseg) (by omega)
    (psd (fun j => A * Real.cos (2 * Real.pi * m * j / (min nperseg size : ℕ) + φ) + e j) size nperseg fs) width hw
  have hpos := fun k => (C179_affine (fun j => A * Real.cos (2 * Real.pi * m * j / (min nperseg size : ℕ) + φ) + e j)
    size nperseg fs 1 0 (by omega) (by omega) hf k).1
  have hpm : p = m := by
    by_contra hne
    have h := h3 m (by omega)
    rw [abs_of_nonneg (hpos _), abs_of_nonneg (hpos _)] at h
    obtain ⟨n, hn'⟩ : ∃ n, n = min nperseg size := ⟨_, rfl⟩
    have hl : segmentLength size nperseg = n := hn'.symm
    rw [← hn'] at h hn hb
    have hns : n ≤ size := by omega
    have hn0 : (0 : ℝ) < n := by exact_mod_cast (by omega : 0 < n)
    have hS : 0 < segments size n := Nat.div_pos (by omega) (by omega)
    have hA' : 0 < |A| := abs_pos.2 hA
    have hU := psd_upper (fun j => A * Real.cos (2 * Real.pi * m * j / n + φ) + e j) size nperseg fs hf p hl (by omega) hS
      (U := 167 / 1000 * |A| * n) (fun s hs => by
        have := (abs_le.1 (disturbed_bins A φ (|A| / 20) e hm hn he (by omega : p ≤ n / 2) hs)).2
        have h4 := mul_le_mul_of_nonneg_left (lobe_le (d := (p : ℤ) - m) (by omega)) (by positivity : 0 ≤ |A| * n / 2)
        linarith)
    have hL := psd_lower (fun j => A * Real.cos (2 * Real.pi * m * j / n + φ) + e j) size nperseg fs hf m hl (by omega) hS
      (L := 168 / 1000 * |A| * n) (by positivity) (fun s hs => by
        have := (abs_le.1 (disturbed_bins A φ (|A| / 20) e hm hn he (by omega : m ≤ n / 2) hs)).1
        rw [sub_self, show Spec.lobe 0 = 21 / 50 from if_pos rfl, abs_of_pos (by norm_num : (0 : ℝ) < 21 / 50)] at this
        linarith) (by omega) (by omega)
    have hq : (167 / 1000 * |A| * n) ^ 2 / (fs * (1523 / 5000 * n)) < (168 / 1000 * |A| * n) ^ 2 / (fs * (1523 / 5000 * n)) := by
      apply div_lt_div_of_pos_right _ (by positivity)
      apply pow_lt_pow_left₀ _ (by positivity) (by norm_num)
      have : 0 < |A| * n := by positivity
      linarith
    linarith
  subst hpm
  exact ⟨l, h1, h2, h5⟩

/-- a tone of amplitude 3 in segments of 64, with a square wave on top -/
example := C183_found (m := 5) (size := 1000) (nperseg := 64) 3 0 2 (fun j => (-1) ^ (j / 7) / 10) (by norm_num) (by norm_num)
  (by norm_num) (by norm_num) (fun j _ => by rw [abs_div, abs_pow]; norm_num) 15 (by norm_num)

/-- **C183** More than two bins away from the tone the spectrum is that of the disturbance alone. -/
theorem C183_clear (A φ fs : ℝ) (e : ℕ → ℝ) (hm : 3 ≤ m) (hn : 2 * (m + 2) < min nperseg size) (k : ℕ)
    (hk : k < bins size nperseg) (hkm : 2 < |(k : ℤ) - m|) :
    psd (fun j => A * Real.cos (2 * Real.pi * m * j / (min nperseg size : ℕ) + φ) + e j) size nperseg fs k =
      psd e size nperseg fs k := by
  have hb : bins size nperseg = min nperseg size / 2 + 1 := rfl
  obtain ⟨n, hn'⟩ : ∃ n, n = min nperseg size := ⟨_, rfl⟩
  have hl : segmentLength size nperseg = n := hn'.symm
  rw [← hn'] at hn hb ⊢
  rw [psd_eq _ size nperseg fs k hl (by omega), psd_eq _ size nperseg fs k hl (by omega)]
  congr 1
  refine sum_congr rfl fun s _ => ?_
  obtain ⟨ψ, h⟩ := rfft_disturbed hm hn (by omega : k ≤ n / 2) A φ e (s * (n - n / 2))
  have h0 : Spec.lobe ((k : ℤ) - m) = 0 := by
    rcases lt_abs.1 hkm with h | h <;>
    · unfold Spec.lobe
      rw [if_neg (by omega), if_neg (by omega), if_neg (by omega)]
  unfold segBin
  rw [h, h0, Complex.ofReal_zero, mul_zero, zero_add]

example := C183_clear (m := 5) (size := 1000) (nperseg := 64) 3 0 2 (fun j => (-1) ^ (j / 7) / 10) (by norm_num) (by norm_num) 9
  (by decide) (by decide)

/-- The power of a bounded sequence. -/
theorem averagePower_le (e : ℕ → ℝ) {δ : ℝ} {n : ℕ} (hn : 0 < n) (hns : n ≤ size) (he : ∀ j < size, |e j| ≤ δ) :
    Spec.averagePower e n (segments size n) ≤ 4 * δ ^ 2 := by
  have hS : 0 < segments size n := Nat.div_pos (by omega) (by omega)
  have hS' : (0 : ℝ) < segments size n := by exact_mod_cast hS
  unfold Spec.averagePower
  rw [div_le_iff₀ hS']
  have : ∀ s ∈ range (segments size n), Spec.segmentPower e n (s * (n - n / 2)) ≤ 4 * δ ^ 2 := by
    intro s hs
    unfold Spec.segmentPower
    rw [div_le_iff₀ (window_pos hn), mul_sum]
    refine sum_le_sum fun j hj => ?_
    have h := detrend_le hn (fun i hi => he _ (segment_index hn (mem_range.1 hs) hi)) (mem_range.1 hj)
    rw [mul_comm]
    refine mul_le_mul_of_nonneg_right ?_ (sq_nonneg _)
    have h' := pow_le_pow_left₀ (abs_nonneg _) h 2
    rw [sq_abs] at h'
    have e2 : (2 * δ) ^ 2 = 4 * δ ^ 2 := by ring
    rw [e2] at h'
    exact h'
  refine (sum_le_sum this).trans (le_of_eq ?_)
  rw [sum_const, card_range, nsmul_eq_mul, mul_comm]

/-- **C183** If the disturbance is at most `δ`, a twentieth of the amplitude or less, the signal-to-noise ratio that is reported
for the tone that is found, against the rest of the bins, is at least `(A/(5 δ))^2`. -/
theorem C183_snr (A φ fs δ : ℝ) (e : ℕ → ℝ) (hA : A ≠ 0) (hf : 0 < fs) (hm : 3 ≤ m) (hn : 2 * (m + 2) < min nperseg size)
    (he : ∀ j < size, |e j| ≤ δ) (hδ : 20 * δ ≤ |A|) (width : ℤ) (hw : 6 ≤ width) :
    ∃ (l : List ℤ) (r : Option ℝ), findOne (bins size nperseg)
        (psd (fun j => A * Real.cos (2 * Real.pi * m * j / (min nperseg size : ℕ) + φ) + e j) size nperseg fs) width = .ok l ∧
      snr (bins size nperseg) (psd (fun j => A * Real.cos (2 * Real.pi * m * j / (min nperseg size : ℕ) + φ) + e j)
        size nperseg fs) l (Spec.rest (bins size nperseg) l) = .ok r ∧ ∀ q, r = some q → A ^ 2 ≤ q * (5 * δ) ^ 2 := by
  have he20 : ∀ j < size, |e j| ≤ |A| / 20 := fun j hj => (he j hj).trans (by linarith)
  obtain ⟨l, h1, h2, h3⟩ := C183_found A φ fs e hA hf hm hn he20 width (by omega)
  have hb : bins size nperseg = min nperseg size / 2 + 1 := rfl
  have hrest : ∀ k : ℕ, k < bins size nperseg → ((k : ℤ) ∈ Spec.rest (bins size nperseg) l ↔ (k : ℤ) ∉ l) := by
    intro k hk
    unfold Spec.rest
    rw [List.mem_filter, List.mem_map]
    simp only [decide_eq_true_eq]
    exact ⟨fun h => h.2, fun h => ⟨⟨k, List.mem_range.2 hk, rfl⟩, h⟩⟩
  have hclear : ∀ k < bins size nperseg, (k : ℤ) ∈ Spec.rest (bins size nperseg) l →
      psd (fun j => A * Real.cos (2 * Real.pi * m * j / (min nperseg size : ℕ) + φ) + e j) size nperseg fs k =
        psd e size nperseg fs k := by
    intro k hk hr
    refine C183_clear A φ fs e hm hn k hk ?_
    rw [hrest k hk, h3] at hr
    by_contra hc
    obtain ⟨c1, c2⟩ := abs_le.1 (not_lt.1 hc)
    apply hr
    omega
  have hpe := fun k => (C179_affine e size nperseg fs 1 0 (by omega) (by omega) hf k).1
  have hpx := fun k => (C179_affine (fun j => A * Real.cos (2 * Real.pi * m * j / (min nperseg size : ℕ) + φ) + e j)
    size nperseg fs 1 0 (by omega) (by omega) hf k).1
  have htot := C179_total e size nperseg fs (by omega) (by omega) hf.ne'
  have hL : 2 * ((168 / 1000 * |A| * (min nperseg size : ℕ)) ^ 2 / (fs * (1523 / 5000 * (min nperseg size : ℕ)))) ≤
      psd (fun j => A * Real.cos (2 * Real.pi * m * j / (min nperseg size : ℕ) + φ) + e j) size nperseg fs m := by
    have hl : segmentLength size nperseg = min nperseg size := rfl
    refine psd_lower _ size nperseg fs hf m hl (by omega) (Nat.div_pos (by omega) (by omega)) (by positivity) (fun s hs => ?_)
      (by omega) (by omega)
    have := (abs_le.1 (disturbed_bins A φ (|A| / 20) e hm hn he20 (by omega : m ≤ min nperseg size / 2) hs)).1
    rw [sub_self, show Spec.lobe 0 = 21 / 50 from if_pos rfl, abs_of_pos (by norm_num : (0 : ℝ) < 21 / 50)] at this
    linarith
  obtain ⟨f, hfe⟩ : ∃ f, f = psd (fun j => A * Real.cos (2 * Real.pi * m * j / (min nperseg size : ℕ) + φ) + e j) size nperseg fs :=
    ⟨_, rfl⟩
  rw [← hfe] at h1 hclear hpx hL ⊢
  have hnd : (Spec.rest (bins size nperseg) l).Nodup := by
    unfold Spec.rest
    exact (List.nodup_range.map fun a b h => by exact_mod_cast h).filter _
  have hN := power_nodup (N := bins size nperseg) f hnd (by
    intro i hi
    unfold Spec.rest at hi
    obtain ⟨hi, -⟩ := List.mem_filter.1 hi
    obtain ⟨k, hk, rfl⟩ := List.mem_map.1 hi
    have := List.mem_range.1 hk
    omega)
  have hP := power_nodup f (h2.imp fun h => ne_of_lt h) fun i hi => ((h3 i).1 hi).1
  have hns : min nperseg size ≤ size := min_le_right _ _
  have havg := averagePower_le e (by omega : 0 < min nperseg size) hns he
  have hS : segments size (min nperseg size) =
    (size - min nperseg size / 2) / (min nperseg size - min nperseg size / 2) := rfl
  rw [hS, ← htot] at havg
  have hn0 : (0 : ℝ) < (min nperseg size : ℕ) := by exact_mod_cast (by omega : 0 < min nperseg size)
  have hfreq : freq size nperseg fs 1 - freq size nperseg fs 0 = fs / (min nperseg size : ℕ) := by
    have hl : segmentLength size nperseg = min nperseg size := rfl
    unfold freq
    rw [hl]
    simp
  rw [hfreq] at havg
  have hnoise : ∑ k ∈ (range (bins size nperseg)).filter (fun k : ℕ => (k : ℤ) ∈ Spec.rest (bins size nperseg) l), f k ≤
      ∑ k ∈ range (bins size nperseg), psd e size nperseg fs k := by
    rw [sum_congr rfl fun k hk => hclear k (mem_range.1 (mem_filter.1 hk).1) (mem_filter.1 hk).2]
    exact sum_le_sum_of_subset_of_nonneg (filter_subset _ _) fun k _ _ => hpe k
  have hsig : f m ≤ ∑ k ∈ (range (bins size nperseg)).filter (fun k : ℕ => (k : ℤ) ∈ l), f k := by
    refine single_le_sum (f := f) (fun k _ => hpx k) (mem_filter.2 ⟨mem_range.2 (by omega), ?_⟩)
    rw [h3]
    omega
  refine ⟨l, _, h1, by unfold snr; rw [hN, hP], ?_⟩
  intro q hq
  split_ifs at hq with hpos
  obtain rfl := Option.some.inj hq
  obtain ⟨N, hNe⟩ : ∃ N, N = ∑ k ∈ (range (bins size nperseg)).filter (fun k : ℕ => (k : ℤ) ∈ Spec.rest (bins size nperseg) l), f k :=
    ⟨_, rfl⟩
  obtain ⟨P, hPe⟩ : ∃ P, P = ∑ k ∈ (range (bins size nperseg)).filter (fun k : ℕ => (k : ℤ) ∈ l), f k := ⟨_, rfl⟩
  obtain ⟨n, hne⟩ : ∃ n : ℝ, n = (min nperseg size : ℕ) := ⟨_, rfl⟩
  rw [← hNe] at hnoise hpos ⊢
  rw [← hPe] at hsig ⊢
  rw [← hne] at hn0 havg hL
  have hd : 0 < fs / n := by positivity
  have h4 : N * (fs / n) ≤ 4 * δ ^ 2 := (mul_le_mul_of_nonneg_right hnoise hd.le).trans havg
  have h5 : 4 / 25 * A ^ 2 ≤ P * (fs / n) := by
    refine le_trans ?_ (mul_le_mul_of_nonneg_right (hL.trans hsig) hd.le)
    have : 2 * ((168 / 1000 * |A| * n) ^ 2 / (fs * (1523 / 5000 * n))) * (fs / n) =
        2 * (168 / 1000) ^ 2 * (5000 / 1523) * |A| ^ 2 := by
      field_simp
    rw [this, sq_abs]
    have := sq_nonneg A
    linarith
  rw [div_mul_eq_mul_div, le_div_iff₀ hpos]
  have hP0 : 0 ≤ P * (fs / n) := le_trans (by positivity) h5
  have h6 := mul_le_mul h5 h4 (by positivity) hP0
  have : A ^ 2 * N * (fs / n) * (4 / 25) ≤ P * (5 * δ) ^ 2 * (fs / n) * (4 / 25) := by linarith
  exact le_of_mul_le_mul_right (le_of_mul_le_mul_right this (by norm_num)) hd

example := C183_snr (m := 5) (size := 1000) (nperseg := 64) 3 0 2 (1 / 10) (fun j => (-1) ^ (j / 7) / 10) (by norm_num)
  (by norm_num) (by norm_num) (by norm_num) (fun j _ => by rw [abs_div, abs_pow]; norm_num) (by norm_num) 15 (by norm_num)

end Cbadc.Spectrum
