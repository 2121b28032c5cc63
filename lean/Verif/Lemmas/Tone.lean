import Verif.Lemmas.Welch

/-!
# The spectrum of a tone
-/

namespace Cbadc.Spectrum

open Finset Complex

/-- The powers of the root of unity. -/
noncomputable def tw (n : ℕ) (d : ℤ) (j : ℕ) : ℂ := exp (-(2 * Real.pi * I / n)) ^ (d * j)

theorem tw_add (n : ℕ) (a b : ℤ) (j : ℕ) : tw n (a + b) j = tw n a j * tw n b j := by
  unfold tw
  rw [add_mul, zpow_add₀ (exp_ne_zero _)]

theorem tw_exp (n : ℕ) (d : ℤ) (j : ℕ) : tw n d j = exp (-(2 * Real.pi * d * j / n * I)) := by
  unfold tw
  rw [← exp_int_mul]
  congr 1
  push_cast
  ring

theorem tw_nat (n k j : ℕ) : exp (-(2 * Real.pi * I / n)) ^ (k * j) = tw n k j := by
  unfold tw
  rw [← zpow_natCast]
  push_cast
  rfl

/-- The sum over a period. -/
theorem tw_sum {n : ℕ} (hn : n ≠ 0) (d : ℤ) : ∑ j ∈ range n, tw n d j = if (n : ℤ) ∣ d then (n : ℂ) else 0 := by
  have hw := root_primitive n hn
  have hz : ∀ j ∈ range n, tw n d j = (exp (-(2 * Real.pi * I / n)) ^ d) ^ j := by
    intro j _
    unfold tw
    rw [zpow_mul, zpow_natCast]
  rw [sum_congr rfl hz]
  by_cases h : (n : ℤ) ∣ d
  · rw [if_pos h, (hw.zpow_eq_one_iff_dvd d).2 h]
    simp
  · rw [if_neg h]
    have hne : exp (-(2 * Real.pi * I / n)) ^ d ≠ 1 := fun e => h ((hw.zpow_eq_one_iff_dvd d).1 e)
    have := mul_geom_sum (exp (-(2 * Real.pi * I / n)) ^ d) n
    rw [← zpow_natCast, zpow_comm, zpow_natCast, hw.pow_eq_one, one_zpow, sub_self] at this
    exact (mul_eq_zero.1 this).resolve_left (sub_ne_zero.2 hne)

theorem cos_tw (n : ℕ) (d : ℤ) (j : ℕ) : (Real.cos (2 * Real.pi * d * j / n) : ℂ) = (tw n d j + tw n (-d) j) / 2 := by
  rw [ofReal_cos, Complex.cos, tw_exp, tw_exp]
  push_cast
  rw [add_comm]
  congr 3 <;> ring_nf

theorem cos_tw_phase (n : ℕ) (d : ℤ) (j : ℕ) (φ : ℝ) : (Real.cos (2 * Real.pi * d * j / n + φ) : ℂ) =
    (exp (φ * I) * tw n (-d) j + exp (-(φ * I)) * tw n d j) / 2 := by
  rw [ofReal_cos, Complex.cos, tw_exp, tw_exp, ← exp_add, ← exp_add]
  push_cast
  congr 3 <;> ring_nf

theorem window_tw {n : ℕ} (hn : 2 ≤ n) (j : ℕ) : (Spec.window n j : ℂ) =
    21 / 50 - 1 / 4 * (tw n 1 j + tw n (-1) j) + 1 / 25 * (tw n 1 j ^ 2 + tw n (-1) j ^ 2) := by
  have h1 := cos_tw n 1 j
  have h2 := cos_tw n 2 j
  rw [show (2 : ℤ) = 1 + 1 by norm_num, tw_add, show (-(1 + 1) : ℤ) = -1 + -1 by norm_num, tw_add] at h2
  unfold Spec.window
  rw [if_neg (by omega), show 2 * Real.pi * ((j : ℝ) / n) = 2 * Real.pi * ((1 : ℤ) : ℝ) * j / n by push_cast; ring,
    show 4 * Real.pi * ((j : ℝ) / n) = 2 * Real.pi * ((1 + 1 : ℤ) : ℝ) * j / n by push_cast; ring]
  rw [ofReal_add, ofReal_sub, ofReal_mul, ofReal_mul, h1, h2]
  push_cast
  ring

/-- The sum of the squared window. -/
theorem window_sq {n : ℕ} (hn : 5 ≤ n) : ∑ j ∈ range n, Spec.window n j ^ 2 = 1523 / 5000 * n := by
  have hd : ∀ d : ℤ, 0 < d → d < 5 → ∑ j ∈ range n, tw n d j = 0 ∧ ∑ j ∈ range n, tw n (-d) j = 0 := by
    intro d h0 h5
    have : ¬ (n : ℤ) ∣ d := fun h => by
      have := Int.le_of_dvd h0 h
      omega
    rw [tw_sum (by omega), tw_sum (by omega), if_neg this, if_neg (by rwa [dvd_neg])]
    exact ⟨rfl, rfl⟩
  have key : ∀ j ∈ range n, ((Spec.window n j ^ 2 : ℝ) : ℂ) = 1523 / 5000 + (-23 / 100) * (tw n 1 j + tw n (-1) j) +
      (961 / 10000) * (tw n 2 j + tw n (-2) j) + (-1 / 50) * (tw n 3 j + tw n (-3) j) + 1 / 625 * (tw n 4 j + tw n (-4) j) := by
    intro j _
    have h : tw n 1 j * tw n (-1) j = 1 := by
      rw [← tw_add]
      simp [tw]
    rw [ofReal_pow, window_tw (by omega), show (2 : ℤ) = 1 + 1 by norm_num, show (3 : ℤ) = 1 + 1 + 1 by norm_num,
      show (4 : ℤ) = 1 + 1 + 1 + 1 by norm_num]
    simp only [neg_add, tw_add]
    linear_combination (1 / 8 + 2 / 625 * (tw n 1 j * tw n (-1) j + 1) - 1 / 50 * (tw n 1 j + tw n (-1) j)) * h
  have : ((∑ j ∈ range n, Spec.window n j ^ 2 : ℝ) : ℂ) = ((1523 / 5000 * n : ℝ) : ℂ) := by
    rw [ofReal_sum, sum_congr rfl key]
    simp only [sum_add_distrib, ← mul_sum, (hd 1 (by norm_num) (by norm_num)).1, (hd 1 (by norm_num) (by norm_num)).2,
      (hd 2 (by norm_num) (by norm_num)).1, (hd 2 (by norm_num) (by norm_num)).2, (hd 3 (by norm_num) (by norm_num)).1,
      (hd 3 (by norm_num) (by norm_num)).2, (hd 4 (by norm_num) (by norm_num)).1, (hd 4 (by norm_num) (by norm_num)).2]
    simp
    ring
  exact_mod_cast this

theorem rfft_tone {n m k : ℕ} (hm : 3 ≤ m) (hn : 2 * (m + 2) < n) (hk : k ≤ n / 2) (A φ : ℝ) :
    rfft n (fun j => Spec.window n j * (A * Real.cos (2 * Real.pi * m * j / n + φ))) k =
      A * n / 2 * exp (φ * I) * Spec.lobe (k - m) := by
  have hn0 : n ≠ 0 := by omega
  have term : ∀ j ∈ range n, ((Spec.window n j * (A * Real.cos (2 * Real.pi * m * j / n + φ)) : ℝ) : ℂ) *
      exp (-(2 * Real.pi * I / n)) ^ (k * j) = A / 2 * (exp (φ * I) * (21 / 50 * tw n (k + -m) j
        - 1 / 4 * (tw n (k + -m + 1) j + tw n (k + -m + -1) j) + 1 / 25 * (tw n (k + -m + 1 + 1) j + tw n (k + -m + -1 + -1) j)) +
        exp (-(φ * I)) * (21 / 50 * tw n (k + m) j
        - 1 / 4 * (tw n (k + m + 1) j + tw n (k + m + -1) j) + 1 / 25 * (tw n (k + m + 1 + 1) j + tw n (k + m + -1 + -1) j))) := by
    intro j _
    have hc := cos_tw_phase n m j φ
    rw [Int.cast_natCast] at hc
    rw [ofReal_mul, ofReal_mul, window_tw (by omega), hc, tw_nat]
    simp only [tw_add]
    ring
  have hz : ∀ d : ℤ, -n < d → d < n → ∑ j ∈ range n, tw n d j = if d = 0 then (n : ℂ) else 0 := by
    intro d h1 h2
    rw [tw_sum hn0]
    by_cases h : d = 0
    · rw [if_pos h, if_pos (by rw [h]; exact dvd_zero _)]
    · rw [if_neg h, if_neg]
      intro hd
      have := Int.le_of_dvd (abs_pos.2 h) ((dvd_abs _ _).2 hd)
      rw [le_abs] at this
      omega
  have hk2 : 2 * k ≤ n := by omega
  unfold rfft
  rw [sum_congr rfl term, ← mul_sum, sum_add_distrib, ← mul_sum, ← mul_sum, sum_add_distrib, sum_sub_distrib, sum_add_distrib,
    sum_sub_distrib]
  simp only [← mul_sum, sum_add_distrib]
  rw [hz (k + -m) (by omega) (by omega), hz (k + -m + 1) (by omega) (by omega), hz (k + -m + -1) (by omega) (by omega),
    hz (k + -m + 1 + 1) (by omega) (by omega), hz (k + -m + -1 + -1) (by omega) (by omega), hz (k + m) (by omega) (by omega),
    hz (k + m + 1) (by omega) (by omega), hz (k + m + -1) (by omega) (by omega), hz (k + m + 1 + 1) (by omega) (by omega),
    hz (k + m + -1 + -1) (by omega) (by omega), if_neg (by omega : ¬ (k + m : ℤ) = 0), if_neg (by omega : ¬ (k + m + 1 : ℤ) = 0),
    if_neg (by omega : ¬ (k + m + -1 : ℤ) = 0), if_neg (by omega : ¬ (k + m + 1 + 1 : ℤ) = 0),
    if_neg (by omega : ¬ (k + m + -1 + -1 : ℤ) = 0)]
  unfold Spec.lobe
  obtain ⟨d, hd⟩ : ∃ d : ℤ, d = k - m := ⟨_, rfl⟩
  have e1 : (k + -m : ℤ) = d := by omega
  rw [e1, ← hd]
  by_cases h0 : d = 0
  · subst h0
    norm_num
    ring
  by_cases h1 : d = 1 ∨ d = -1
  · rcases h1 with rfl | rfl <;> norm_num <;> ring
  by_cases h2 : d = 2 ∨ d = -2
  · rcases h2 with rfl | rfl <;> norm_num <;> ring
  rw [if_neg h0, if_neg h0, if_neg h1, if_neg h2, if_neg (by omega), if_neg (by omega), if_neg (by omega), if_neg (by omega)]
  push_cast
  ring

/-- A tone with a whole number of periods has no mean. -/
theorem tone_mean {n m : ℕ} (hm : 0 < m) (hn : m < n) (φ : ℝ) : ∑ j ∈ range n, Real.cos (2 * Real.pi * m * j / n + φ) = 0 := by
  have : ((∑ j ∈ range n, Real.cos (2 * Real.pi * m * j / n + φ) : ℝ) : ℂ) = 0 := by
    have key : ∀ j ∈ range n, ((Real.cos (2 * Real.pi * m * j / n + φ) : ℝ) : ℂ) =
        exp (φ * I) / 2 * tw n (-m) j + exp (-(φ * I)) / 2 * tw n m j := by
      intro j _
      have hc := cos_tw_phase n m j φ
      rw [Int.cast_natCast] at hc
      rw [hc]
      ring
    have hd : ¬ (n : ℤ) ∣ m := fun h => by
      have := Int.le_of_dvd (by omega) h
      omega
    rw [ofReal_sum, sum_congr rfl key, sum_add_distrib, ← mul_sum, ← mul_sum, tw_sum (by omega), tw_sum (by omega), if_neg hd,
      if_neg (by rwa [dvd_neg])]
    ring
  exact_mod_cast this

/-- The squared coefficients within `h` bins on the left and `h - 1` on the right of a tone. -/
theorem lobe_sum {m N : ℕ} (hm : 3 ≤ m) (hN : m + 2 < N) :
    (∑ k ∈ range N, Spec.lobe (k - m) ^ 2 = 1523 / 5000) ∧
    ∀ h : ℤ, 2 ≤ h → ∑ k ∈ (range N).filter (fun k : ℕ => (m : ℤ) - h ≤ k ∧ (k : ℤ) < m + h), Spec.lobe (k - m) ^ 2 =
      if h = 2 then 303 / 1000 else 1523 / 5000 := by
  obtain ⟨q, rfl⟩ : ∃ q, m = q + 2 := ⟨m - 2, by omega⟩
  have h4 : ∑ k ∈ Ico q (q + 4), Spec.lobe ((k : ℤ) - ((q + 2 : ℕ) : ℤ)) ^ 2 = 303 / 1000 := by
    rw [sum_Ico_eq_sum_range, Nat.add_sub_cancel_left]
    have e : ∀ i : ℕ, ((q + i : ℕ) : ℤ) - ((q + 2 : ℕ) : ℤ) = i - 2 := fun i => by omega
    simp only [e, sum_range_succ, sum_range_zero]
    norm_num [Spec.lobe]
  have h5 : ∑ k ∈ Ico q (q + 5), Spec.lobe ((k : ℤ) - ((q + 2 : ℕ) : ℤ)) ^ 2 = 1523 / 5000 := by
    rw [sum_Ico_succ_top (by omega), h4]
    have e : ((q + 4 : ℕ) : ℤ) - ((q + 2 : ℕ) : ℤ) = 2 := by omega
    rw [e]
    norm_num [Spec.lobe]
  have hz : ∀ d : ℤ, d < -2 ∨ 2 < d → Spec.lobe d ^ 2 = 0 := by
    intro d hd
    unfold Spec.lobe
    rw [if_neg (by omega), if_neg (by omega), if_neg (by omega)]
    norm_num
  refine ⟨?_, fun h hh => ?_⟩
  · rw [← h5]
    refine (sum_subset (fun k hk => ?_) fun k _ hk => hz _ ?_).symm
    · rw [mem_Ico] at hk
      rw [mem_range]
      omega
    · rw [mem_Ico] at hk
      omega
  · by_cases e : h = 2
    · rw [if_pos e, ← h4]
      congr 1
      ext k
      rw [mem_filter, mem_range, mem_Ico]
      omega
    · rw [if_neg e, ← h5]
      refine (sum_subset (fun k hk => ?_) fun k _ hk => hz _ ?_).symm
      · rw [mem_Ico] at hk
        rw [mem_filter, mem_range]
        omega
      · rw [mem_Ico] at hk
        omega

/-- The power of a mask without repetitions. -/
theorem power_nodup {N : ℕ} (f : ℕ → ℝ) {l : List ℤ} (hl : l.Nodup) (h : ∀ i ∈ l, 0 ≤ i ∧ i < N) :
    power N f l = .ok (∑ k ∈ (range N).filter (fun k : ℕ => (k : ℤ) ∈ l), f k) := by
  induction l with
  | nil => simp [power]
  | cons a l ih =>
    rw [List.nodup_cons] at hl
    obtain ⟨ha0, haN⟩ := h a (by simp)
    obtain ⟨b, rfl⟩ := Int.eq_ofNat_of_zero_le ha0
    have hb : b < N := by exact_mod_cast haN
    rw [power, at1, if_pos (h _ (by simp)), ih hl.2 fun i hi => h i (by simp [hi])]
    have : (range N).filter (fun k : ℕ => (k : ℤ) ∈ (b : ℤ) :: l) = insert b ((range N).filter (fun k : ℕ => (k : ℤ) ∈ l)) := by
      ext k
      simp only [mem_filter, mem_range, mem_insert, List.mem_cons, Nat.cast_inj]
      constructor
      · rintro ⟨h1, rfl | h2⟩
        · exact .inl rfl
        · exact .inr ⟨h1, h2⟩
      · rintro (rfl | ⟨h1, h2⟩)
        · exact ⟨hb, .inl rfl⟩
        · exact ⟨h1, .inr h2⟩
    rw [this, sum_insert (by rw [mem_filter]; exact fun h => hl.1 h.2)]
    rfl

end Cbadc.Spectrum
