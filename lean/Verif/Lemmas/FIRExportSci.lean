import Verif.Lemmas.FIRExport

/-! # Reading back numbers in scientific notation -/

namespace Cbadc.Estimator.Export

open Cbadc.Spec.Export

theorem toDigits_eighteen {n : ℕ} (h1 : 10 ^ 17 ≤ n) (h2 : n < 10 ^ 18) :
    ∃ d ds, Nat.toDigits 10 n = d :: ds ∧ ds.length = 17 := by
  have a := (Nat.length_toDigits_le_iff (b := 10) (n := n) (k := 18) (by norm_num) (by norm_num)).mpr h2
  have b := (Nat.length_toDigits_le_iff (b := 10) (n := n) (k := 17) (by norm_num) (by norm_num)).not.mpr
    (by omega)
  cases hd : Nat.toDigits 10 n with
  | nil => exact absurd hd Nat.toDigits_ne_nil
  | cons d ds =>
    rw [hd, List.length_cons] at a b
    exact ⟨d, ds, rfl, by omega⟩

theorem readAbs_digits {ech : Char} (he : ech = 'E' ∨ ech = 'e') {n : ℕ} {d : Char} {ds : List Char}
    (hd : Nat.toDigits 10 n = d :: ds) (hl : ds.length = 17) (e : ℤ) :
    readAbs ech ((d :: '.' :: ds) ++ ech :: sciExp e) = some ((n : ℚ) / 10 ^ 17 * 10 ^ e) := by
  have hed : ech.isDigit = false := by rcases he with rfl | rfl <;> decide
  have hpt : ('.' : Char) ≠ ech := by rcases he with rfl | rfl <;> decide
  have hdd : d.isDigit = true := digit_of_mem (n := n) (hd ▸ List.mem_cons_self)
  have hds : ∀ c ∈ ds, c.isDigit = true := fun c hc => digit_of_mem (n := n) (hd ▸ List.mem_cons_of_mem _ hc)
  have h1 : ech ∉ d :: '.' :: ds := by
    simp only [List.mem_cons, not_or]
    exact ⟨fun h => digit_ne hdd hed h.symm, fun h => hpt h.symm, fun h => digit_ne (hds _ h) hed rfl⟩
  have h2 : ech ∉ sciExp e := by
    intro h
    rcases sciExp_numChar h with h | h | h
    · rw [hed] at h; cases h
    · rcases he with rfl | rfl <;> simp at h
    · rcases he with rfl | rfl <;> simp at h
  have h3 : split '.' (d :: '.' :: ds) = [[d], ds] := by
    have := split_append (sep := '.') (w := [d]) ds (by
      simp only [List.mem_singleton]; exact fun h => digit_ne hdd (by decide) h.symm)
    rw [List.singleton_append] at this
    rw [this, split_single]
    exact fun h => digit_ne (hds _ h) (x := '.') (by decide) rfl
  have h4 : readNat [d] = some (Nat.ofDigitChars 10 [d] 0) := by
    unfold readNat
    rw [if_pos ⟨by simp, by simp [hdd]⟩]
  have h5 : readNat ds = some (Nat.ofDigitChars 10 ds 0) := by
    unfold readNat
    rw [if_pos ⟨by intro h; simp [h] at hl, List.all_eq_true.mpr hds⟩]
  have hn : n = 10 ^ 17 * Nat.ofDigitChars 10 [d] 0 + Nat.ofDigitChars 10 ds 0 := by
    have := Nat.ofDigitChars_toDigits (b := 10) (n := n) (by norm_num) (by norm_num)
    rw [hd, ← List.singleton_append, Nat.ofDigitChars_append, Nat.ofDigitChars_eq_ofDigitChars_zero,
      hl] at this
    exact this.symm
  unfold readAbs
  rw [split_append _ h1, split_single h2]
  dsimp only
  rw [h3]
  dsimp only
  rw [h4, h5, readExp_sciExp]
  dsimp only
  rw [hl]
  congr 1
  have hnq : (n : ℚ) = 10 ^ 17 * (Nat.ofDigitChars 10 [d] 0 : ℕ) + (Nat.ofDigitChars 10 ds 0 : ℕ) := by
    exact_mod_cast congrArg (Nat.cast (R := ℚ)) hn
  rw [hnq]
  field_simp

theorem sci_parts {x : ℚ} (hx : x ≠ 0) {e : ℤ} (he : e = Int.log 10 |x|) {n : ℤ}
    (hn : n = roundHalfEven (|x| * 10 ^ (17 - e))) :
    10 ^ 17 ≤ n ∧ n ≤ 10 ^ 18 ∧ |(n : ℚ) / 10 ^ 17 * 10 ^ e - abs x| ≤ 1 / 2 / 10 ^ 17 * |x| := by
  have hp : 0 < |x| := abs_pos.mpr hx
  have h1 : (10 : ℚ) ^ e ≤ |x| := by
    rw [he]; exact_mod_cast Int.zpow_log_le_self (b := 10) (r := |x|) (by norm_num) hp
  have h2 : |x| < (10 : ℚ) ^ (e + 1) := by
    rw [he]; exact_mod_cast Int.lt_zpow_succ_log_self (b := 10) (by norm_num) |x|
  have hpe : (0 : ℚ) < 10 ^ e := by positivity
  have e1 : (10 : ℚ) ^ (17 - e) = 10 ^ 17 / 10 ^ e := by
    rw [zpow_sub₀ (by norm_num)]; norm_cast
  have e2 : (10 : ℚ) ^ (e + 1) = 10 ^ e * 10 := by rw [zpow_add₀ (by norm_num), zpow_one]
  rw [e1] at hn
  rw [e2] at h2
  have hy1 : (10 ^ 17 : ℚ) ≤ |x| * (10 ^ 17 / 10 ^ e) := by
    rw [mul_div_assoc', le_div_iff₀ hpe]
    nlinarith
  have hy2 : |x| * (10 ^ 17 / 10 ^ e) ≤ (10 ^ 18 : ℚ) := by
    rw [mul_div_assoc', div_le_iff₀ hpe]
    nlinarith
  refine ⟨?_, ?_, ?_⟩
  · rw [hn]; apply roundHalfEven_mono_int; exact_mod_cast hy1
  · rw [hn]; apply roundHalfEven_le_int; exact_mod_cast hy2
  · have hb := roundHalfEven_bound (|x| * (10 ^ 17 / 10 ^ e))
    rw [← hn] at hb
    have : (n : ℚ) / 10 ^ 17 * 10 ^ e - |x| =
        -((|x| * (10 ^ 17 / 10 ^ e) - n) * (10 ^ e / 10 ^ 17)) := by
      field_simp
      ring
    rw [this, abs_neg, abs_mul, abs_of_pos (show (0 : ℚ) < 10 ^ e / 10 ^ 17 by positivity)]
    calc _ ≤ 1 / 2 * (10 ^ e / 10 ^ 17) := by
            apply mul_le_mul_of_nonneg_right hb (by positivity)
      _ ≤ 1 / 2 * (|x| / 10 ^ 17) := by
            apply mul_le_mul_of_nonneg_left _ (by norm_num)
            apply div_le_div_of_nonneg_right h1 (by positivity)
      _ = _ := by ring

/-- The decimal number written for `x` differs from `x` by at most half a unit of the last digit. -/
theorem readSci_sci {ech : Char} (he : ech = 'E' ∨ ech = 'e') (x : ℚ) :
    ∃ d, readSci ech (sci ech x) = some d ∧ |d - x| ≤ 1 / 2 / 10 ^ 17 * |x| := by
  by_cases hx : x = 0
  · refine ⟨0, ?_, by simp [hx]⟩
    rcases he with rfl | rfl
    · rw [hx]; decide +kernel
    · rw [hx]; decide +kernel
  · obtain ⟨h1, h2, h3⟩ := sci_parts hx rfl rfl
    have key : ∃ d : ℚ, |d - abs x| ≤ 1 / 2 / 10 ^ 17 * |x| ∧ ∃ c t,
        sci ech x = (if x < 0 then ['-'] else []) ++ c :: t ∧ c ≠ '-' ∧ readAbs ech (c :: t) = some d := by
      unfold sci
      rw [if_neg hx]
      dsimp only
      generalize hE : Int.log 10 |x| = E at *
      generalize hN : roundHalfEven (|x| * 10 ^ (17 - E)) = n at *
      by_cases h18 : n = 10 ^ 18
      · rw [if_pos h18]
        obtain ⟨d, ds, hd, hl⟩ := toDigits_eighteen (n := ((10 : ℤ) ^ 17).toNat) (by norm_num) (by norm_num)
        refine ⟨(((10 : ℤ) ^ 17).toNat : ℚ) / 10 ^ 17 * 10 ^ (E + 1), ?_, d, '.' :: ds ++ ech :: sciExp (E + 1),
          ?_, ?_, ?_⟩
        · convert h3 using 3
          rw [h18, zpow_add₀ (by norm_num), zpow_one, show ((10 : ℤ) ^ 17).toNat = 10 ^ 17 from rfl]
          push_cast
          ring
        · dsimp only
          rw [hd]
          rfl
        · exact digit_ne (digit_of_mem (hd ▸ List.mem_cons_self)) (by decide)
        · exact readAbs_digits he hd hl _
      · rw [if_neg h18]
        have hn0 : (n.toNat : ℤ) = n := Int.toNat_of_nonneg (by omega)
        obtain ⟨d, ds, hd, hl⟩ := toDigits_eighteen (n := n.toNat) (by omega) (by omega)
        refine ⟨(n.toNat : ℚ) / 10 ^ 17 * 10 ^ E, ?_, d, '.' :: ds ++ ech :: sciExp E, ?_, ?_, ?_⟩
        · rw [show (n.toNat : ℚ) = (n : ℚ) by exact_mod_cast congrArg (Int.cast (R := ℚ)) hn0]
          exact h3
        · dsimp only
          rw [hd]
          rfl
        · exact digit_ne (digit_of_mem (hd ▸ List.mem_cons_self)) (by decide)
        · exact readAbs_digits he hd hl _
    obtain ⟨d, hd, c, t, hs, hc, hr⟩ := key
    by_cases hneg : x < 0
    · rw [if_pos hneg] at hs
      refine ⟨-d, ?_, ?_⟩
      · rw [hs, List.singleton_append, readSci, hr]; rfl
      · rw [abs_of_neg hneg] at hd ⊢
        rw [show -d - x = -(d - -x) by ring, abs_neg]
        exact hd
    · rw [if_neg hneg] at hs
      refine ⟨d, ?_, ?_⟩
      · rw [hs, List.nil_append, readSci, hr]
        intro u hu
        exact hc (List.cons.inj hu).1
      · rw [abs_of_nonneg (not_lt.mp hneg)] at hd ⊢
        exact hd

/-! ### Floating-point numbers are far apart -/

theorem double_gap {x y : ℚ} (hx : Double x) (hy : Double y) (hne : y ≠ x) : |x| / 2 ^ 54 ≤ |x - y| := by
  obtain ⟨m, q, hm, rfl⟩ := hx
  obtain ⟨n, p, hn, rfl⟩ := hy
  have hp : (0 : ℚ) < 2 ^ p := by positivity
  have hq : (0 : ℚ) < 2 ^ q := by positivity
  have hmq : |(m : ℚ)| < 2 ^ 53 := by exact_mod_cast hm
  have hnq : |(n : ℚ)| < 2 ^ 53 := by exact_mod_cast hn
  rcases le_total q p with h | h
  · obtain ⟨k, rfl⟩ : ∃ k : ℕ, p = q + k := ⟨(p - q).toNat, by omega⟩
    have e : (2 : ℚ) ^ (q + (k : ℤ)) = 2 ^ q * 2 ^ k := by rw [zpow_add₀ (by norm_num)]; norm_cast
    rw [e] at hne ⊢
    have hd : m - n * 2 ^ k ≠ 0 := by
      intro h0
      apply hne
      have : (m : ℚ) = n * 2 ^ k := by
        have : m = n * 2 ^ k := by omega
        exact_mod_cast this
      rw [this]; ring
    have h1 : (1 : ℚ) ≤ |((m - n * 2 ^ k : ℤ) : ℚ)| := by exact_mod_cast Int.one_le_abs hd
    have h2 : (m : ℚ) * 2 ^ q - n * (2 ^ q * 2 ^ k) = ((m - n * 2 ^ k : ℤ) : ℚ) * 2 ^ q := by
      push_cast; ring
    rw [h2, abs_mul, abs_mul, abs_of_pos hq, div_le_iff₀ (by positivity)]
    have : |(m : ℚ)| * 2 ^ q ≤ 2 ^ 53 * 2 ^ q := mul_le_mul_of_nonneg_right hmq.le hq.le
    have : 1 * 2 ^ q ≤ |((m - n * 2 ^ k : ℤ) : ℚ)| * 2 ^ q := mul_le_mul_of_nonneg_right h1 hq.le
    linarith
  · obtain ⟨k, rfl⟩ : ∃ k : ℕ, q = p + k := ⟨(q - p).toNat, by omega⟩
    have e : (2 : ℚ) ^ (p + (k : ℤ)) = 2 ^ p * 2 ^ k := by rw [zpow_add₀ (by norm_num)]; norm_cast
    rw [e] at hne hq ⊢
    have hd : m * 2 ^ k - n ≠ 0 := by
      intro h0
      apply hne
      have : (n : ℚ) = m * 2 ^ k := by
        have : n = m * 2 ^ k := by omega
        exact_mod_cast this
      rw [this]; ring
    have h1 : (1 : ℚ) ≤ |((m * 2 ^ k - n : ℤ) : ℚ)| := by exact_mod_cast Int.one_le_abs hd
    have h2 : (m : ℚ) * (2 ^ p * 2 ^ k) - n * 2 ^ p = ((m * 2 ^ k - n : ℤ) : ℚ) * 2 ^ p := by
      push_cast; ring
    have h3 : (2 : ℚ) ^ p ≤ |(m : ℚ) * (2 ^ p * 2 ^ k) - n * 2 ^ p| := by
      rw [h2, abs_mul, abs_of_pos hp]
      nlinarith
    rw [div_le_iff₀ (by positivity)]
    have h4 : |(n : ℚ) * 2 ^ p| ≤ 2 ^ 53 * 2 ^ p := by
      rw [abs_mul, abs_of_pos hp]; exact mul_le_mul_of_nonneg_right hnq.le hp.le
    generalize (m : ℚ) * (2 ^ p * 2 ^ k) = X at *
    generalize (n : ℚ) * 2 ^ p = Y at *
    have h5 : |X| - |Y| ≤ |X - Y| := abs_sub_abs_le_abs_sub X Y
    generalize (2 : ℚ) ^ p = P at *
    linarith

/-- A reader that rounds to the nearest floating-point number finds the number that was written. -/
theorem nearest_of_close {d x : ℚ} (hx : Double x) (h : |d - x| ≤ 1 / 2 / 10 ^ 17 * |x|) :
    NearestDouble d x := by
  refine ⟨hx, fun y hy hne => ?_⟩
  have hg := double_gap hx hy hne
  have ht : |x - y| ≤ |d - x| + |d - y| := by
    have := abs_sub_le x d y
    rw [abs_sub_comm x d] at this
    exact this
  by_cases hx0 : x = 0
  · subst hx0
    rw [abs_zero, mul_zero] at h
    have hz : |d - 0| = 0 := le_antisymm h (abs_nonneg _)
    rw [hz]
    rw [sub_zero, abs_eq_zero] at hz
    rw [hz, zero_sub, abs_neg]
    exact abs_pos.mpr hne
  · have hp : 0 < |x| := abs_pos.mpr hx0
    have : (1 / 2 / 10 ^ 17 * |x|) * 2 < |x| / 2 ^ 54 := by
      rw [lt_div_iff₀ (by positivity)]
      nlinarith
    linarith

end Cbadc.Estimator.Export
