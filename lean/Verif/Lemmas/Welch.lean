import Mathlib.RingTheory.RootsOfUnity.Complex
import Mathlib.Algebra.Order.Chebyshev
import Mathlib.Algebra.Ring.GeomSum
import Mathlib.Tactic.Linarith
import Verif.Model.Welch
import Verif.Spec.Welch

/-!
# Parseval's identity for one-sided spectra
-/

namespace Cbadc.Spectrum

open Finset Complex

theorem root_primitive (n : ℕ) (hn : n ≠ 0) : IsPrimitiveRoot (exp (-(2 * Real.pi * I / n))) n := by
  rw [exp_neg]
  exact (isPrimitiveRoot_exp n hn).inv

theorem root_norm (n : ℕ) : ‖exp (-(2 * Real.pi * I / n))‖ = 1 := by
  have : (-(2 * Real.pi * I / n) : ℂ) = ((-(2 * Real.pi / n) : ℝ) : ℂ) * I := by
    push_cast
    ring
  rw [this, norm_exp_ofReal_mul_I]

/-- The columns of the Fourier transform are orthogonal. -/
theorem orthogonal {n : ℕ} {w : ℂ} (hw : IsPrimitiveRoot w n) (h1 : ‖w‖ = 1) {j l : ℕ} (hj : j < n) (hl : l < n) :
    ∑ k ∈ range n, w ^ (k * j) * (starRingEnd ℂ) (w ^ (k * l)) = if j = l then (n : ℂ) else 0 := by
  have hc : w * (starRingEnd ℂ) w = 1 := by
    rw [mul_conj, normSq_eq_norm_sq, h1]
    norm_num
  have hz : ∀ k, w ^ (k * j) * (starRingEnd ℂ) (w ^ (k * l)) = (w ^ j * (starRingEnd ℂ) w ^ l) ^ k := by
    intro k
    rw [map_pow, mul_pow, ← pow_mul, ← pow_mul, mul_comm k j, mul_comm k l]
  rw [sum_congr rfl fun k _ => hz k]
  by_cases h : j = l
  · subst h
    rw [if_pos rfl, ← mul_pow, hc]
    simp
  · rw [if_neg h]
    have hne : w ^ j * (starRingEnd ℂ) w ^ l ≠ 1 := by
      intro e
      apply h
      refine hw.pow_inj hj hl ?_
      calc w ^ j = w ^ j * (starRingEnd ℂ) w ^ l * w ^ l := by
            rw [mul_assoc, ← mul_pow, mul_comm ((starRingEnd ℂ) w), hc, one_pow, mul_one]
        _ = w ^ l := by rw [e, one_mul]
    have hp : (w ^ j * (starRingEnd ℂ) w ^ l) ^ n = 1 := by
      rw [mul_pow, ← pow_mul, ← pow_mul, mul_comm j, mul_comm l, pow_mul, pow_mul, ← map_pow, hw.pow_eq_one]
      simp
    have := mul_geom_sum (w ^ j * (starRingEnd ℂ) w ^ l) n
    rw [hp, sub_self] at this
    exact (mul_eq_zero.1 this).resolve_left (sub_ne_zero.2 hne)

theorem norm_sq_rfft (n : ℕ) (y : ℕ → ℝ) (k : ℕ) :
    ((‖rfft n y k‖ ^ 2 : ℝ) : ℂ) = ∑ j ∈ range n, ∑ l ∈ range n, (y j : ℂ) * y l *
      (exp (-(2 * Real.pi * I / n)) ^ (k * j) * (starRingEnd ℂ) (exp (-(2 * Real.pi * I / n)) ^ (k * l))) := by
  rw [← normSq_eq_norm_sq, ← mul_conj, rfft, map_sum, sum_mul_sum]
  refine sum_congr rfl fun j _ => sum_congr rfl fun l _ => ?_
  rw [map_mul, conj_ofReal]
  ring

/-- Parseval's identity. -/
theorem parseval (n : ℕ) (y : ℕ → ℝ) : ∑ k ∈ range n, ‖rfft n y k‖ ^ 2 = n * ∑ j ∈ range n, y j ^ 2 := by
  rcases Nat.eq_zero_or_pos n with rfl | hn
  · simp
  have hw := root_primitive n hn.ne'
  have h1 := root_norm n
  have h : ((∑ k ∈ range n, ‖rfft n y k‖ ^ 2 : ℝ) : ℂ) = ((n * ∑ j ∈ range n, y j ^ 2 : ℝ) : ℂ) := by
    rw [ofReal_sum, sum_congr rfl fun k _ => norm_sq_rfft n y k, sum_comm]
    push_cast
    rw [mul_sum]
    refine sum_congr rfl fun j hj => ?_
    rw [sum_comm]
    have : ∀ l ∈ range n, ∑ k ∈ range n, (y j : ℂ) * y l *
        (exp (-(2 * Real.pi * I / n)) ^ (k * j) * (starRingEnd ℂ) (exp (-(2 * Real.pi * I / n)) ^ (k * l))) =
        if j = l then (n : ℂ) * (y j : ℂ) ^ 2 else 0 := by
      intro l hl
      rw [← mul_sum, orthogonal hw h1 (mem_range.1 hj) (mem_range.1 hl)]
      by_cases e : j = l
      · subst e
        rw [if_pos rfl, if_pos rfl]
        ring
      · rw [if_neg e, if_neg e, mul_zero]
    rw [sum_congr rfl this, sum_ite_eq, if_pos hj]
  exact_mod_cast h

/-- The spectrum of a real sequence is symmetric. -/
theorem rfft_symm {n : ℕ} (y : ℕ → ℝ) {k : ℕ} (hk : k ≤ n) (hn : n ≠ 0) : ‖rfft n y (n - k)‖ = ‖rfft n y k‖ := by
  have hw := root_primitive n hn
  have h1 := root_norm n
  have hc : exp (-(2 * Real.pi * I / n)) * (starRingEnd ℂ) (exp (-(2 * Real.pi * I / n))) = 1 := by
    rw [mul_conj, normSq_eq_norm_sq, h1]
    norm_num
  have : rfft n y (n - k) = (starRingEnd ℂ) (rfft n y k) := by
    rw [rfft, rfft, map_sum]
    refine sum_congr rfl fun j _ => ?_
    rw [map_mul, conj_ofReal, map_pow]
    congr 1
    have e : exp (-(2 * Real.pi * I / n)) ^ ((n - k) * j) * exp (-(2 * Real.pi * I / n)) ^ (k * j) = 1 := by
      rw [← pow_add, ← add_mul, Nat.sub_add_cancel hk, pow_mul, hw.pow_eq_one, one_pow]
    calc exp (-(2 * Real.pi * I / n)) ^ ((n - k) * j)
        = exp (-(2 * Real.pi * I / n)) ^ ((n - k) * j) * (exp (-(2 * Real.pi * I / n)) *
            (starRingEnd ℂ) (exp (-(2 * Real.pi * I / n)))) ^ (k * j) := by rw [hc, one_pow, mul_one]
      _ = exp (-(2 * Real.pi * I / n)) ^ ((n - k) * j) * exp (-(2 * Real.pi * I / n)) ^ (k * j) *
            (starRingEnd ℂ) (exp (-(2 * Real.pi * I / n))) ^ (k * j) := by rw [mul_pow]; ring
      _ = _ := by rw [e, one_mul]
  rw [this, RCLike.norm_conj]

/-- Folding a symmetric two-sided spectrum. -/
theorem fold {n : ℕ} (hn : 0 < n) {F : ℕ → ℝ} (hF : ∀ k ≤ n, F (n - k) = F k) :
    ∑ k ∈ range (n / 2 + 1), oneSided n k (F k) = ∑ k ∈ range n, F k := by
  have hone : ∀ k ∈ range (n / 2 + 1), oneSided n k (F k) = F k + if 0 < k ∧ 2 * k < n then F k else 0 := by
    intro k hk
    rw [mem_range] at hk
    unfold oneSided
    by_cases hp : n % 2 = 1
    · rw [if_pos hp]
      by_cases h : 1 ≤ k
      · rw [if_pos h, if_pos ⟨h, by omega⟩]
        ring
      · rw [if_neg h, if_neg (by omega), add_zero]
    · rw [if_neg hp]
      by_cases h : 1 ≤ k ∧ k < n / 2
      · rw [if_pos h, if_pos ⟨h.1, by omega⟩]
        ring
      · rw [if_neg h, if_neg (by omega), add_zero]
  rw [sum_congr rfl hone, sum_add_distrib]
  have hr : range (n / 2 + 1) = (range n).filter fun k => 2 * k ≤ n := by
    ext k
    rw [mem_filter, mem_range, mem_range]
    omega
  have hs : ∑ k ∈ range (n / 2 + 1), (if 0 < k ∧ 2 * k < n then F k else 0) =
      ∑ k ∈ (range n).filter fun k => ¬ 2 * k ≤ n, F k := by
    rw [← sum_filter]
    refine sum_nbij' (fun k => n - k) (fun k => n - k) ?_ ?_ ?_ ?_ ?_
    · intro k hk
      simp only [mem_filter, mem_range] at hk ⊢
      omega
    · intro k hk
      simp only [mem_filter, mem_range] at hk ⊢
      omega
    · intro k hk
      simp only [mem_filter, mem_range] at hk
      show n - (n - k) = k
      omega
    · intro k hk
      simp only [mem_filter, mem_range] at hk
      show n - (n - k) = k
      omega
    · intro k hk
      simp only [mem_filter, mem_range] at hk
      exact (hF k (by omega)).symm
  rw [hs, hr, sum_filter_add_sum_filter_not]

theorem oneSided_div (n k : ℕ) (a b : ℝ) : oneSided n k (a / b) = oneSided n k a / b := by
  unfold oneSided
  split_ifs <;> ring

theorem window_eq (n j : ℕ) : blackman n false j = Spec.window n j := by
  unfold blackman Spec.window
  by_cases h : n ≤ 1
  · rw [if_pos h, if_pos h]
  · rw [if_neg h, if_neg h]
    dsimp only
    rw [if_neg (by simp), mul_div_assoc, mul_div_assoc]
    norm_num

/-- The squared window has a positive sum. -/
theorem window_pos {n : ℕ} (hn : 0 < n) : 0 < ∑ j ∈ range n, Spec.window n j ^ 2 := by
  by_cases h : n ≤ 1
  · obtain rfl : n = 1 := by omega
    norm_num [Spec.window]
  · refine sum_pos' (fun j _ => sq_nonneg _) ⟨1, mem_range.2 (by omega), ?_⟩
    have hn2 : (2 : ℝ) ≤ n := by exact_mod_cast (by omega : 2 ≤ n)
    have hx0 : 0 < 2 * Real.pi * (((1 : ℕ) : ℝ) / n) := by
      have := Real.pi_pos
      positivity
    have hx1 : 2 * Real.pi * (((1 : ℕ) : ℝ) / n) ≤ Real.pi := by
      have h1 : ((1 : ℕ) : ℝ) / n ≤ 1 / 2 := by
        rw [Nat.cast_one]
        exact div_le_div_of_nonneg_left (by norm_num) (by norm_num) hn2
      have := mul_le_mul_of_nonneg_left h1 (by positivity : (0 : ℝ) ≤ 2 * Real.pi)
      linarith
    have hc : Real.cos (2 * Real.pi * (((1 : ℕ) : ℝ) / n)) < 1 := by
      rw [← Real.cos_zero]
      exact Real.cos_lt_cos_of_nonneg_of_le_pi le_rfl hx1 hx0
    have h4 : 4 * Real.pi * (((1 : ℕ) : ℝ) / n) = 2 * (2 * Real.pi * (((1 : ℕ) : ℝ) / n)) := by ring
    unfold Spec.window
    rw [if_neg h, h4, Real.cos_two_mul]
    refine pow_pos ?_ 2
    nlinarith [Real.cos_le_one (2 * Real.pi * (((1 : ℕ) : ℝ) / n))]

theorem power_range (f : ℕ → ℝ) (N : ℕ) (m : ℕ) (hm : m ≤ N) :
    power N f ((List.range m).map fun k : ℕ => (k : ℤ)) = .ok (∑ k ∈ range m, f k) := by
  have key : ∀ l : List ℕ, (∀ k ∈ l, k < N) → power N f (l.map fun k : ℕ => (k : ℤ)) = .ok (l.map f).sum := by
    intro l
    induction l with
    | nil => intro _; rfl
    | cons a l ih =>
      intro h
      rw [List.map_cons, power, at1, if_pos ⟨Int.natCast_nonneg _, by exact_mod_cast h a (by simp)⟩,
        ih fun k hk => h k (by simp [hk])]
      simp
  rw [key _ fun k hk => (List.mem_range.1 hk).trans_le hm]
  rfl

theorem power_ok {N : ℕ} (f : ℕ → ℝ) {l : List ℤ} (h : ∀ i ∈ l, 0 ≤ i ∧ i < N) : ∃ p, power N f l = .ok p := by
  induction l with
  | nil => exact ⟨0, rfl⟩
  | cons a l ih =>
    obtain ⟨p, hp⟩ := ih fun i hi => h i (by simp [hi])
    exact ⟨_, by rw [power, at1, if_pos (h a (by simp)), hp]⟩

theorem blackman_factor (n : ℕ) (sym : Bool) (j : ℕ) (hn : ¬ n ≤ 1) :
    ∃ c, c = Real.cos (2 * Real.pi * j / (if sym then (n : ℝ) - 1 else n)) ∧
    blackman n sym j = 4 / 25 * ((1 - c) * (17 / 8 - c)) := by
  refine ⟨_, rfl, ?_⟩
  unfold blackman
  rw [if_neg hn]
  dsimp only
  rw [show 4 * Real.pi * (j : ℝ) / (if sym = true then (n : ℝ) - 1 else n) =
      2 * (2 * Real.pi * j / (if sym = true then (n : ℝ) - 1 else n)) by ring, Real.cos_two_mul]
  ring

theorem blackman_nonneg (n : ℕ) (sym : Bool) (j : ℕ) : 0 ≤ blackman n sym j := by
  by_cases h : n ≤ 1
  · unfold blackman
    rw [if_pos h]
    exact zero_le_one
  · obtain ⟨c, hc, e⟩ := blackman_factor n sym j h
    rw [e]
    have : c ≤ 1 := hc ▸ Real.cos_le_one _
    exact mul_nonneg (by norm_num) (mul_nonneg (by linarith) (by linarith))

theorem coherentGain_pos {N : ℕ} (h0 : N ≠ 0) (h2 : N ≠ 2) : 0 < coherentGain N := by
  unfold coherentGain
  refine div_pos ?_ (by exact_mod_cast Nat.pos_of_ne_zero h0)
  by_cases h : N ≤ 1
  · obtain rfl : N = 1 := by omega
    norm_num [blackman]
  · refine sum_pos' (fun j _ => blackman_nonneg _ _ _) ⟨1, mem_range.2 (by omega), ?_⟩
    obtain ⟨c, hc, e⟩ := blackman_factor N true 1 h
    rw [e]
    have hn2 : (2 : ℝ) ≤ (N : ℝ) - 1 := by
      have : (3 : ℝ) ≤ N := by exact_mod_cast (by omega : 3 ≤ N)
      linarith
    rw [if_pos rfl, Nat.cast_one, mul_one] at hc
    have hx0 : 0 < 2 * Real.pi / ((N : ℝ) - 1) := div_pos (by positivity) (by linarith)
    have hx1 : 2 * Real.pi / ((N : ℝ) - 1) ≤ Real.pi := by
      rw [div_le_iff₀ (by linarith)]
      nlinarith [Real.pi_pos]
    have : c < 1 := by
      rw [hc]
      exact (Real.cos_lt_cos_of_nonneg_of_le_pi le_rfl hx1 hx0).trans_eq Real.cos_zero
    exact mul_pos (by norm_num) (mul_pos (by linarith) (by linarith))

/-- The mean of squares is at least the square of the mean. -/
theorem gain_le (N : ℕ) : coherentGain N ^ 2 ≤ noiseGain N := by
  unfold coherentGain noiseGain
  rcases Nat.eq_zero_or_pos N with rfl | h
  · simp
  have hN : (0 : ℝ) < N := by exact_mod_cast h
  have := sq_sum_le_card_mul_sum_sq (s := range N) (f := fun j => blackman N true j)
  rw [card_range] at this
  rw [div_pow, div_le_div_iff₀ (by positivity) hN]
  nlinarith

end Cbadc.Spectrum
