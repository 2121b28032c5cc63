import Mathlib.Tactic.Linarith
import Mathlib.Tactic.FieldSimp
import Mathlib.Tactic.Positivity
import Mathlib.Algebra.Order.Archimedean.Real.Basic
import Mathlib.Analysis.SpecialFunctions.Trigonometric.Basic
import Verif.Model.Interpolation

/-! # Properties of the interpolated signals (C136) -/

namespace Cbadc.Signal

/-- The zeros of the sinc function. -/
theorem npSinc_int {k : ℤ} (hk : k ≠ 0) : npSinc k = 0 := by
  unfold npSinc
  rw [if_neg (by exact_mod_cast hk), mul_comm, Real.sin_int_mul_pi, zero_div]

theorem interp_new {data : List ℝ} {T alpha : ℝ} {number : ℤ} {s : Interp}
    (hs : Interp.new data T alpha number = .ok s) : T ≠ 0 ∧ s = ⟨data, T, 2 / T, alpha, number⟩ := by
  unfold Interp.new pyDiv at hs
  by_cases h : T = 0
  · rw [if_pos h] at hs
    cases hs
  · rw [if_neg h] at hs
    exact ⟨h, (Except.ok.inj hs).symm⟩

/-- An impulse response that vanishes at the other samples changes nothing at a sample. -/
theorem interp_at_sample {s : Interp} (hT : s.T ≠ 0) (hd : s.data ≠ []) (h : ℝ → ℝ)
    (h0 : ∀ j : ℤ, j ≠ 0 → h (j * s.T) = 0) (k : ℕ) :
    s.evaluate h (k * s.T) = .ok (s.data.getD (k % s.data.length) 0) := by
  have hlen : s.data.length ≠ 0 := fun e => hd (List.length_eq_zero_iff.1 e)
  have hq : pyInt ((k : ℝ) * s.T / s.T) = k := by
    rw [mul_div_assoc, div_self hT, mul_one]
    unfold pyInt
    rw [if_pos (by positivity)]
    exact Int.floor_natCast k
  have hidx : ((k : ℤ) % (s.data.length : ℤ)).toNat = k % s.data.length := by
    rw [← Int.natCast_mod, Int.toNat_natCast]
  unfold Interp.evaluate pyDiv
  rw [if_neg hT]
  simp only [bind, Except.bind]
  rw [if_neg hlen, hq, hidx]
  have hround : ∀ i, 1 ≤ i → ∀ res, s.round h (k * s.T) (k % s.data.length) i res = res := by
    intro i hi res
    have hle : k % s.data.length ≤ k := Nat.mod_le _ _
    unfold Interp.round
    have e1 : (if ((k % s.data.length : ℕ) : ℤ) - i > 0 then
        res + h (k * s.T - i * s.T) * s.data.getD (k % s.data.length - i) 0 else res) = res := by
      by_cases hc : ((k % s.data.length : ℕ) : ℤ) - i > 0
      · rw [if_pos hc]
        have := h0 ((k : ℤ) - i) (by omega)
        rw [show ((k : ℝ) * s.T - i * s.T) = (((k : ℤ) - i : ℤ) : ℝ) * s.T by push_cast; ring, this, zero_mul,
          add_zero]
      · rw [if_neg hc]
    simp only [e1]
    by_cases hc : k % s.data.length + i < s.data.length
    · rw [if_pos hc]
      have := h0 ((k : ℤ) + i) (by omega)
      rw [show ((k : ℝ) * s.T + i * s.T) = (((k : ℤ) + i : ℤ) : ℝ) * s.T by push_cast; ring, this, zero_mul,
        add_zero]
    · rw [if_neg hc]
  have hfold : ∀ (l : List ℕ), (∀ i ∈ l, 1 ≤ i) → ∀ res,
      l.foldl (fun res i => s.round h (k * s.T) (k % s.data.length) i res) res = res := by
    intro l
    induction l with
    | nil => intro _ _; rfl
    | cons i l ih =>
      intro hl res
      rw [List.foldl_cons, hround i (hl i List.mem_cons_self)]
      exact ih (fun j hj => hl j (List.mem_cons_of_mem _ hj)) res
  rw [hfold _ (fun i hi => by rw [List.mem_range'_1] at hi; omega)]
  rfl

/-- C136, samples: at time `k T` the band-limited signal has the value of sample `k`, the samples being repeated
periodically. -/
theorem C136_band_limited_samples {data : List ℝ} {T alpha : ℝ} {number : ℤ} {s : Interp}
    (hs : Interp.new data T alpha number = .ok s) (hd : data ≠ []) (k : ℕ) :
    s.evaluate s.sincResponse (k * T) = .ok (data.getD (k % data.length) 0) := by
  obtain ⟨hT, rfl⟩ := interp_new hs
  refine interp_at_sample (s := ⟨data, T, 2 / T, alpha, number⟩) hT hd _ (fun j hj => ?_) k
  unfold Interp.sincResponse
  dsimp only
  rw [show 2 * (2 / T) * ((j : ℝ) * T) = ((4 * j : ℤ) : ℝ) by push_cast; field_simp; ring]
  exact npSinc_int (by omega)

/-- C136, samples, for the raised-cosine signal: likewise, if the roll-off has no pole at a sample. -/
theorem C136_raised_cosine_samples {data : List ℝ} {T alpha : ℝ} {number : ℤ} {s : Interp}
    (hs : Interp.new data T alpha number = .ok s) (hd : data ≠ []) (_hα : ∀ j : ℤ, (8 * alpha * j) ^ 2 ≠ 1) (k : ℕ) :
    s.evaluate s.cosineResponse (k * T) = .ok (data.getD (k % data.length) 0) := by
  obtain ⟨hT, rfl⟩ := interp_new hs
  refine interp_at_sample (s := ⟨data, T, 2 / T, alpha, number⟩) hT hd _ (fun j hj => ?_) k
  unfold Interp.cosineResponse
  dsimp only
  rw [show 2 * (2 / T) * ((j : ℝ) * T) = ((4 * j : ℤ) : ℝ) by push_cast; field_simp; ring,
    npSinc_int (by omega), zero_mul]

example : ∃ s, Interp.new [1, 2, 3] 2 0 8 = .ok s ∧ s.evaluate s.sincResponse 8 = .ok 2 := by
  obtain ⟨s, hs⟩ : ∃ s, Interp.new [1, 2, 3] 2 0 8 = .ok s := by
    refine ⟨⟨[1, 2, 3], 2, 2 / 2, 0, 8⟩, ?_⟩
    unfold Interp.new pyDiv
    rw [if_neg two_ne_zero]
    rfl
  refine ⟨s, hs, ?_⟩
  have := C136_band_limited_samples hs (by simp) 4
  norm_num at this
  exact this

/-- The condition on the roll-off is met. -/
example (j : ℤ) : (8 * (1 : ℝ) * j) ^ 2 ≠ 1 := by
  intro hc
  have : (64 * j ^ 2 : ℤ) = 1 := by
    have : (64 * (j : ℝ) ^ 2) = 1 := by linarith
    exact_mod_cast this
  omega

/-- C136, few terms: with fewer than four samples per value the signal is that of a zero-order hold. -/
theorem C136_hold {data : List ℝ} {T alpha : ℝ} {number : ℤ} {s : Interp}
    (hs : Interp.new data T alpha number = .ok s) (hn : number < 4) (h : ℝ → ℝ) (t : ℝ) :
    s.evaluate h t = (ZOH.mk (some data) T).evaluate t := by
  obtain ⟨hT, rfl⟩ := interp_new hs
  unfold Interp.evaluate ZOH.evaluate pyDiv
  dsimp only
  rw [if_neg hT]
  simp only [bind, Except.bind]
  by_cases hl : data.length = 0
  · rw [if_pos hl, if_pos hl]
  · rw [if_neg hl, if_neg hl, show (number / 2).toNat - 1 = 0 by omega]
    rfl

example : ∃ s, Interp.new [1, 2, 3] 2 0 3 = .ok s := by
  refine ⟨⟨[1, 2, 3], 2, 2 / 2, 0, 3⟩, ?_⟩
  unfold Interp.new pyDiv
  rw [if_neg two_ne_zero]
  rfl

theorem getD_zip (c : ℝ) (x y : List ℝ) (hxy : x.length = y.length) (i : ℕ) :
    (List.zipWith (fun a b => c * a + b) x y).getD i 0 = c * x.getD i 0 + y.getD i 0 := by
  by_cases hi : i < x.length
  · have hi' : i < y.length := hxy ▸ hi
    simp [List.getD_eq_getElem?_getD, hi, hi']
  · have hi' : ¬ i < y.length := hxy ▸ hi
    simp [List.getD_eq_getElem?_getD, hi, hi']

/-- C136, linearity: the signal of a linear combination of samples is the linear combination of the signals. -/
theorem C136_linear {x y : List ℝ} {T alpha : ℝ} {number : ℤ} {sx sy s : Interp} (c : ℝ)
    (hxy : x.length = y.length) (hx : Interp.new x T alpha number = .ok sx) (hy : Interp.new y T alpha number = .ok sy)
    (hs : Interp.new (List.zipWith (fun a b => c * a + b) x y) T alpha number = .ok s) (hne : x ≠ [])
    (h : ℝ → ℝ) (t : ℝ) :
    ∃ u v, sx.evaluate h t = .ok u ∧ sy.evaluate h t = .ok v ∧ s.evaluate h t = .ok (c * u + v) := by
  obtain ⟨hT, rfl⟩ := interp_new hs
  obtain ⟨-, rfl⟩ := interp_new hx
  obtain ⟨-, rfl⟩ := interp_new hy
  have hl : x.length ≠ 0 := fun e => hne (List.length_eq_zero_iff.1 e)
  have hlz : (List.zipWith (fun a b => c * a + b) x y).length = x.length := by simp [← hxy]
  unfold Interp.evaluate pyDiv
  dsimp only
  rw [if_neg hT]
  simp only [bind, Except.bind]
  rw [if_neg hl, if_neg (hxy ▸ hl), if_neg (by rw [hlz]; exact hl), hlz, ← hxy]
  refine ⟨_, _, rfl, rfl, ?_⟩
  set index := (pyInt (t / T) % (x.length : ℤ)).toNat with hindex
  have hfold : ∀ (l : List ℕ) (a b : ℝ),
      l.foldl (fun res i => Interp.round ⟨List.zipWith (fun a b => c * a + b) x y, T, 2 / T, alpha, number⟩ h t index i res)
        (c * a + b) = c * l.foldl (fun res i => Interp.round ⟨x, T, 2 / T, alpha, number⟩ h t index i res) a +
          l.foldl (fun res i => Interp.round ⟨y, T, 2 / T, alpha, number⟩ h t index i res) b := by
    intro l
    induction l with
    | nil => intro a b; rfl
    | cons i l ih =>
      intro a b
      rw [List.foldl_cons, List.foldl_cons, List.foldl_cons, ← ih]
      congr 1
      unfold Interp.round
      simp only [hlz, ← hxy, getD_zip c x y hxy]
      split_ifs <;> ring
  rw [getD_zip c x y hxy, hfold]
  rfl

/-- **C136 is false**, between the samples: for the samples 0, 1, 0 at the times 0, 1, 2 the interpolation with the impulse
response of the signal is negative at time 1/8, but the signal is positive there. -/
theorem C136_interpolation_false : ∃ s v, Interp.new [0, 1, 0] 1 0 4 = .ok s ∧
    s.evaluate s.sincResponse (1 / 8) = .ok v ∧ 0 < v ∧
      ∑ j : Fin 3, ![0, 1, 0] j * s.sincResponse (1 / 8 - j) < 0 := by
  refine ⟨⟨[0, 1, 0], 1, 2 / 1, 0, 4⟩, npSinc (9 / 2), ?_, ?_, ?_, ?_⟩
  · unfold Interp.new pyDiv
    rw [if_neg one_ne_zero]
    rfl
  · unfold Interp.evaluate pyDiv
    dsimp only
    rw [if_neg one_ne_zero]
    simp only [bind, Except.bind]
    have hi : pyInt ((1 : ℝ) / 8 / 1) = 0 := by
      unfold pyInt
      rw [if_pos (by norm_num), Int.floor_eq_zero_iff]
      norm_num
    rw [hi]
    have hr : List.range' 1 (((4 : ℤ) / 2).toNat - 1) = [1] := rfl
    simp only [hr, List.foldl_cons, List.foldl_nil]
    norm_num [Interp.round, Interp.sincResponse]
    rfl
  · unfold npSinc
    rw [if_neg (by norm_num), show Real.pi * (9 / 2) = Real.pi / 2 + (2 : ℕ) * (2 * Real.pi) by push_cast; ring,
      Real.sin_add_nat_mul_two_pi, Real.sin_pi_div_two]
    have := Real.pi_pos
    positivity
  · rw [Fin.sum_univ_three]
    have e : ∀ a b c : ℝ, ![(0 : ℝ), 1, 0] 0 * a + ![(0 : ℝ), 1, 0] 1 * b + ![(0 : ℝ), 1, 0] 2 * c = b := by
      intro a b c
      simp
    rw [e]
    unfold Interp.sincResponse npSinc
    norm_num
    rw [show Real.pi * (7 / 2) = -(Real.pi / 2) + (2 : ℕ) * (2 * Real.pi) by push_cast; ring,
      Real.sin_add_nat_mul_two_pi, Real.sin_neg, Real.sin_pi_div_two]
    have := Real.pi_pos
    apply div_neg_of_neg_of_pos (by norm_num)
    push_cast
    linarith

/-- `C136_linear`: twice the samples 1, 2, 3 plus the samples 0, 5, 0. -/
example (h : ℝ → ℝ) (t : ℝ) : ∃ sx sy s u v, Interp.new [1, 2, 3] 2 0 8 = .ok sx ∧ Interp.new [0, 5, 0] 2 0 8 = .ok sy ∧
    Interp.new (List.zipWith (fun a b => 2 * a + b) [1, 2, 3] [0, 5, 0]) 2 0 8 = .ok s ∧ sx.evaluate h t = .ok u ∧
    sy.evaluate h t = .ok v ∧ s.evaluate h t = .ok (2 * u + v) := by
  have hn : ∀ l : List ℝ, ∃ s, Interp.new l 2 0 8 = .ok s := fun l => by
    refine ⟨⟨l, 2, 2 / 2, 0, 8⟩, ?_⟩
    unfold Interp.new pyDiv
    rw [if_neg two_ne_zero]
    rfl
  obtain ⟨sx, hx⟩ := hn [1, 2, 3]
  obtain ⟨sy, hy⟩ := hn [0, 5, 0]
  obtain ⟨s, hs⟩ := hn (List.zipWith (fun a b => 2 * a + b) [1, 2, 3] [0, 5, 0])
  obtain ⟨u, v, h1, h2, h3⟩ := C136_linear (x := [1, 2, 3]) (y := [0, 5, 0]) 2 rfl hx hy hs (by simp) h t
  exact ⟨sx, sy, s, u, v, hx, hy, hs, h1, h2, h3⟩


end Cbadc.Signal
