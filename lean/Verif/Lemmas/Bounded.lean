import Mathlib.Analysis.Calculus.MeanValue
import Mathlib.Analysis.Calculus.Deriv.Mul
import Mathlib.Topology.Order.Compact
import Mathlib.Tactic.Linarith
import Mathlib.Tactic.Positivity
import Mathlib.Tactic.Ring

/-! # The box argument behind boundedness of control-bounded converters -/

namespace Cbadc.Bounded
open Set Finset

/-- one-dimensional barrier: `w` starts at or below `b`, and whenever it touches the line `b + c t` its slope is
at most `c - η` -/
theorem barrier (w w' : ℝ → ℝ) (T b c : ℝ) (hcont : ContinuousOn w (Icc 0 T))
    (hder : ∀ t ∈ Ico 0 T, HasDerivWithinAt w (w' t) (Ici t) t) (h0 : w 0 ≤ b)
    (hb : ∀ t ∈ Ico 0 T, w t = b + c * t → w' t < c) : ∀ t ∈ Icc 0 T, w t ≤ b + c * t := by
  have hB : ∀ t, HasDerivAt (fun t : ℝ => b + c * t) c t := by
    intro t
    simpa using ((hasDerivAt_id t).const_mul c).const_add b
  intro t ht
  refine image_le_of_deriv_right_lt_deriv_boundary' hcont hder (B := fun t => b + c * t) (B' := fun _ => c)
    (by simpa using h0) ?_ (fun t _ => (hB t).hasDerivWithinAt) hb ht
  exact fun t _ => (hB t).continuousAt.continuousWithinAt

/-- one clock period: every state is pushed towards the side opposite to its sign at the start, strongly enough to
never leave the box -/
theorem period_box (N : ℕ) (T : ℝ) (hT : 0 < T) (x x' : ℕ → ℝ → ℝ) (k σ a : ℕ → ℝ)
    (hcont : ∀ n < N, ContinuousOn (x n) (Icc 0 T))
    (hder : ∀ n < N, ∀ t ∈ Ico 0 T, HasDerivWithinAt (x n) (x' n t) (Ici t) t)
    (hk : ∀ n < N, 0 ≤ k n) (hkT : ∀ n < N, 2 * k n * T ≤ 1) (ha : ∀ n < N, a n ≤ 0)
    (hσ : ∀ n < N, σ n = 1 ∨ σ n = -1)
    (h0 : ∀ n < N, 0 ≤ σ n * x n 0 ∧ σ n * x n 0 ≤ 1)
    (hbound : ∀ n < N, ∀ t ∈ Ico 0 T, ∀ δ, 0 ≤ δ → (∀ j < N, |x j t| ≤ 1 + δ) →
      ∃ r, σ n * x' n t = a n * (σ n * x n t) + r ∧ r ≤ k n * δ ∧ -(2 * k n + k n * δ) ≤ r) :
    ∀ n < N, ∀ t ∈ Icc 0 T, |x n t| ≤ 1 := by
  -- the largest excursion
  have hmax : ∀ n < N, ∃ s ∈ Icc (0 : ℝ) T, ∀ t ∈ Icc (0 : ℝ) T, |x n t| ≤ |x n s| := by
    intro n hn
    obtain ⟨s, hs, h⟩ := isCompact_Icc.exists_isMaxOn (nonempty_Icc.mpr hT.le) (hcont n hn).abs
    exact ⟨s, hs, fun t ht => h ht⟩
  choose! s hs hsmax using hmax
  by_contra hcon
  simp only [not_forall, not_le] at hcon
  obtain ⟨n0, hn0, t0, ht0, hbad⟩ := hcon
  obtain ⟨n, hn, hmaxn⟩ := Finset.exists_max_image (Finset.range N) (fun n => |x n (s n)|)
    ⟨n0, Finset.mem_range.mpr hn0⟩
  rw [Finset.mem_range] at hn
  obtain ⟨δ, hδ⟩ : ∃ δ, δ = |x n (s n)| - 1 := ⟨_, rfl⟩
  have hδpos : 0 < δ := by
    have h1 := hsmax n0 hn0 t0 ht0
    have h2 := hmaxn n0 (Finset.mem_range.mpr hn0)
    linarith
  have hall : ∀ j < N, ∀ t ∈ Icc (0 : ℝ) T, |x j t| ≤ 1 + δ := by
    intro j hj t ht
    have h1 := hsmax j hj t ht
    have h2 := hmaxn j (Finset.mem_range.mpr hj)
    linarith
  -- slack
  obtain ⟨η, hη⟩ : ∃ η, η = δ / (4 * T) := ⟨_, rfl⟩
  have hηpos : 0 < η := by rw [hη]; positivity
  have hηT : η * T = δ / 4 := by rw [hη]; field_simp
  have hσsq : σ n * σ n = 1 := by rcases hσ n hn with h | h <;> rw [h] <;> norm_num
  have hσabs : |σ n| = 1 := by rcases hσ n hn with h | h <;> rw [h] <;> norm_num
  have hwcont : ContinuousOn (fun t => σ n * x n t) (Icc 0 T) := (hcont n hn).const_smul (σ n)
  have hwder : ∀ t ∈ Ico 0 T, HasDerivWithinAt (fun t => σ n * x n t) (σ n * x' n t) (Ici t) t :=
    fun t ht => (hder n hn t ht).const_mul (σ n)
  have hbd : ∀ t ∈ Ico (0 : ℝ) T, ∃ r, σ n * x' n t = a n * (σ n * x n t) + r ∧ r ≤ k n * δ ∧
      -(2 * k n + k n * δ) ≤ r := fun t ht =>
    hbound n hn t ht δ hδpos.le (fun j hj => hall j hj t (Ico_subset_Icc_self ht))
  have hkn := hk n hn
  have hup := barrier _ _ T 1 (k n * δ + η) hwcont hwder (h0 n hn).2 (by
    intro t ht htouch
    obtain ⟨r, h1, h2, -⟩ := hbd t ht
    have hpos : 0 ≤ σ n * x n t := by
      rw [htouch]
      have : 0 ≤ (k n * δ + η) * t := mul_nonneg (by positivity) ht.1
      linarith
    have := mul_nonpos_of_nonpos_of_nonneg (ha n hn) hpos
    rw [h1]
    linarith)
  have hlo := barrier (fun t => -(σ n * x n t)) (fun t => -(σ n * x' n t)) T 0 (2 * k n + k n * δ + η)
    hwcont.neg (fun t ht => (hwder t ht).neg) (by have := (h0 n hn).1; linarith) (by
    intro t ht htouch
    obtain ⟨r, h1, -, h3⟩ := hbd t ht
    have hneg : σ n * x n t ≤ 0 := by
      have : 0 ≤ (2 * k n + k n * δ + η) * t := mul_nonneg (by positivity) ht.1
      linarith
    have := mul_nonneg_of_nonpos_of_nonpos (ha n hn) hneg
    rw [h1]
    linarith)
  have hsn := hs n hn
  have h1 := hup _ hsn
  have h2 := hlo _ hsn
  have hT' := hkT n hn
  have e1 : (k n * δ + η) * s n ≤ δ / 2 + δ / 4 := by
    calc (k n * δ + η) * s n ≤ (k n * δ + η) * T := mul_le_mul_of_nonneg_left hsn.2 (by positivity)
      _ = (2 * k n * T) * (δ / 2) + η * T := by ring
      _ ≤ 1 * (δ / 2) + δ / 4 := by
        rw [hηT]
        have := mul_le_mul_of_nonneg_right hT' (show 0 ≤ δ / 2 by positivity)
        linarith
      _ = δ / 2 + δ / 4 := by ring
  have e2 : (2 * k n + k n * δ + η) * s n ≤ 1 + δ / 2 + δ / 4 := by
    calc (2 * k n + k n * δ + η) * s n ≤ (2 * k n + k n * δ + η) * T :=
          mul_le_mul_of_nonneg_left hsn.2 (by positivity)
      _ = (2 * k n * T) * (1 + δ / 2) + η * T := by ring
      _ ≤ 1 * (1 + δ / 2) + δ / 4 := by
        rw [hηT]
        have := mul_le_mul_of_nonneg_right hT' (show 0 ≤ 1 + δ / 2 by positivity)
        linarith
      _ = 1 + δ / 2 + δ / 4 := by ring
  have e3 : |x n (s n)| = |σ n * x n (s n)| := by rw [abs_mul, hσabs, one_mul]
  have e4 : |σ n * x n (s n)| ≤ 1 + δ / 2 + δ / 4 := by
    rw [abs_le]
    constructor <;> linarith
  linarith

end Cbadc.Bounded
