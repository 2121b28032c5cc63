import Mathlib.Algebra.BigOperators.Intervals
import Mathlib.Analysis.InnerProductSpace.PiL2
import Mathlib.Analysis.InnerProductSpace.Projection.Minimal
import Mathlib.Tactic.Linarith
import Verif.Model.AdaptiveIIR
import Verif.Props.Adaptive

/-!
# C137: training of the recursive adaptive filter
-/

namespace Cbadc.Adaptive
open Finset

variable {𝕜 : Type*} [RCLike 𝕜]

/-! ### Specification -/

/-- The difference equation of a recursive filter with forward coefficients `num`, feedback coefficients `den` and
offset `c`: the next output from the inputs from `n` on and the `K` outputs before `n`. -/
def oneStep (M K : ℕ) (num : ℕ → ℕ → 𝕜) (den : ℕ → 𝕜) (c : 𝕜) (x : ℕ → ℕ → 𝕜) (y : ℕ → 𝕜) (n : ℕ) : 𝕜 :=
  ∑ m ∈ range M, ∑ k ∈ range K, num m k * x (n + k) m + c + ∑ k ∈ range K, den k * y (n - K + k)

/-- The sum of the squared errors of the difference equation at the times from `K` to before `N`. -/
def stepError (M K N : ℕ) (num : ℕ → ℕ → 𝕜) (den : ℕ → 𝕜) (c : 𝕜) (x : ℕ → ℕ → 𝕜) (y : ℕ → 𝕜) : ℝ :=
  ∑ n ∈ Ico K N, ‖oneStep M K num den c x y n - y n‖ ^ 2

/-- The solver returns least squares solutions. -/
def Solver.Exact (solve : Solver 𝕜) : Prop := ∀ n p X y, LstSq n p X y (solve n p X y)

private theorem exists_lstsq (n p : ℕ) (X : ℕ → ℕ → 𝕜) (y : ℕ → 𝕜) : ∃ w, LstSq n p X y w := by
  let T : (Fin p → 𝕜) →ₗ[𝕜] EuclideanSpace 𝕜 (Fin n) :=
    { toFun := fun w => WithLp.toLp 2 fun b => ∑ i : Fin p, X b i * w i
      map_add' := fun u v => by ext b; simp [mul_add, Finset.sum_add_distrib]
      map_smul' := fun a u => by ext b; simp [Finset.mul_sum, mul_left_comm] }
  let u : EuclideanSpace 𝕜 (Fin n) := WithLp.toLp 2 fun b => y b
  obtain ⟨v, ⟨w, rfl⟩, hv⟩ := (LinearMap.range T).exists_norm_eq_iInf_of_complete_subspace
    (Submodule.complete_of_finiteDimensional _) u
  have hT : ∀ w : ℕ → 𝕜, ‖u - T fun i => w i‖ ^ 2 =
      ∑ b ∈ range n, ‖(∑ i ∈ range p, X b i * w i) - y b‖ ^ 2 := by
    intro w
    rw [EuclideanSpace.norm_sq_eq, Finset.sum_range]
    refine Finset.sum_congr rfl fun b _ => ?_
    rw [norm_sub_rev, Finset.sum_range]
    rfl
  refine ⟨fun i => if h : i < p then w ⟨i, h⟩ else 0, fun w' => ?_⟩
  rw [← hT, ← hT]
  have e : (fun i : Fin p => if h : (i : ℕ) < p then w ⟨i, h⟩ else 0) = w := by
    funext i
    rw [dif_pos i.2]
  rw [e, hv]
  refine pow_le_pow_left₀ (Real.iInf_nonneg fun _ => norm_nonneg _) (ciInf_le (f := fun w : LinearMap.range T =>
    ‖u - w‖) ⟨0, ?_⟩ ⟨T fun i => w' i, ⟨_, rfl⟩⟩) 2
  rintro _ ⟨x, rfl⟩
  exact norm_nonneg _

/-- There are exact solvers. -/
theorem exists_solver : ∃ solve : Solver 𝕜, solve.Exact :=
  ⟨fun n p X y => (exists_lstsq n p X y).choose, fun n p X y => (exists_lstsq n p X y).choose_spec⟩

/-! ### The fit -/

/-- The array of the windows of inputs and references. -/
private def win (s y : A2 𝕜) (K d : ℕ) (b m k : ℕ) : 𝕜 :=
  if m < s.c then s.f (d + (K + b + k)) m else y.f (m - s.c) (b + k)

omit [RCLike 𝕜] in
private theorem train_eq (f : Filter 𝕜) (s y : A2 𝕜) (d : ℕ) (hne : s.c + y.r ≠ f.K)
    (hs : 2 * f.K + d ≤ s.r) (hy : 2 * f.K ≤ y.c) : ∃ s' y', f.reshapeIIR s y d = .ok (s', y') ∧
      f.prepare s' y' 0 = .ok
      (⟨min (s.r - d) y.c - f.K - f.K, s.c + y.r, f.K, win s y f.K d⟩,
        ⟨y.r, min (s.r - d) y.c - f.K - f.K, fun l i => y.f l (f.K + i)⟩) := by
  unfold Filter.reshapeIIR
  rw [if_neg (by omega)]
  refine ⟨_, _, rfl, ?_⟩
  have h1 : sliceStart s.r (f.K + d) = f.K + d := by
    unfold sliceStart
    rw [if_pos (by omega)]
    omega
  unfold Filter.prepare batch
  rw [h1, if_neg (by omega)]
  dsimp only
  rw [if_neg (by simp; omega)]
  dsimp only
  simp only [if_neg hne]
  have h2 : min (min (s.r - (f.K + d)) (y.c - f.K) - (0 : ℤ).toNat - f.K) (min (s.r - (f.K + d)) (y.c - f.K)) =
      min (s.r - d) y.c - f.K - f.K := by
    simp only [Int.toNat_zero]
    omega
  rw [h2]
  congr 3
  · funext b m k
    unfold win
    simp only [Int.toNat_zero, Nat.zero_add]
    by_cases hm : m < s.c
    · rw [if_pos hm, if_pos hm]
      congr 1
      omega
    · rw [if_neg hm, if_neg hm]

/-- A row of the training system is the difference equation. -/
private theorem row_eq (s y : A2 ℝ) (K d b : ℕ) (w : ℕ → ℝ) (num : ℕ → ℕ → ℝ) (den : ℕ → ℝ)
    (hn : ∀ m < s.c, ∀ k < K, w (m * K + k) = num m k) (hd : ∀ k < K, w (s.c * K + k) = den k) :
    ∑ i ∈ range ((s.c + 1) * K + 1), star (flatten (s.c + 1) K (win s y K d b) i) * w i =
      oneStep s.c K num den (w ((s.c + 1) * K)) (fun i m => s.f (d + i) m) (y.f 0) (K + b) := by
  rw [flat_sum (s.c + 1) K _ (fun m k => if m < s.c then num m k else den k)]
  · unfold oneStep
    rw [Finset.sum_range_succ]
    have e1 : ∑ m ∈ range s.c, ∑ k ∈ range K, star (win s y K d b m k) * (if m < s.c then num m k else den k) =
        ∑ m ∈ range s.c, ∑ k ∈ range K, num m k * s.f (d + (K + b + k)) m := by
      refine Finset.sum_congr rfl fun m hm => Finset.sum_congr rfl fun k _ => ?_
      have := Finset.mem_range.1 hm
      unfold win
      rw [if_pos this, if_pos this, star_trivial, mul_comm]
    have e2 : ∑ k ∈ range K, star (win s y K d b s.c k) * (if s.c < s.c then num s.c k else den k) =
        ∑ k ∈ range K, den k * y.f 0 (K + b - K + k) := by
      refine Finset.sum_congr rfl fun k _ => ?_
      unfold win
      rw [if_neg (lt_irrefl _), if_neg (lt_irrefl _), star_trivial, mul_comm, Nat.sub_self,
        show K + b - K + k = b + k by omega]
    rw [e1, e2]
    ring
  · intro m hm k hk
    by_cases c : m < s.c
    · rw [if_pos c, hn m c k hk]
    · have : m = s.c := by omega
      subst this
      rw [if_neg c, hd k hk]

private theorem sum_rows (K n : ℕ) (g : ℕ → ℝ) : ∑ b ∈ range n, g (K + b) = ∑ i ∈ Ico K (K + n), g i := by
  rw [Finset.sum_Ico_eq_sum_range, Nat.add_sub_cancel_left]

/-- **C137** (partial: real data, one reference, and windows of a length different from the number of channels plus
one): `lstsq` with a delay accepts enough data, and the fitted filter has the least error in the difference equation,
relating the reference at `n` to the inputs from `n + delay` on and to the `K` references before, over all times with
complete windows but the last.  What is returned is that error, unless numpy returns nothing. -/
theorem C137_fit_partial (solve : Solver ℝ) (hsolve : solve.Exact) (f : Filter ℝ) (s y : A2 ℝ) (d : ℕ)
    (hL : f.L = 1) (hr : y.r = 1) (hne : s.c + 1 ≠ f.K) (hs : 2 * f.K + d ≤ s.r) (hy : 2 * f.K ≤ y.c) :
    ∃ f' r c, f.iirFit solve s y d = .ok (f', r) ∧ f'.K = f.K ∧ f'.L = 1 ∧ f'.M = s.c + 1 ∧ f'.off = .flat c ∧
      (∀ num den o, stepError s.c f.K (min (s.r - d) y.c - f.K) (f'.h 0) (f'.h 0 s.c) (c 0)
          (fun i m => s.f (d + i) m) (y.f 0) ≤
        stepError s.c f.K (min (s.r - d) y.c - f.K) num den o (fun i m => s.f (d + i) m) (y.f 0)) ∧
      (r = 0 ∨ r = stepError s.c f.K (min (s.r - d) y.c - f.K) (f'.h 0) (f'.h 0 s.c) (c 0)
          (fun i m => s.f (d + i) m) (y.f 0)) := by
  obtain ⟨s', y', h1, h2⟩ := train_eq f s y d (by omega) hs hy
  have hN : f.K + (min (s.r - d) y.c - f.K - f.K) = min (s.r - d) y.c - f.K := by omega
  unfold Filter.iirFit
  rw [h1]
  dsimp only
  rw [h2]
  dsimp only
  rw [if_neg (by omega)]
  refine ⟨_, _, _, rfl, rfl, hL, by rw [hr], rfl, ?_, ?_⟩
  · intro num den o
    dsimp only
    have key := hsolve (min (s.r - d) y.c - f.K - f.K) ((s.c + y.r) * f.K + 1)
      (fun b i => star (flatten (s.c + y.r) f.K (win s y f.K d b) i)) (fun i => y.f 0 (f.K + i))
      (fun i => if i < s.c * f.K then num (i / f.K) (i % f.K) else if i < (s.c + 1) * f.K then den (i - s.c * f.K)
        else o)
    generalize solve (min (s.r - d) y.c - f.K - f.K) ((s.c + y.r) * f.K + 1)
      (fun b i => star (flatten (s.c + y.r) f.K (win s y f.K d b) i)) (fun i => y.f 0 (f.K + i)) = w at key ⊢
    rw [hr] at key ⊢
    simp only [row_eq s y f.K d _ w (fun m k => w (m * f.K + k)) (fun k => w (s.c * f.K + k)) (fun _ _ _ _ => rfl)
      (fun _ _ => rfl)] at key
    have e : ∀ b, ∑ i ∈ range ((s.c + 1) * f.K + 1), star (flatten (s.c + 1) f.K (win s y f.K d b) i) *
        (if i < s.c * f.K then num (i / f.K) (i % f.K) else if i < (s.c + 1) * f.K then den (i - s.c * f.K)
        else o) = oneStep s.c f.K num den o (fun i m => s.f (d + i) m) (y.f 0) (f.K + b) := by
      intro b
      rw [row_eq s y f.K d b (fun i => if i < s.c * f.K then num (i / f.K) (i % f.K) else
        if i < (s.c + 1) * f.K then den (i - s.c * f.K) else o) num den]
      · congr 1
        rw [if_neg (by rw [Nat.add_mul]; omega), if_neg (lt_irrefl _)]
      · intro m hm' k hk'
        have hlt : m * f.K + k < s.c * f.K := by
          calc m * f.K + k < m * f.K + f.K := by omega
            _ = (m + 1) * f.K := by ring
            _ ≤ s.c * f.K := Nat.mul_le_mul_right _ hm'
        rw [if_pos hlt, Nat.mul_comm m, Nat.mul_add_div (by omega), Nat.mul_add_mod, Nat.div_eq_of_lt hk',
          Nat.mod_eq_of_lt hk', Nat.add_zero]
      · intro k hk
        rw [if_neg (by omega), if_pos (by rw [Nat.add_mul]; omega), Nat.add_sub_cancel_left]
    simp only [e] at key
    unfold stepError
    rw [← hN, ← sum_rows f.K _ fun n => ‖oneStep s.c f.K _ _ _ _ _ n - y.f 0 n‖ ^ 2,
      ← sum_rows f.K _ fun n => ‖oneStep s.c f.K num den o _ _ n - y.f 0 n‖ ^ 2]
    exact key
  · unfold residualNorm
    dsimp only
    by_cases hc : NoResiduals (min (s.r - d) y.c - f.K - f.K) ((s.c + y.r) * f.K + 1)
      (fun b i => star (flatten (s.c + y.r) f.K (win s y f.K d b) i))
    · left
      rw [if_pos hc]
    · right
      rw [if_neg hc, hL, Finset.sum_range_one, Real.sqrt_sq (Finset.sum_nonneg fun _ _ => by positivity)]
      clear hc
      generalize solve (min (s.r - d) y.c - f.K - f.K) ((s.c + y.r) * f.K + 1)
        (fun b i => star (flatten (s.c + y.r) f.K (win s y f.K d b) i)) (fun i => y.f 0 (f.K + i)) = w
      rw [hr]
      simp only [row_eq s y f.K d _ w (fun m k => w (m * f.K + k)) (fun k => w (s.c * f.K + k)) (fun _ _ _ _ => rfl)
        (fun _ _ => rfl)]
      unfold stepError
      rw [← hN, ← sum_rows f.K _ fun n => ‖oneStep s.c f.K _ _ _ _ _ n - y.f 0 n‖ ^ 2, Nat.add_sub_cancel_left]

/-- Two samples per window, one input. -/
example (solve : Solver ℝ) (hsolve : solve.Exact) : ∃ f' r, (Filter.new 2 3 1 : Filter ℝ).iirFit solve
    ⟨9, 1, fun i _ => (i : ℝ)⟩ ⟨1, 8, fun _ i => (i : ℝ) ^ 2⟩ (1 : ℕ) = .ok (f', r) ∧ f'.M = 2 := by
  obtain ⟨f', r, c, h, -, -, hM, -⟩ := C137_fit_partial solve hsolve (Filter.new 2 3 1) ⟨9, 1, fun i _ => (i : ℝ)⟩
    ⟨1, 8, fun _ i => (i : ℝ) ^ 2⟩ 1 rfl rfl (by simp [Filter.new]) (by simp [Filter.new]) (by simp [Filter.new])
  exact ⟨f', r, h, hM⟩

/-! ### Prediction -/

private theorem predict_flat (f : Filter 𝕜) (s : A2 𝕜) (hL : f.L = 1) (v : ℕ → 𝕜) (hv : f.off = .flat v)
    (hM : s.c + 1 = f.M) (hK : f.K ≤ s.r) (hne : s.c ≠ f.K) :
    ∃ out, f.iirPredict s = .ok out ∧ out.length = s.r - f.K ∧ ∀ n < out.length,
      out.getD n 0 = ∑ m ∈ range s.c, ∑ k ∈ range f.K, f.h 0 m k * s.f (n + k) m + star (v 0) +
        ∑ k ∈ range f.K, f.h 0 s.c k * (if n + k < f.K then 0 else out.getD (n + k - f.K) 0) := by
  have hM' : f.M - 1 = s.c := by omega
  unfold Filter.iirPredict batch
  rw [if_neg (by omega)]
  dsimp only
  rw [if_neg (by omega), if_neg (by omega), hv, hM']
  dsimp only
  obtain ⟨h1, h2⟩ := iirLoop_spec f.K (f.h 0 s.c) (fun i => ∑ m ∈ range s.c, ∑ k ∈ range f.K, f.h 0 m k *
    (if s.c = f.K then s.f (i + m) k else s.f (i + k) m) + star (v 0)) (s.r - f.K) 0 (fun _ => 0)
  refine ⟨_, rfl, h1, fun n hn => ?_⟩
  rw [h2 n (by omega), Nat.zero_add]
  simp only [if_neg hne]

private theorem stepError_zero {M K N : ℕ} {num : ℕ → ℕ → 𝕜} {den : ℕ → 𝕜} {c : 𝕜} {x : ℕ → ℕ → 𝕜} {y : ℕ → 𝕜}
    (h : stepError M K N num den c x y ≤ 0) : ∀ n, K ≤ n → n < N → y n = oneStep M K num den c x y n := by
  intro n h1 h2
  unfold stepError at h
  have h3 := (Finset.sum_eq_zero_iff_of_nonneg fun i _ => by positivity).1
    (le_antisymm h (Finset.sum_nonneg fun i _ => by positivity)) n (Finset.mem_Ico.2 ⟨h1, h2⟩)
  exact (sub_eq_zero.1 (norm_eq_zero.1 (pow_eq_zero_iff (two_ne_zero)|>.1 h3))).symm

/-- **C137** (partial, as above, and as many input channels as taps excluded): if the reference obeys the difference
equation of some recursive filter, then after `lstsq` the prediction from the input that starts `delay` samples later
is the reference, at every time with complete windows, provided it is for the first `K` times. -/
theorem C137_recover_partial (solve : Solver ℝ) (hsolve : solve.Exact) (f : Filter ℝ) (s y : A2 ℝ) (d : ℕ)
    (hL : f.L = 1) (hr : y.r = 1) (hne : s.c + 1 ≠ f.K) (hne' : s.c ≠ f.K) (hs : 2 * f.K + d ≤ s.r)
    (hy : 2 * f.K ≤ y.c) (num : ℕ → ℕ → ℝ) (den : ℕ → ℝ) (o : ℝ)
    (hgen : ∀ n, f.K ≤ n → n < min (s.r - d) y.c - f.K →
      y.f 0 n = oneStep s.c f.K num den o (fun i m => s.f (d + i) m) (y.f 0) n) :
    ∃ f' r out, f.iirFit solve s y d = .ok (f', r) ∧
      f'.iirPredict ⟨s.r - d, s.c, fun i m => s.f (d + i) m⟩ = .ok out ∧ out.length = s.r - d - f.K ∧
      ((∀ n < f.K, out.getD n 0 = y.f 0 n) → ∀ n < min (s.r - d) y.c - f.K, out.getD n 0 = y.f 0 n) := by
  obtain ⟨f', r, c, h1, h2, h3, h4, h5, h6, -⟩ := C137_fit_partial solve hsolve f s y d hL hr hne hs hy
  have h7 : stepError s.c f.K (min (s.r - d) y.c - f.K) num den o (fun i m => s.f (d + i) m) (y.f 0) = 0 := by
    unfold stepError
    refine Finset.sum_eq_zero fun n hn => ?_
    obtain ⟨a, b⟩ := Finset.mem_Ico.1 hn
    rw [← hgen n a b, sub_self, norm_zero]
    norm_num
  have h8 := stepError_zero (h7 ▸ h6 num den o)
  obtain ⟨out, p1, p2, p3⟩ := predict_flat f' ⟨s.r - d, s.c, fun i m => s.f (d + i) m⟩ h3 c h5 h4.symm
    (by rw [h2]; dsimp only; omega) (by rw [h2]; exact hne')
  dsimp only at p2 p3
  rw [h2] at p2 p3
  refine ⟨f', r, out, h1, p1, p2, fun h0 n => ?_⟩
  induction n using Nat.strong_induction_on with
  | _ n ih =>
    intro hn
    by_cases hk : n < f.K
    · exact h0 n hk
    · rw [p3 n (by omega), h8 n (by omega) hn]
      unfold oneStep
      rw [star_trivial]
      congr 1
      refine Finset.sum_congr rfl fun k hk' => ?_
      have := Finset.mem_range.1 hk'
      rw [if_neg (by omega), ih (n + k - f.K) (by omega) (by omega), show n + k - f.K = n - f.K + k by omega]

/-- The running sum `y[n] = x[n] + y[n-1]` with one tap: any exact solver finds a filter that predicts it. -/
example (solve : Solver ℝ) (hsolve : solve.Exact) : ∃ f' r out, (Filter.new 3 1 1 : Filter ℝ).iirFit solve
    ⟨9, 2, fun _ m => if m = 0 then 1 else 0⟩ ⟨1, 9, fun _ i => (i : ℝ) + 1⟩ (0 : ℕ) = .ok (f', r) ∧
    f'.iirPredict ⟨9, 2, fun _ m => if m = 0 then 1 else 0⟩ = .ok out ∧ (out.getD 0 0 = 1 → out.getD 7 0 = 8) := by
  obtain ⟨f', r, out, h1, h2, -, h3⟩ := C137_recover_partial solve hsolve (Filter.new 3 1 1)
    ⟨9, 2, fun _ m => if m = 0 then 1 else 0⟩ ⟨1, 9, fun _ i => (i : ℝ) + 1⟩ 0 rfl rfl (by simp [Filter.new])
    (by simp [Filter.new]) (by simp [Filter.new]) (by simp [Filter.new])
    (fun m _ => if m = 0 then 1 else 0) (fun _ => 1) 0 (by
      intro n hn _
      simp only [Filter.new] at hn ⊢
      simp [oneStep, Nat.cast_sub hn]
      ring)
  refine ⟨f', r, out, h1, h2, fun h0 => ?_⟩
  have := h3 (by
    intro n hn
    simp only [Filter.new] at hn
    have : n = 0 := by omega
    subst this
    simpa using h0) 7 (by simp [Filter.new])
  rw [this]
  norm_num

/-! ### The search for the delay -/

private theorem searchLoop_spec {F : Type*} (fit : ℤ → Res (F × ℝ)) (score : Option (F → Res ℝ)) (loss : ℤ → ℝ)
    (ds : List ℤ) (h : ∀ d ∈ ds, ∃ g r, fit d = .ok (g, r) ∧ lossOf score g r = .ok (loss d)) :
    ∀ (pre : List ℤ) (best : Option (ℤ × ℝ)), (pre ++ ds).Pairwise (· < ·) →
      (match best with
        | none => pre = []
        | some (d, b) => b = loss d ∧ d ∈ pre ∧ ∀ e ∈ pre, loss d ≤ loss e ∧ (e < d → loss d < loss e)) →
      ∃ best', searchLoop fit score ds best = .ok best' ∧
        (match best' with
        | none => pre ++ ds = []
        | some (d, b) => b = loss d ∧ d ∈ pre ++ ds ∧
          ∀ e ∈ pre ++ ds, loss d ≤ loss e ∧ (e < d → loss d < loss e)) := by
  induction ds with
  | nil =>
    intro pre best _ hb
    exact ⟨best, rfl, by rw [List.append_nil]; exact hb⟩
  | cons d ds ih =>
    intro pre best hp hb
    obtain ⟨g, r, hg, hl⟩ := h d List.mem_cons_self
    unfold searchLoop
    rw [hg]
    dsimp only
    rw [hl]
    dsimp only
    have hlt : ∀ e ∈ pre, e < d := fun e he => (List.pairwise_append.1 hp).2.2 e he d List.mem_cons_self
    have key : ∀ best₁, _ := ih (fun e he => h e (List.mem_cons_of_mem _ he)) (pre ++ [d])
    simp only [List.append_assoc, List.singleton_append] at key
    match best with
    | none =>
      dsimp only at hb ⊢
      subst hb
      refine key _ hp ⟨rfl, by simp, fun e he => ?_⟩
      rw [List.nil_append, List.mem_singleton] at he
      subst he
      exact ⟨le_refl _, fun h => absurd h (lt_irrefl _)⟩
    | some (d', b) =>
      dsimp only at hb ⊢
      obtain ⟨rfl, hm, ha⟩ := hb
      by_cases hc : loss d < loss d'
      · rw [if_pos hc]
        refine key _ hp ⟨rfl, by simp, fun e he => ?_⟩
        rcases List.mem_append.1 he with he | he
        · have := (ha e he).1
          exact ⟨by linarith, fun _ => by linarith⟩
        · rw [List.mem_singleton.1 he]
          exact ⟨le_refl _, fun h => absurd h (lt_irrefl _)⟩
      · rw [if_neg hc]
        refine key _ hp ⟨rfl, by simp [hm], fun e he => ?_⟩
        rcases List.mem_append.1 he with he | he
        · exact ha e he
        · rw [List.mem_singleton.1 he]
          exact ⟨not_lt.1 hc, fun h => absurd (h.trans (hlt d' hm)) (lt_irrefl _)⟩

private theorem range_sorted (lo hi : ℤ) : (Int.range lo hi).Pairwise (· < ·) := by
  unfold Int.range
  rw [List.pairwise_map]
  exact List.pairwise_lt_range.imp fun h => by omega

/-- **C137**: the search over the delays from `lo` to `hi` returns the fit of the first delay with the least loss: of the residuals
or, if a score is given, of the score of the fit. -/
theorem C137_search {F : Type*} (fit : ℤ → Res (F × ℝ)) (score : Option (F → Res ℝ)) (loss : ℤ → ℝ) (lo hi : ℤ)
    (h : ∀ d, lo ≤ d → d ≤ hi → ∃ g r, fit d = .ok (g, r) ∧ (score = none → r = loss d) ∧
      ∀ q, score = some q → q g = .ok (loss d)) (hle : lo ≤ hi) :
    ∃ d, lo ≤ d ∧ d ≤ hi ∧ searchDelay fit score [lo, hi] = fit d ∧
      ∀ e, lo ≤ e → e ≤ hi → loss d ≤ loss e ∧ (e < d → loss d < loss e) := by
  obtain ⟨best, h1, h2⟩ := searchLoop_spec fit score loss (Int.range lo (hi + 1))
    (fun d hd => by
      obtain ⟨g, r, h3, h4, h5⟩ :=
        h d (Int.mem_range_iff.1 hd).1 (by have := (Int.mem_range_iff.1 hd).2; omega)
      refine ⟨g, r, h3, ?_⟩
      cases score with
      | none => exact congrArg Except.ok (h4 rfl)
      | some q => exact h5 q rfl) [] none
    (range_sorted _ _) rfl
  rw [List.nil_append] at h2
  unfold searchDelay
  dsimp only
  rw [h1]
  match best with
  | none =>
    dsimp only at h2
    have : lo ∈ Int.range lo (hi + 1) := Int.mem_range_iff.2 ⟨le_refl _, by omega⟩
    rw [h2] at this
    exact absurd this List.not_mem_nil
  | some (d, b) =>
    dsimp only at h2 ⊢
    obtain ⟨-, h3, h4⟩ := h2
    obtain ⟨h5, h6⟩ := Int.mem_range_iff.1 h3
    exact ⟨d, h5, by omega, rfl, fun e h7 h8 => h4 e (Int.mem_range_iff.2 ⟨h7, by omega⟩)⟩

/-- Losses 3, 1, 1 for the delays 0, 1, 2: delay 1 is taken. -/
example : searchDelay (fun d => .ok (d, if d = 0 then 3 else 1)) none [0, 2] = (.ok (1, 1) : Res (ℤ × ℝ)) := by
  obtain ⟨d, h1, h2, h3, h4⟩ := C137_search (fun d => (.ok (d, if d = 0 then 3 else 1) : Res (ℤ × ℝ))) none
    (fun d => if d = 0 then 3 else 1) 0 2 (fun d _ _ => ⟨_, _, rfl, fun _ => rfl, fun _ h => by cases h⟩) (by norm_num)
  have h5 := (h4 1 (by norm_num) (by norm_num))
  have h6 : d = 1 := by
    have : d = 0 ∨ d = 1 ∨ d = 2 := by omega
    rcases this with rfl | rfl | rfl
    · norm_num at h5
    · rfl
    · norm_num at h5
  rw [h3, h6]
  norm_num

/-- With a score that prefers large delays the residuals do not count. -/
example := C137_search (fun d => (.ok (d, if d = 0 then 3 else 1) : Res (ℤ × ℝ))) (some fun d => .ok (-(d : ℝ)))
  (fun d => -(d : ℝ)) 0 2 (fun d _ _ => ⟨_, _, rfl, fun h => (by cases h), fun q h => by cases h; rfl⟩) (by norm_num)

/-- **C137**: an empty range of delays and a sequence that is not a pair are rejected. -/
theorem C137_search_reject {F : Type*} (fit : ℤ → Res (F × ℝ)) (score : Option (F → Res ℝ)) :
    (∀ l : List ℤ, l.length ≠ 2 → searchDelay fit score l = .error .valueError) ∧
    ∀ lo hi : ℤ, hi < lo → searchDelay fit score [lo, hi] = .error .valueError := by
  constructor
  · intro l hl
    match l with
    | [] => rfl
    | [_] => rfl
    | [_, _] => exact absurd rfl hl
    | _ :: _ :: _ :: _ => rfl
  · intro lo hi h
    unfold searchDelay
    have : Int.range lo (hi + 1) = [] := by
      unfold Int.range
      rw [show (hi + 1 - lo).toNat = 0 by omega]
      rfl
    dsimp only
    rw [this]
    rfl

example : searchDelay (fun d => (.ok (d, 1) : Res (ℤ × ℝ))) none [3, 2] = .error .valueError :=
  (C137_search_reject _ _).2 3 2 (by norm_num)

/-! ### Where the property fails -/

private theorem fit_eq (solve : Solver 𝕜) (f : Filter 𝕜) (s y : A2 𝕜) (d : ℕ) (hr : y.r = f.L)
    (hne : s.c + y.r ≠ f.K) (hs : 2 * f.K + d ≤ s.r) (hy : 2 * f.K ≤ y.c) {n p : ℕ}
    (hn : min (s.r - d) y.c - f.K - f.K = n) (hp : (s.c + y.r) * f.K + 1 = p) :
    f.iirFit solve s y d = .ok
      ({ f with
          M := s.c + y.r
          off := .flat fun l => solve n p (fun b i => star (flatten (s.c + y.r) f.K (win s y f.K d b) i))
            (fun i => y.f l (f.K + i)) ((s.c + y.r) * f.K)
          h := fun l m k => solve n p (fun b i => star (flatten (s.c + y.r) f.K (win s y f.K d b) i))
            (fun i => y.f l (f.K + i)) (m * f.K + k) },
        residualNorm n p f.L (fun b i => star (flatten (s.c + y.r) f.K (win s y f.K d b) i))
          (fun l i => y.f l (f.K + i)) fun l => solve n p
            (fun b i => star (flatten (s.c + y.r) f.K (win s y f.K d b) i)) (fun i => y.f l (f.K + i))) := by
  obtain ⟨s', y', h1, h2⟩ := train_eq f s y d hne hs hy
  unfold Filter.iirFit
  rw [h1]
  dsimp only
  rw [h2]
  dsimp only
  rw [if_neg (not_not.2 hr), hn, hp]

private theorem residualNorm_nonneg (n p L : ℕ) (X : ℕ → ℕ → 𝕜) (y sol : ℕ → ℕ → 𝕜) :
    0 ≤ residualNorm n p L X y sol := by
  unfold residualNorm
  split
  · exact le_refl _
  · exact Real.sqrt_nonneg _

/-- An input that is zero except at time 6. -/
private def pulse : A2 ℝ := ⟨8, 1, fun i _ => if i = 6 then 1 else 0⟩

/-- The reference 0, 1, 0, 1, 0, 0, 0. -/
private def blip : A2 ℝ := ⟨1, 7, fun _ i => if i = 1 ∨ i = 3 then 1 else 0⟩

/-- **C137** is false for the delay found by the search: for an input that does not move within the windows of
delay 0, numpy returns no residuals, which counts as a loss of zero, and delay 0 is taken although it leaves an error
and delay 1 leaves none. -/
theorem C137_rank_false (solve : Solver ℝ) : ∃ s y : A2 ℝ,
    searchDelay (fun d => (Filter.new 2 1 1 : Filter ℝ).iirFit solve s y d) none [0, 1] =
      (Filter.new 2 1 1 : Filter ℝ).iirFit solve s y 0 ∧
    (∀ num den o, 0 < stepError s.c 1 (min (s.r - 0) y.c - 1) num den o (fun i m => s.f (0 + i) m) (y.f 0)) ∧
    ∃ num den o, stepError s.c 1 (min (s.r - 1) y.c - 1) num den o (fun i m => s.f (1 + i) m) (y.f 0) = 0 := by
  refine ⟨pulse, blip, ?_, ?_, ?_⟩
  · have h0 := fit_eq solve (Filter.new 2 1 1 : Filter ℝ) pulse blip 0 rfl (by simp [pulse, blip, Filter.new])
      (by simp [pulse, Filter.new]) (by simp [blip, Filter.new]) (n := 5) (p := 3) (by simp [pulse, blip, Filter.new])
      (by simp [pulse, blip, Filter.new])
    have h1 := fit_eq solve (Filter.new 2 1 1 : Filter ℝ) pulse blip 1 rfl (by simp [pulse, blip, Filter.new])
      (by simp [pulse, Filter.new]) (by simp [blip, Filter.new]) (n := 5) (p := 3) (by simp [pulse, blip, Filter.new])
      (by simp [pulse, blip, Filter.new])
    set g0 := residualNorm 5 3 (Filter.new 2 1 1 : Filter ℝ).L (fun b i => star (flatten (pulse.c + blip.r)
      (Filter.new 2 1 1 : Filter ℝ).K (win pulse blip (Filter.new 2 1 1 : Filter ℝ).K 0 b) i))
          (fun l i => blip.f l ((Filter.new 2 1 1 : Filter ℝ).K + i)) (fun l => solve 5 3
            (fun b i => star (flatten (pulse.c + blip.r) (Filter.new 2 1 1 : Filter ℝ).K
              (win pulse blip (Filter.new 2 1 1 : Filter ℝ).K 0 b) i))
                (fun i => blip.f l ((Filter.new 2 1 1 : Filter ℝ).K + i))) with hg0
    have hz : g0 = 0 := by
      rw [hg0]
      unfold residualNorm
      refine if_pos (Or.inr ⟨fun i => if i = 0 then 1 else 0, ⟨0, by norm_num, by norm_num⟩, fun b hb => ?_⟩)
      have : b ≠ 5 := by omega
      simp [flatten, win, pulse, blip, Filter.new]
      omega
    obtain ⟨d, a1, a2, a3, a4⟩ := C137_search (fun d => (Filter.new 2 1 1 : Filter ℝ).iirFit solve pulse blip d) none
      (fun d => if d = 0 then g0 else _) 0 1 (by
        intro d b1 b2
        have : d = 0 ∨ d = 1 := by omega
        rcases this with rfl | rfl
        · exact ⟨_, _, h0, fun _ => rfl, fun _ h => nomatch h⟩
        · exact ⟨_, _, h1, fun _ => rfl, fun _ h => nomatch h⟩) (by norm_num)
    have : d = 0 := by
      by_contra hd
      have h5 := (a4 0 (le_refl _) (by norm_num)).2 (by omega)
      rw [if_neg hd, if_pos rfl, hz] at h5
      exact absurd (residualNorm_nonneg _ _ _ _ _ _) (not_le.2 h5)
    rw [a3, this]
  · intro num den o
    by_contra hc
    have h := stepError_zero (not_lt.1 hc)
    have e1 := h 1 (by norm_num) (by simp [pulse, blip])
    have e2 := h 2 (by norm_num) (by simp [pulse, blip])
    have e5 := h 5 (by norm_num) (by simp [pulse, blip])
    simp [oneStep, pulse, blip] at e1 e2 e5
    linarith
  · refine ⟨fun _ _ => -1, fun _ => -1, 1, ?_⟩
    simp [stepError, oneStep, pulse, blip, Finset.sum_Ico_eq_sum_range, Finset.sum_range_succ]

/-- **C137** is false for complex data: `lstsq` conjugates the inputs and prediction does not.  On this data every
exact solver leaves the error 4, where the coefficient `-i` would leave none. -/
theorem C137_complex_false (solve : Solver ℂ) (hsolve : solve.Exact) : ∃ s y : A2 ℂ, ∃ f' r c,
    (Filter.new 2 1 1 : Filter ℂ).iirFit solve s y 0 = .ok (f', r) ∧ f'.off = .flat c ∧
      stepError s.c 1 (min (s.r - 0) y.c - 1) (f'.h 0) (f'.h 0 s.c) (star (c 0)) (fun i m => s.f (0 + i) m) (y.f 0) = 4 ∧
      ∃ num den o, stepError s.c 1 (min (s.r - 0) y.c - 1) num den o (fun i m => s.f (0 + i) m) (y.f 0) = 0 := by
  let s : A2 ℂ := ⟨6, 1, fun i _ => if i = 1 then Complex.I else 0⟩
  let y : A2 ℂ := ⟨1, 5, fun _ i => if i = 1 then 1 else 0⟩
  have h0 := fit_eq solve (Filter.new 2 1 1 : Filter ℂ) s y 0 rfl (by simp [s, y, Filter.new])
      (by simp [s, Filter.new]) (by simp [y, Filter.new]) (n := 3) (p := 3) (by simp [s, y, Filter.new])
      (by simp [s, y, Filter.new])
  refine ⟨s, y, _, _, _, h0, rfl, ?_, fun _ _ => -Complex.I, fun _ => 0, 0, ?_⟩
  · have key := hsolve 3 3 (fun b i => star (flatten (s.c + y.r) (Filter.new 2 1 1 : Filter ℂ).K
      (win s y (Filter.new 2 1 1 : Filter ℂ).K 0 b) i)) (fun i => y.f 0 ((Filter.new 2 1 1 : Filter ℂ).K + i))
      (fun i => if i = 0 then Complex.I else 0)
    dsimp only
    generalize solve 3 3 (fun b i => star (flatten (s.c + y.r) (Filter.new 2 1 1 : Filter ℂ).K
      (win s y (Filter.new 2 1 1 : Filter ℂ).K 0 b) i)) (fun i => y.f 0 ((Filter.new 2 1 1 : Filter ℂ).K + i)) = w
      at key ⊢
    simp [s, y, flatten, win, Filter.new, Finset.sum_range_succ] at key ⊢
    have n1 := norm_nonneg (-(Complex.I * w 0) + w 2 - 1)
    have n2 := norm_nonneg (w 1 + w 2)
    have n3 := norm_nonneg (w 2)
    have w2 : w 2 = 0 := norm_eq_zero.1 (by nlinarith [sq_nonneg ‖w 2‖])
    have w1 : w 1 = 0 := by
      have : w 1 + w 2 = 0 := norm_eq_zero.1 (by nlinarith [sq_nonneg ‖w 2‖])
      rwa [w2, add_zero] at this
    have w0 : w 0 = Complex.I := by
      have : -(Complex.I * w 0) + w 2 - 1 = 0 := norm_eq_zero.1 (by nlinarith [sq_nonneg ‖w 2‖])
      rw [w2] at this
      linear_combination Complex.I * this + w 0 * Complex.I_mul_I
    simp only [stepError, oneStep, Finset.sum_range_one, Finset.sum_Ico_eq_sum_range]
    simp [Finset.sum_range_succ, w0, w1, w2]
    norm_num
  · simp only [stepError, oneStep, s, y, Finset.sum_range_one]
    simp

omit [RCLike 𝕜] in
private theorem reshape_negative (f : Filter 𝕜) (s y : A2 𝕜) (delay : ℤ) (hd : f.K + delay < 0)
    (hs : 0 ≤ f.K + (s.r + delay)) : f.reshapeIIR s y delay = f.reshapeIIR s y (s.r + delay) := by
  unfold Filter.reshapeIIR
  have : sliceStart s.r (f.K + delay) = sliceStart s.r (f.K + (s.r + delay)) := by
    unfold sliceStart
    rw [if_neg (by omega), if_pos hs]
    omega
  rw [this]

/-- **C137** is false for negative delays, which are to be rejected: below `-K` they select inputs from the end, as the
delay increased by the length of the input does. -/
theorem C137_negative_false (solve : Solver 𝕜) (f : Filter 𝕜) (s y : A2 𝕜) (delay : ℤ) (hd : f.K + delay < 0)
    (hs : 0 ≤ f.K + (s.r + delay)) : f.iirFit solve s y delay = f.iirFit solve s y (s.r + delay) := by
  unfold Filter.iirFit
  rw [reshape_negative f s y delay hd hs]

/-- Delay -5 for an input of 9 samples is accepted. -/
example (solve : Solver ℝ) (hsolve : solve.Exact) : ∃ f' r, (Filter.new 2 1 1 : Filter ℝ).iirFit solve
    ⟨9, 1, fun i _ => (i : ℝ)⟩ ⟨1, 8, fun _ i => (i : ℝ) ^ 2⟩ (-5) = .ok (f', r) := by
  obtain ⟨f', r, c, h, -⟩ := C137_fit_partial solve hsolve (Filter.new 2 1 1) ⟨9, 1, fun i _ => (i : ℝ)⟩
    ⟨1, 8, fun _ i => (i : ℝ) ^ 2⟩ 4 rfl rfl (by simp [Filter.new]) (by simp [Filter.new]) (by simp [Filter.new])
  refine ⟨f', r, ?_⟩
  rw [C137_negative_false solve _ _ _ (-5) (by simp [Filter.new]) (by simp [Filter.new])]
  exact h

/-- **C137** is false when a window has as many samples as there are channels with the reference: the coefficients
are stored in the wrong places.  The reference repeats with changed sign after two samples, every exact solver fits
that, and yet the fitted filter does not predict the reference at time 2 from the references before. -/
theorem C137_square_false (solve : Solver ℝ) (hsolve : solve.Exact) : ∃ s y : A2 ℝ, ∃ f' r c,
    (Filter.new 2 2 1 : Filter ℝ).iirFit solve s y 0 = .ok (f', r) ∧ f'.off = .flat c ∧
      0 < stepError s.c 2 (min (s.r - 0) y.c - 2) (f'.h 0) (f'.h 0 s.c) (c 0) (fun i m => s.f (0 + i) m) (y.f 0) ∧
      ∃ num den o, stepError s.c 2 (min (s.r - 0) y.c - 2) num den o (fun i m => s.f (0 + i) m) (y.f 0) = 0 := by
  let s : A2 ℝ := ⟨11, 1, fun i _ => if i = 8 then 1 else 0⟩
  let y : A2 ℝ := ⟨1, 11, fun _ i => if i % 4 = 0 then 1 else if i % 4 = 2 then -1 else 0⟩
  have key : ∃ f' r c, (Filter.new 2 2 1 : Filter ℝ).iirFit solve s y 0 = .ok (f', r) ∧ f'.off = .flat c ∧
      f'.h 0 1 0 = 0 ∧ c 0 = 0 := by
    have hfit : ∃ r, (Filter.new 2 2 1 : Filter ℝ).iirFit solve s y 0 = .ok
        ({ (Filter.new 2 2 1 : Filter ℝ) with
            M := 2
            off := .flat fun l => solve 7 5 (fun b i => star (flatten 2 2 (fun m k => if k < 1 then s.f (2 + (0 + (b + m))) k
              else y.f (k - 1) (0 + (b + m))) i)) (fun i => y.f l (2 + i)) 4
            h := fun l m k => solve 7 5 (fun b i => star (flatten 2 2 (fun m k => if k < 1 then s.f (2 + (0 + (b + m))) k
              else y.f (k - 1) (0 + (b + m))) i)) (fun i => y.f l (2 + i)) (m * 2 + k) }, r) := ⟨_, rfl⟩
    obtain ⟨r, hfit⟩ := hfit
    refine ⟨_, _, _, hfit, rfl, ?_⟩
    have k := hsolve 7 5 (fun b i => star (flatten 2 2 (fun m k => if k < 1 then s.f (2 + (0 + (b + m))) k
      else y.f (k - 1) (0 + (b + m))) i)) (fun i => y.f 0 (2 + i)) (fun i => if i = 1 then -1 else 0)
    dsimp only
    generalize solve 7 5 (fun b i => star (flatten 2 2 (fun m k => if k < 1 then s.f (2 + (0 + (b + m))) k
      else y.f (k - 1) (0 + (b + m))) i)) (fun i => y.f 0 (2 + i)) = w at k ⊢
    simp [flatten, s, y, Finset.sum_range_succ] at k
    have q1 := sq_nonneg (w 1 + w 4 + 1)
    have q2 := sq_nonneg (-w 3 + w 4)
    have q3 := sq_nonneg (-w 1 + w 4 - 1)
    have q4 := sq_nonneg (w 3 + w 4)
    have q5 := sq_nonneg (w 2 + -w 3 + w 4)
    have q6 := sq_nonneg (w 0 + -w 1 + w 4 - 1)
    have r2 : -w 3 + w 4 = 0 := (pow_eq_zero_iff two_ne_zero).1 (by linarith)
    have r4 : w 3 + w 4 = 0 := (pow_eq_zero_iff two_ne_zero).1 (by linarith)
    have r5 : w 2 + -w 3 + w 4 = 0 := (pow_eq_zero_iff two_ne_zero).1 (by linarith)
    exact ⟨by norm_num; linarith, by linarith⟩
  obtain ⟨f', r, c, k1, k2, k4, k6⟩ := key
  refine ⟨s, y, f', r, c, k1, k2, ?_, fun _ _ => 0, fun k => if k = 0 then -1 else 0, 0, ?_⟩
  · by_contra hc
    have e := stepError_zero (not_lt.1 hc) 2 (le_refl _) (by simp [s, y])
    simp [oneStep, s, y, k4, k6, Finset.sum_range_succ] at e
  · simp only [stepError, oneStep, s, y, Finset.sum_Ico_eq_sum_range]
    simp [Finset.sum_range_succ]

/-! ### LMS -/

private theorem lmsStep_exact (f : Filter ℝ) (hL : f.L = 1) (v : ℕ → ℝ) (hv : f.off = .col v)
    (hm : f.hm = fun _ _ _ => 0) (ho : f.offm = fun _ => 0) (lr mom : ℝ) (x : A3 ℝ) (y : A2 ℝ) (xm : x.m = f.M)
    (xk : x.k = f.K) (yr : y.r = 1) (yc : y.c = x.n)
    (h : ∀ b < x.n, output f.M f.K (f.h 0) (v 0) (x.f b) = y.f 0 b) : f.lmsStep lr mom x y = .ok f := by
  obtain ⟨z, hz, zr, zc, zf⟩ := call_one f hL v hv x xm xk
  have he : ∃ e, f.error x y = .ok e ∧ e.r = 1 ∧ e.c = x.n ∧ ∀ l, ∀ b < x.n, e.f l b = 0 := by
    unfold Filter.error
    rw [hz]
    dsimp only
    unfold A2.bop
    rw [yr, zr, bdim_self, yc, zc, bdim_self]
    refine ⟨_, rfl, rfl, rfl, fun l b hb => ?_⟩
    have h1 : (if x.n = 1 then 0 else b) = b := by split <;> omega
    simp only [h1, if_true, zf b hb, h b hb, sub_self, star_zero]
  obtain ⟨e, he, er, ec, ef⟩ := he
  have hg : f.gradient x y = .ok (1, fun _ _ _ => 0, fun _ => 0) := by
    unfold Filter.gradient
    rw [he]
    dsimp only
    rw [if_neg (by omega), er]
    congr 3
    · funext l m k
      rw [Finset.sum_eq_zero fun b hb => by rw [ef l b (Finset.mem_range.1 hb)]; simp, neg_zero]
    · funext l
      rw [ec, Finset.sum_eq_zero fun b hb => by rw [ef l b (Finset.mem_range.1 hb)]]
      simp
  unfold Filter.lmsStep
  rw [hg]
  dsimp only
  rw [if_neg (by omega), hv]
  dsimp only
  congr 1
  obtain ⟨K, L, M, hm', h', off', offm', V'⟩ := f
  dsimp only at hm ho hv
  subst hm ho hv
  simp

private theorem lmsLoop_exact (f : Filter ℝ) (lr mom : ℝ) (size : ℕ) (x : A3 ℝ) (y : A2 ℝ)
    (h : ∀ b, f.lmsStep lr mom (x.slice b size) (y.slice b size) = .ok f) (fuel : ℕ) :
    ∀ b, Filter.lmsLoop lr mom size x y fuel b f = .ok f := by
  induction fuel with
  | zero => intro b; rfl
  | succ fuel ih =>
    intro b
    unfold Filter.lmsLoop
    by_cases hb : x.n ≤ b
    · rw [if_pos hb]
    · rw [if_neg hb, h b]
      exact ih _

private theorem lmsEpochs_exact (f : Filter ℝ) (lr mom : ℝ) (size : ℕ) (hs : 0 < size) (x : A3 ℝ) (y : A2 ℝ)
    (h : ∀ b, f.lmsStep lr mom (x.slice b size) (y.slice b size) = .ok f) (n : ℕ) :
    ∀ e, Filter.lmsEpochs lr mom size (fun _ b => b) n e x y f = .ok f := by
  induction n with
  | zero => intro e; rfl
  | succ n ih =>
    intro e
    unfold Filter.lmsEpochs Filter.lmsEpoch
    rw [if_neg (by omega)]
    have : Filter.lmsLoop lr mom size (x.shuffle fun b => b) (y.shuffle fun b => b) (x.shuffle fun b => b).n 0 f =
        .ok f := lmsLoop_exact f lr mom size _ _ h _ 0
    rw [this]
    exact ih _

/-- **C137** (partial, as above): a filter whose difference equation the data obey is not changed by `lms`, whatever
the rates, batch size and number of epochs; giving `shuffle`, even as `False`, is an error for `lms` and `rls`. -/
theorem C137_lms_partial (f : Filter ℝ) (s y : A2 ℝ) (d : ℕ) (hL : f.L = 1) (hM : f.M = s.c + 1) (hr : y.r = 1)
    (hne : s.c + 1 ≠ f.K) (hs : 2 * f.K + d ≤ s.r) (hy : 2 * f.K ≤ y.c) (v : ℕ → ℝ) (hv : f.off = .col v)
    (hm : f.hm = fun _ _ _ => 0) (ho : f.offm = fun _ => 0) (lr mom : ℝ) (size epochs : ℕ) (hz : 0 < size) :
    ((∀ n, f.K ≤ n → n < min (s.r - d) y.c - f.K →
        y.f 0 n = oneStep s.c f.K (f.h 0) (f.h 0 s.c) (v 0) (fun i m => s.f (d + i) m) (y.f 0) n) →
      f.iirLms s y d size epochs lr mom none = .ok f) ∧
    ∀ b, f.iirLms s y d size epochs lr mom (some b) = .error .valueError ∧
      f.iirRls s y d epochs lr mom (some b) = .error .valueError := by
  refine ⟨fun hgen => ?_, fun b => ⟨rfl, rfl⟩⟩
  obtain ⟨s', y', h1, h2⟩ := train_eq f s y d (by omega) hs hy
  unfold Filter.iirLms Filter.lms
  dsimp only
  rw [h1]
  dsimp only
  rw [h2]
  dsimp only
  refine lmsEpochs_exact f lr mom size hz _ _ (fun b => ?_) epochs 0
  refine lmsStep_exact f hL v hv hm ho lr mom _ _ (by simp [A3.slice]; omega) rfl hr rfl fun i hi => ?_
  dsimp only [A3.slice, A2.slice] at hi ⊢
  rw [hgen (f.K + (b + i)) (by omega) (by omega)]
  unfold output oneStep
  rw [hM, Finset.sum_range_succ]
  have e1 : ∑ m ∈ range s.c, ∑ k ∈ range f.K, star (f.h 0 m k) * win s y f.K d (b + i) m k =
      ∑ m ∈ range s.c, ∑ k ∈ range f.K, f.h 0 m k * s.f (d + (f.K + (b + i) + k)) m := by
    refine Finset.sum_congr rfl fun m hm => Finset.sum_congr rfl fun k _ => ?_
    unfold win
    rw [if_pos (Finset.mem_range.1 hm), star_trivial]
  have e2 : ∑ k ∈ range f.K, star (f.h 0 s.c k) * win s y f.K d (b + i) s.c k =
      ∑ k ∈ range f.K, f.h 0 s.c k * y.f 0 (f.K + (b + i) - f.K + k) := by
    refine Finset.sum_congr rfl fun k _ => ?_
    unfold win
    rw [if_neg (lt_irrefl _), star_trivial, Nat.sub_self, Nat.add_sub_cancel_left]
  rw [e1, e2, star_trivial]
  ring

/-- The running sum again. -/
example : (⟨1, 1, 3, fun _ _ _ => 0, fun _ m _ => if m = 1 then 0 else 1, .col fun _ => 0, fun _ => 0,
    none⟩ : Filter ℝ).iirLms ⟨9, 2, fun _ m => if m = 0 then 1 else 0⟩ ⟨1, 9, fun _ i => (i : ℝ) + 1⟩ (0 : ℕ) 2 5
    (1 / 100) (9 / 10) none = .ok ⟨1, 1, 3, fun _ _ _ => 0, fun _ m _ => if m = 1 then 0 else 1, .col fun _ => 0,
      fun _ => 0, none⟩ := by
  refine (C137_lms_partial _ _ _ 0 rfl rfl rfl (by norm_num) (by norm_num) (by norm_num) _ rfl rfl rfl _ _ 2 5
    (by norm_num)).1 fun n hn _ => ?_
  dsimp only at hn ⊢
  simp [oneStep, Nat.cast_sub hn]
  ring

/-! ### RLS -/

private theorem rlsStep_exact (f : Filter ℝ) (hL : f.L = 1) (v : ℕ → ℝ) (hv : f.off = .col v) (lam : ℝ) (V x : ℕ → ℕ → ℝ)
    (y : ℕ → ℝ) (h : output f.M f.K (f.h 0) (v 0) x = y 0) : ∃ V', f.rlsStep lam V x y = .ok { f with V := some V' } := by
  obtain ⟨z, hz, zr, zc, zf⟩ := call_one f hL v hv ⟨1, f.M, f.K, fun _ => x⟩ rfl rfl
  have he : ∃ e, f.error ⟨1, f.M, f.K, fun _ => x⟩ ⟨f.L, 1, fun l _ => y l⟩ = .ok e ∧ e.c = 1 ∧ ∀ l, e.f l 0 = 0 := by
    unfold Filter.error
    rw [hz]
    dsimp only
    unfold A2.bop
    dsimp only at zc zf ⊢
    rw [hL, zr, bdim_self, zc, bdim_self]
    refine ⟨_, rfl, rfl, fun l => ?_⟩
    simp only [if_true, zf 0 (by norm_num), h, sub_self, star_zero]
  obtain ⟨e, he, ec, ef⟩ := he
  unfold Filter.rlsStep
  rw [he]
  dsimp only
  rw [if_neg (by omega), hv]
  dsimp only
  rw [if_neg (not_not.2 ec)]
  simp only [ef, mul_zero, add_zero]
  exact ⟨_, rfl⟩

private theorem rlsLoop_exact (f : Filter ℝ) (hL : f.L = 1) (v : ℕ → ℝ) (hv : f.off = .col v) (lam delta : ℝ)
    (l : List ((ℕ → ℕ → ℝ) × (ℕ → ℝ))) (h : ∀ p ∈ l, output f.M f.K (f.h 0) (v 0) p.1 = p.2 0) :
    ∀ V, ∃ V', Filter.rlsLoop lam delta l { f with V := some V } = .ok { f with V := some V' } := by
  induction l with
  | nil => exact fun V => ⟨V, rfl⟩
  | cons p l ih =>
    intro V
    obtain ⟨V', hV⟩ := rlsStep_exact { f with V := some V } hL v hv lam V p.1 p.2 (h p List.mem_cons_self)
    obtain ⟨V'', hV'⟩ := ih (fun q hq => h q (List.mem_cons_of_mem _ hq)) V'
    refine ⟨V'', ?_⟩
    obtain ⟨x, y⟩ := p
    unfold Filter.rlsLoop
    rw [show Filter.covariance { f with V := some V } delta = V from rfl, hV]
    exact hV'

private theorem rlsEpochs_exact (f : Filter ℝ) (hL : f.L = 1) (v : ℕ → ℝ) (hv : f.off = .col v) (lam delta : ℝ)
    (l : List ((ℕ → ℕ → ℝ) × (ℕ → ℝ))) (h : ∀ p ∈ l, output f.M f.K (f.h 0) (v 0) p.1 = p.2 0) (n : ℕ) :
    ∀ e V, ∃ V', Filter.rlsEpochs lam delta (fun _ l => l) n e l { f with V := some V } = .ok { f with V := some V' } := by
  induction n with
  | zero => exact fun _ V => ⟨V, rfl⟩
  | succ n ih =>
    intro e V
    obtain ⟨V', hV⟩ := rlsLoop_exact f hL v hv lam delta l h V
    obtain ⟨V'', hV'⟩ := ih (e + 1) V'
    refine ⟨V'', ?_⟩
    unfold Filter.rlsEpochs
    rw [hV]
    exact hV'

/-- **C137** (partial, as above): nor does `rls` change the coefficients and the offset of such a filter; only its covariance
matrix is updated. -/
theorem C137_rls_partial (f : Filter ℝ) (s y : A2 ℝ) (d : ℕ) (hL : f.L = 1) (hM : f.M = s.c + 1) (hr : y.r = 1)
    (hne : s.c + 1 ≠ f.K) (hs : 2 * f.K + d ≤ s.r) (hy : 2 * f.K ≤ y.c) (v : ℕ → ℝ) (hv : f.off = .col v)
    (delta lam : ℝ) (epochs : ℕ)
    (hgen : ∀ n, f.K ≤ n → n < min (s.r - d) y.c - f.K →
        y.f 0 n = oneStep s.c f.K (f.h 0) (f.h 0 s.c) (v 0) (fun i m => s.f (d + i) m) (y.f 0) n) :
    ∃ V, f.iirRls s y d epochs delta lam none = .ok { f with V := some V } := by
  obtain ⟨s', y', h1, h2⟩ := train_eq f s y d (by omega) hs hy
  unfold Filter.iirRls Filter.rls
  dsimp only
  rw [h1]
  dsimp only
  rw [h2]
  dsimp only
  refine rlsEpochs_exact f hL v hv lam delta _ (fun p hp => ?_) epochs 0 _
  unfold samples at hp
  obtain ⟨i, hi, rfl⟩ := List.mem_map.1 hp
  have hi := List.mem_range.1 hi
  dsimp only at hi ⊢
  rw [hgen (f.K + i) (by omega) (by omega)]
  unfold output oneStep
  rw [hM, Finset.sum_range_succ]
  have e1 : ∑ m ∈ range s.c, ∑ k ∈ range f.K, star (f.h 0 m k) * win s y f.K d i m k =
      ∑ m ∈ range s.c, ∑ k ∈ range f.K, f.h 0 m k * s.f (d + (f.K + i + k)) m := by
    refine Finset.sum_congr rfl fun m hm => Finset.sum_congr rfl fun k _ => ?_
    unfold win
    rw [if_pos (Finset.mem_range.1 hm), star_trivial]
  have e2 : ∑ k ∈ range f.K, star (f.h 0 s.c k) * win s y f.K d i s.c k =
      ∑ k ∈ range f.K, f.h 0 s.c k * y.f 0 (f.K + i - f.K + k) := by
    refine Finset.sum_congr rfl fun k _ => ?_
    unfold win
    rw [if_neg (lt_irrefl _), star_trivial, Nat.sub_self, Nat.add_sub_cancel_left]
  rw [e1, e2, star_trivial]
  ring

/-- The running sum again. -/
example : ∃ V, (⟨1, 1, 3, fun _ _ _ => 0, fun _ m _ => if m = 1 then 0 else 1, .col fun _ => 0, fun _ => 0,
    none⟩ : Filter ℝ).iirRls ⟨9, 2, fun _ m => if m = 0 then 1 else 0⟩ ⟨1, 9, fun _ i => (i : ℝ) + 1⟩ (0 : ℕ) 5
    (1 / 100) (9 / 10) none = .ok ⟨1, 1, 3, fun _ _ _ => 0, fun _ m _ => if m = 1 then 0 else 1, .col fun _ => 0,
      fun _ => 0, some V⟩ := by
  refine C137_rls_partial _ _ _ 0 rfl rfl rfl (by norm_num) (by norm_num) (by norm_num) _ rfl _ _ 5 fun n hn _ => ?_
  dsimp only at hn ⊢
  simp [oneStep, Nat.cast_sub hn]
  ring

end Cbadc.Adaptive
