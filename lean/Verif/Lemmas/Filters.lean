import Mathlib.FieldTheory.KummerExtension
import Mathlib.RingTheory.RootsOfUnity.Complex
import Mathlib.LinearAlgebra.Lagrange
import Mathlib.Analysis.SpecialFunctions.Trigonometric.Chebyshev.Basic
import Verif.Props.ZpkConjugate
import Verif.Model.Filters

/-! # Poles of the standard filters -/

namespace Cbadc.Filters
open Complex Finset Polynomial Cbadc.Analog

/-! ### angles -/

theorem angle_reflect {N i : ℕ} (h : i < N) : angle N (N - 1 - i) = -angle N i := by
  unfold angle
  have : ((N - 1 - i : ℕ) : ℝ) = N - 1 - i := by
    rw [Nat.cast_sub (by omega), Nat.cast_sub (by omega), Nat.cast_one]
  rw [this, ← neg_div]
  congr 1
  ring

theorem angle_lt {N i : ℕ} (h : i < N) : angle N i < Real.pi / 2 := by
  unfold angle
  have hN : (0 : ℝ) < N := by exact_mod_cast (by omega : 0 < N)
  have hi : (i : ℝ) + 1 ≤ N := by exact_mod_cast h
  rw [div_lt_div_iff₀ (by positivity) (by norm_num)]
  nlinarith [Real.pi_pos]

theorem neg_angle_lt {N i : ℕ} (h : i < N) : -(Real.pi / 2) < angle N i := by
  have h' : N - 1 - i < N := by omega
  have := angle_lt h'
  rw [angle_reflect h] at this
  linarith

theorem angle_inj {N i j : ℕ} (hi : i < N) (h : angle N i = angle N j) : i = j := by
  unfold angle at h
  have hN : (0 : ℝ) < N := by exact_mod_cast (by omega : 0 < N)
  have := Real.pi_pos
  field_simp at h
  have : (i : ℝ) = j := by linarith
  exact_mod_cast this

theorem sin_angle_inj {N i j : ℕ} (hi : i < N) (hj : j < N) (h : Real.sin (angle N i) = Real.sin (angle N j)) :
    i = j :=
  angle_inj hi (Real.injOn_sin ⟨(neg_angle_lt hi).le, (angle_lt hi).le⟩ ⟨(neg_angle_lt hj).le, (angle_lt hj).le⟩ h)

/-! ### poles on an ellipse -/

/-- a pole on the ellipse with the half axes `a` and `b` -/
noncomputable def pole (a b : ℝ) (N i : ℕ) : ℂ := ⟨-(a * Real.cos (angle N i)), -(b * Real.sin (angle N i))⟩

theorem pole_reflect (a b : ℝ) {N i : ℕ} (h : i < N) :
    pole a b N (N - 1 - i) = starRingEnd ℂ (pole a b N i) := by
  unfold pole
  rw [angle_reflect h]
  apply Complex.ext <;> simp

theorem pole_re {a : ℝ} (ha : 0 < a) (b : ℝ) {N i : ℕ} (h : i < N) : (pole a b N i).re < 0 := by
  have := Real.cos_pos_of_mem_Ioo ⟨neg_angle_lt h, angle_lt h⟩
  show -(a * Real.cos (angle N i)) < 0
  have := mul_pos ha this
  linarith

theorem pole_conjugate (a : ℝ) {b : ℝ} (hb : 0 < b) (N : ℕ) : Conjugate ((List.range N).map (pole a b N)) := by
  refine ⟨?_, ?_, ?_⟩
  · refine (List.nodup_map_iff_inj_on List.nodup_range).mpr fun i hi j hj h => ?_
    have h2 := congrArg Complex.im h
    simp only [pole, neg_inj] at h2
    exact sin_angle_inj (List.mem_range.mp hi) (List.mem_range.mp hj) (mul_left_cancel₀ hb.ne' h2)
  · intro w hw
    obtain ⟨i, hi, rfl⟩ := List.mem_map.mp hw
    have hi := List.mem_range.mp hi
    rw [← pole_reflect a b hi]
    exact List.mem_map.mpr ⟨_, List.mem_range.mpr (by omega), rfl⟩
  · intro w hw v hv h
    obtain ⟨i, hi, rfl⟩ := List.mem_map.mp hw
    obtain ⟨j, hj, rfl⟩ := List.mem_map.mp hv
    have hi := List.mem_range.mp hi
    have hj := List.mem_range.mp hj
    simp only [pole, abs_neg, abs_mul] at h
    have h := mul_left_cancel₀ (abs_pos.mpr hb.ne').ne' h
    rcases abs_eq_abs.mp h with e | e
    · exact Or.inl (by rw [sin_angle_inj hi hj e])
    · right
      rw [← Real.sin_neg, ← angle_reflect hj] at e
      rw [← pole_reflect a b hj, sin_angle_inj hi (by omega) e]

/-- the squared distance from a point on the imaginary axis -/
theorem norm_prod (a b : ℝ) (N : ℕ) (ω : ℝ) :
    ((‖∏ i ∈ range N, (ω * I - pole a b N i)‖ ^ 2 : ℝ) : ℂ) = ∏ i ∈ range N, ((ω : ℂ) ^ 2 + pole a b N i ^ 2) := by
  rw [← normSq_eq_norm_sq, ← mul_conj, map_prod]
  have : ∏ i ∈ range N, starRingEnd ℂ (ω * I - pole a b N i) = ∏ i ∈ range N, (-(ω * I) - pole a b N i) := by
    rw [← Finset.prod_range_reflect (fun i => -(ω * I) - pole a b N i)]
    refine Finset.prod_congr rfl fun i hi => ?_
    rw [pole_reflect a b (Finset.mem_range.mp hi)]
    simp
  rw [this, ← Finset.prod_mul_distrib]
  refine Finset.prod_congr rfl fun i _ => ?_
  have : (ω * I - pole a b N i) * (-(ω * I) - pole a b N i) = pole a b N i ^ 2 - (ω : ℂ) ^ 2 * I ^ 2 := by ring
  rw [this, I_sq]
  ring

/-! ### Butterworth -/

theorem pole_circle (w : ℝ) (N i : ℕ) : (w : ℂ) * -exp (I * angle N i) = pole w w N i := by
  rw [mul_comm I, exp_mul_I, ← ofReal_cos, ← ofReal_sin]
  apply Complex.ext <;> simp [pole, -ofReal_cos, -ofReal_sin, -ofReal_sinh, -ofReal_cosh]

theorem circle_prod (w : ℝ) {N : ℕ} (hN : 0 < N) (x : ℂ) :
    ∏ i ∈ range N, (x + pole w w N i ^ 2) = x ^ N + (w : ℂ) ^ (2 * N) := by
  have hN0 : (N : ℂ) ≠ 0 := by exact_mod_cast hN.ne'
  have hζ := Complex.isPrimitiveRoot_exp N hN.ne'
  have hα : (-((w : ℂ) ^ 2 * exp (Real.pi * (1 - N) / N * I))) ^ N = -(w : ℂ) ^ (2 * N) := by
    rw [neg_pow, mul_pow, ← exp_nat_mul, ← pow_mul]
    have : (N : ℂ) * (Real.pi * (1 - N) / N * I) = Real.pi * I + N * -(Real.pi * I) := by
      field_simp
      ring
    rw [this, exp_add, exp_nat_mul, exp_neg, exp_pi_mul_I]
    have h2 : (-1 : ℂ) ^ N * (-1) ^ N = 1 := by rw [← mul_pow]; simp
    calc (-1 : ℂ) ^ N * ((w : ℂ) ^ (2 * N) * (-1 * (-1)⁻¹ ^ N))
        = -((-1 : ℂ) ^ N * (-1) ^ N * (w : ℂ) ^ (2 * N)) := by rw [inv_neg, inv_one]; ring
      _ = _ := by rw [h2, one_mul]
  have := congrArg (Polynomial.eval x) (X_pow_sub_C_eq_prod hζ hN hα)
  rw [eval_sub, eval_pow, eval_X, eval_C, eval_prod, sub_neg_eq_add] at this
  rw [this]
  refine Finset.prod_congr rfl fun i _ => ?_
  rw [← pole_circle, eval_sub, eval_X, eval_C, ← exp_nat_mul]
  have : (2 : ℕ) * (I * angle N i) = (i : ℕ) * (2 * Real.pi * I / N) + Real.pi * (1 - N) / N * I := by
    unfold angle
    push_cast
    field_simp
    ring
  rw [mul_pow, neg_sq, ← exp_nat_mul, this, exp_add]
  ring

/-! ### Chebyshev -/

theorem sinh_pole (μ : ℝ) (N i : ℕ) : -sinh (μ + I * angle N i) = pole (Real.sinh μ) (Real.cosh μ) N i := by
  rw [mul_comm I, sinh_add, sinh_mul_I, cosh_mul_I, ← ofReal_cos, ← ofReal_sin, ← ofReal_sinh, ← ofReal_cosh]
  apply Complex.ext <;> simp [pole, -ofReal_cos, -ofReal_sin, -ofReal_sinh, -ofReal_cosh]

theorem cosh_inj {μ : ℝ} (hμ : 0 < μ) {N i j : ℕ} (hi : i < N) (hj : j < N)
    (h : cosh (2 * (μ + I * angle N i)) = cosh (2 * (μ + I * angle N j))) : i = j := by
  have key : ∀ t : ℝ, cosh (2 * (μ + I * t)) =
      ⟨Real.cosh (2 * μ) * Real.cos (2 * t), Real.sinh (2 * μ) * Real.sin (2 * t)⟩ := by
    intro t
    have : 2 * ((μ : ℂ) + I * t) = ((2 * μ : ℝ) : ℂ) + ((2 * t : ℝ) : ℂ) * I := by
      push_cast
      ring
    rw [this, cosh_add, sinh_mul_I, cosh_mul_I, ← ofReal_cos, ← ofReal_sin, ← ofReal_sinh, ← ofReal_cosh]
    apply Complex.ext <;> simp [-ofReal_cos, -ofReal_sin, -ofReal_sinh, -ofReal_cosh, -ofReal_mul]
  rw [key, key] at h
  have hc := mul_left_cancel₀ (Real.cosh_pos _).ne' (congrArg Complex.re h)
  have hs := mul_left_cancel₀ (Real.sinh_pos_iff.mpr (by linarith : 0 < 2 * μ)).ne' (congrArg Complex.im h)
  have : Real.cos (2 * angle N i - 2 * angle N j) = 1 := by
    rw [Real.cos_sub, hc, hs]
    have := Real.sin_sq_add_cos_sq (2 * angle N j)
    nlinarith
  rw [Real.cos_eq_one_iff_of_lt_of_lt (by linarith [angle_lt hj, neg_angle_lt hi])
    (by linarith [angle_lt hi, neg_angle_lt hj])] at this
  exact angle_inj hi (by linarith)

theorem cosh_root (μ : ℝ) {N i : ℕ} (hi : i < N) :
    (Chebyshev.T ℂ N).eval (-cosh (2 * (μ + I * angle N i))) = -cosh (2 * N * μ) := by
  rw [Chebyshev.T_eval_neg, Chebyshev.T_complex_cosh]
  have hN0 : (N : ℂ) ≠ 0 := by exact_mod_cast (by omega : N ≠ 0)
  have : ((N : ℤ) : ℂ) * (2 * (μ + I * angle N i)) =
      2 * N * μ + (((((2 * i - N + 1 : ℤ) : ℝ) * Real.pi : ℝ)) : ℂ) * I := by
    unfold angle
    push_cast
    field_simp
  rw [this, cosh_add, sinh_mul_I, cosh_mul_I, ← ofReal_cos, ← ofReal_sin, Real.sin_int_mul_pi, Real.cos_int_mul_pi]
  rw [Int.cast_negOnePow]
  have h2 : (-1 : ℂ) ^ (N : ℤ) * (-1 : ℂ) ^ (2 * i - N + 1 : ℤ) = -1 := by
    rw [← zpow_add₀ (by norm_num)]
    have : (N : ℤ) + (2 * i - N + 1) = 2 * i + 1 := by ring
    rw [this]
    exact Odd.neg_one_zpow ⟨i, rfl⟩
  push_cast
  rw [zero_mul, mul_zero, add_zero, mul_comm (cosh _), ← mul_assoc, h2]
  ring

theorem ellipse_prod {μ : ℝ} (hμ : 0 < μ) {N : ℕ} (hN : 0 < N) (x : ℝ) :
    ∏ i ∈ range N, ((x : ℂ) ^ 2 + pole (Real.sinh μ) (Real.cosh μ) N i ^ 2) =
      ((((Chebyshev.T ℝ N).eval x ^ 2 + Real.sinh (N * μ) ^ 2) / 4 ^ (N - 1) : ℝ) : ℂ) := by
  have hpoly : Chebyshev.T ℂ N + C (cosh (2 * N * μ)) =
      C (2 ^ (N - 1)) * ∏ i ∈ range N, (X - C (-cosh (2 * (μ + I * angle N i)))) := by
    have hd : (Chebyshev.T ℂ N).degree = N := by rw [Chebyshev.degree_T]; simp
    have hd1 : (Chebyshev.T ℂ N + C (cosh (2 * N * μ))).degree = N := by
      rw [degree_add_C (by rw [hd]; exact_mod_cast hN), hd]
    have hm : (∏ i ∈ range N, (X - C (-cosh (2 * ((μ : ℂ) + I * angle N i))))).Monic :=
      monic_prod_of_monic _ _ fun i _ => monic_X_sub_C _
    have h2 : (2 : ℂ) ^ (N - 1) ≠ 0 := pow_ne_zero _ two_ne_zero
    refine eq_of_degree_le_of_eval_index_eq (range N)
      (v := fun i : ℕ => -cosh (2 * ((μ : ℂ) + I * angle N i))) ?_ ?_ ?_ ?_ ?_
    · intro i hi j hj h
      exact cosh_inj hμ (by simpa using hi) (by simpa using hj) (neg_injective h)
    · rw [hd1, card_range]
    · rw [hd1, degree_C_mul h2, degree_prod]
      simp
    · rw [leadingCoeff_add_of_degree_lt' (by
        rw [hd]; exact (degree_C_le).trans_lt (by exact_mod_cast hN)), Chebyshev.leadingCoeff_T, leadingCoeff_mul,
        leadingCoeff_C, hm.leadingCoeff]
      simp
    · intro i hi
      rw [eval_add, eval_C, cosh_root μ (Finset.mem_range.mp hi), eval_mul, eval_prod,
        Finset.prod_eq_zero hi (by simp)]
      simp
  have hT : (Chebyshev.T ℂ N).eval (2 * (x : ℂ) ^ 2 - 1) = 2 * (Chebyshev.T ℂ N).eval (x : ℂ) ^ 2 - 1 := by
    have h1 := congrArg (Polynomial.eval (x : ℂ)) (Chebyshev.T_mul ℂ N 2)
    have h2 := congrArg (Polynomial.eval (x : ℂ)) (Chebyshev.T_mul_T ℂ N N)
    rw [eval_comp, Chebyshev.T_two] at h1
    simp only [eval_sub, eval_mul, eval_pow, eval_X, eval_one, eval_ofNat, eval_add, sub_self, Chebyshev.T_zero] at h1 h2
    rw [← h1, mul_two]
    linear_combination -h2
  have hx := congrArg (Polynomial.eval (2 * (x : ℂ) ^ 2 - 1)) hpoly
  rw [eval_add, eval_C, hT, eval_mul, eval_C, eval_prod] at hx
  have hfac : ∀ i ∈ range N, (x : ℂ) ^ 2 + pole (Real.sinh μ) (Real.cosh μ) N i ^ 2 =
      1 / 2 * (X - C (-cosh (2 * ((μ : ℂ) + I * angle N i)))).eval (2 * (x : ℂ) ^ 2 - 1) := by
    intro i _
    rw [← sinh_pole, eval_sub, eval_X, eval_C, cosh_two_mul, cosh_sq]
    ring
  rw [Finset.prod_congr rfl hfac, Finset.prod_mul_distrib, Finset.prod_const, card_range]
  have hc : cosh (2 * N * μ) = 1 + 2 * sinh (N * μ) ^ 2 := by
    rw [mul_assoc, cosh_two_mul, cosh_sq]
    ring
  rw [hc] at hx
  push_cast
  obtain ⟨n, rfl⟩ : ∃ n, N = n + 1 := ⟨N - 1, by omega⟩
  rw [Nat.add_sub_cancel] at hx ⊢
  have h4 : (4 : ℂ) ^ n = 2 ^ n * 2 ^ n := by rw [← mul_pow]; norm_num
  have h2 : (2 : ℂ) ^ n ≠ 0 := pow_ne_zero _ two_ne_zero
  rw [h4, eq_div_iff (mul_ne_zero h2 h2), one_div, inv_pow, pow_succ]
  generalize sinh (((n + 1 : ℕ) : ℂ) * μ) = S at hx ⊢
  field_simp
  linear_combination (-1 : ℂ) * hx

/-! ### constant gain -/

theorem Paired.prod_pos {l : List ℂ} (h : Paired l) (hre : ∀ a ∈ l, a.im = 0 → a.re < 0) :
    ∃ r : ℝ, 0 < r ∧ (l.map fun a => -a).prod = r := by
  induction h with
  | nil => exact ⟨1, one_pos, by simp⟩
  | one r h =>
    refine ⟨-r.re, by linarith [hre r (by simp) h], ?_⟩
    apply Complex.ext <;> simp [h]
  | pair a b l ha e hl ih =>
    obtain ⟨r, hr, h⟩ := ih fun c hc => hre c (by simp [hc])
    refine ⟨normSq b * r, mul_pos (normSq_pos.mpr ?_) hr, ?_⟩
    · rintro rfl
      apply ha
      rw [e]
      simp
    · rw [List.map_cons, List.map_cons, List.prod_cons, List.prod_cons, h, e]
      push_cast
      rw [← mul_conj]
      ring

theorem prod_neg_pos (sort : List ℂ → List ℂ) (hsort : Sorts sort) {l : List ℂ} (h : Conjugate l)
    (hre : ∀ a ∈ l, a.im = 0 → a.re < 0) : ∃ r : ℝ, 0 < r ∧ (l.map fun a => -a).prod = r := by
  obtain ⟨perm, srt⟩ := hsort l
  obtain ⟨r, hr, e⟩ := Paired.prod_pos ((h.perm perm).paired _ _ rfl srt) fun a ha => hre a (perm.mem_iff.mp ha)
  exact ⟨r, hr, by rw [← e, (perm.map _).prod_eq]⟩

/-- the constructor on a conjugate pattern -/
theorem system_ok (sort : List ℂ → List ℂ) (hsort : Sorts sort) (f : Zpk) (hz : Conjugate f.z) (hp : Conjugate f.p)
    (hlen : f.z.length ≤ f.p.length) (hne : f.p ≠ []) :
    ∃ g, system sort f = .ok g ∧ g.N = f.p.length ∧ g.L = 1 ∧ g.Nt = 1 ∧ ∀ s : ℂ, (∀ r ∈ f.p, s ≠ r) →
      (s • (1 : Matrix (Fin g.N) (Fin g.N) ℂ) - toM g.N g.N g.A).det ≠ 0 ∧
      ∀ i j, g.tfm s i j = zpkValue f.z f.p (|f.k| : ℝ) s := by
  obtain ⟨q, hq, hn, h⟩ := C26_conjugate_partial sort hsort f.z f.p f.k hz hp hlen hne
  refine ⟨q.sys, ?_, hn, rfl, rfl, fun s hs => ⟨(h s hs).1, fun i j => ?_⟩⟩
  · unfold system
    rw [hq]
    exact q.sys_new
  · rw [(h s hs).2]
    rfl

theorem list_prod (N : ℕ) (f : ℕ → ℂ) : ((List.range N).map f).prod = ∏ i ∈ range N, f i := by
  rw [Finset.prod_range, ← List.prod_ofFn, List.ofFn_eq_map, ← List.map_coe_finRange_eq_range, List.map_map]
  rfl

end Cbadc.Filters
