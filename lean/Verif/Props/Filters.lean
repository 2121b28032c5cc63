import Mathlib.Analysis.SpecialFunctions.Trigonometric.Chebyshev.RootsExtrema
import Verif.Lemmas.Filters
import Verif.Spec.Filters
import Verif.Model.TransferFunction

/-! # Standard filters (C116, C117) -/

namespace Cbadc.Filters
open Complex Finset Polynomial Cbadc.Analog

/-- **C116** every Butterworth filter of order `N ≥ 1` and critical frequency `Wn > 0` is constructed; it has `N`
states, one input and one output, no pole in the closed right half plane, constant gain one, and its squared
magnitude response is the textbook one. -/
theorem C116_butterworth (sort : List ℂ → List ℂ) (hsort : Sorts sort) (N : ℕ) (hN : 0 < N) (Wn : ℝ) (hW : 0 < Wn) :
    ∃ g, butterWorth sort N Wn = .ok g ∧ g.N = N ∧ g.L = 1 ∧ g.Nt = 1 ∧
      (∀ s : ℂ, 0 ≤ s.re → (s • (1 : Matrix (Fin g.N) (Fin g.N) ℂ) - toM g.N g.N g.A).det ≠ 0) ∧
      (∀ i j, g.tfm 0 i j = 1) ∧
      ∀ (ω : ℝ) i j, ‖g.tfm (jw ω) i j‖ ^ 2 = Spec.butterworth N (ω / Wn) := by
  have hpole : (lp2lp (buttap N) Wn).p = (List.range N).map (pole Wn Wn N) := by
    simp only [lp2lp, buttap, List.map_map]
    exact List.map_congr_left fun i _ => pole_circle Wn N i
  have hzero : (lp2lp (buttap N) Wn).z = [] := rfl
  have hk : (lp2lp (buttap N) Wn).k = Wn ^ N := by simp [lp2lp, buttap]
  have hconj : Conjugate (lp2lp (buttap N) Wn).p := by
    rw [hpole]
    exact pole_conjugate Wn hW N
  have hre : ∀ a ∈ (lp2lp (buttap N) Wn).p, a.re < 0 := by
    intro a ha
    rw [hpole] at ha
    obtain ⟨i, hi, rfl⟩ := List.mem_map.mp ha
    exact pole_re hW Wn (List.mem_range.mp hi)
  have hlen : (lp2lp (buttap N) Wn).p.length = N := by rw [hpole]; simp
  have hW2 : (0 : ℝ) < Wn ^ (2 * N) := pow_pos hW _
  have hnorm : ∀ ω : ℝ, ‖(((lp2lp (buttap N) Wn).p).map fun p => jw ω - p).prod‖ ^ 2 =
      ω ^ (2 * N) + Wn ^ (2 * N) := by
    intro ω
    rw [hpole, List.map_map, list_prod]
    have h := norm_prod Wn Wn N ω
    rw [circle_prod Wn hN, ← pow_mul] at h
    have h : ‖∏ i ∈ range N, (ω * I - pole Wn Wn N i)‖ ^ 2 = ω ^ (2 * N) + Wn ^ (2 * N) := by exact_mod_cast h
    exact h
  obtain ⟨g, hg, hgN, hL, hNt, h⟩ := system_ok sort hsort (lp2lp (buttap N) Wn)
    (by rw [hzero]; exact ⟨List.nodup_nil, by simp, by simp⟩) hconj (by rw [hzero]; simp)
    (by rw [← List.length_pos_iff, hlen]; exact hN)
  have hs : ∀ s : ℂ, 0 ≤ s.re → ∀ r ∈ (lp2lp (buttap N) Wn).p, s ≠ r := by
    rintro s h0 r hr rfl
    linarith [hre s hr]
  refine ⟨g, ?_, by rw [hgN, hlen], hL, hNt, fun s h0 => (h s (hs s h0)).1, fun i j => ?_, fun ω i j => ?_⟩
  · rw [butterWorth, if_neg (by linarith), hg]
  · rw [(h 0 (hs 0 le_rfl)).2, zpkValue, hzero, hk, abs_of_pos (pow_pos hW N)]
    obtain ⟨r, hr, e⟩ := prod_neg_pos sort hsort hconj fun a ha _ => hre a ha
    have h0 := hnorm 0
    simp only [jw, ofReal_zero, zero_mul, zero_sub] at h0 ⊢
    rw [e] at h0 ⊢
    rw [zero_pow (by omega), zero_add, norm_real, Real.norm_eq_abs, sq_abs, mul_comm 2 N, pow_mul] at h0
    have : r = Wn ^ N := (pow_left_inj₀ hr.le (pow_pos hW N).le two_ne_zero).mp h0
    rw [this]
    have : ((Wn ^ N : ℝ) : ℂ) ≠ 0 := by exact_mod_cast (pow_pos hW N).ne'
    simp only [List.map_nil, List.prod_nil, mul_one]
    exact div_self this
  · rw [(h (jw ω) (hs _ (by simp [jw]))).2, zpkValue, hzero, hk, List.map_nil, List.prod_nil, mul_one, norm_div,
      div_pow, hnorm, norm_real, Real.norm_eq_abs, abs_abs, sq_abs, ← pow_mul, mul_comm N 2, Spec.butterworth,
      div_pow]
    have h1 : (0 : ℝ) ≤ ω ^ (2 * N) := by
      rw [pow_mul]
      positivity
    rw [div_eq_div_iff (by positivity) (by positivity)]
    field_simp
    ring

/-- **C116** a frequency that is not positive, and the order zero, are rejected -/
theorem C116_rejects (sort : List ℂ → List ℂ) (N : ℕ) (Wn : ℝ) :
    (Wn ≤ 0 → butterWorth sort N Wn = .error .valueError) ∧
    (0 < Wn → butterWorth sort 0 Wn = .error .exception) := by
  refine ⟨fun h => if_pos h, fun h => ?_⟩
  unfold butterWorth system zpk2abcd
  rw [if_neg (by linarith), if_pos (Or.inr (by simp [lp2lp, buttap]))]
  rfl

/-- the ripple factor and the ripple in decibel -/
theorem ripple_sq {rp : ℝ} (h : 0 < rp) : 0 < ripple rp ∧ 1 + ripple rp ^ 2 = (10 : ℝ) ^ (rp / 10) := by
  have h1 : (1 : ℝ) < (10 : ℝ) ^ (rp / 10) := Real.one_lt_rpow (by norm_num) (by positivity)
  refine ⟨Real.sqrt_pos.mpr (by linarith), ?_⟩
  rw [ripple, Real.sq_sqrt (by linarith)]
  ring

/-- **C117** every Chebyshev filter of the first kind of order `N ≥ 1`, critical frequency `Wn > 0` and ripple
`rp > 0` is constructed; it has `N` states, one input and one output, no pole in the closed right half plane, its
squared magnitude response is the textbook one, and its constant gain is positive: one for odd `N`, and `rp`
decibel below one for even `N`. -/
theorem C117_chebyshev (sort : List ℂ → List ℂ) (hsort : Sorts sort) (N : ℕ) (hN : 0 < N) (Wn rp : ℝ)
    (hW : 0 < Wn) (hrp : 0 < rp) :
    ∃ g, chebyshevI sort N Wn rp = .ok g ∧ g.N = N ∧ g.L = 1 ∧ g.Nt = 1 ∧
      (∀ s : ℂ, 0 ≤ s.re → (s • (1 : Matrix (Fin g.N) (Fin g.N) ℂ) - toM g.N g.N g.A).det ≠ 0) ∧
      (∀ (ω : ℝ) i j, ‖g.tfm (jw ω) i j‖ ^ 2 =
        Spec.chebyshevI N (Real.sqrt ((10 : ℝ) ^ (rp / 10) - 1)) (ω / Wn)) ∧
      ∀ i j, g.tfm 0 i j = ((if N % 2 = 0 then (10 : ℝ) ^ (-rp / 20) else 1 : ℝ) : ℂ) := by
  obtain ⟨hε, hε2⟩ := ripple_sq hrp
  set μ := Real.arsinh (1 / ripple rp) / N with hμdef
  have hN' : (0 : ℝ) < N := by exact_mod_cast hN
  have hμ : 0 < μ := div_pos (Real.arsinh_pos_iff.mpr (by positivity)) hN'
  have hsinh : Real.sinh (N * μ) = 1 / ripple rp := by
    rw [hμdef, mul_div_cancel₀ _ hN'.ne', Real.sinh_arsinh]
  have ha : 0 < Real.sinh μ := Real.sinh_pos_iff.mpr hμ
  have hb : 0 < Real.cosh μ := Real.cosh_pos μ
  have hap : (cheb1ap N rp).p = (List.range N).map (pole (Real.sinh μ) (Real.cosh μ) N) := by
    simp only [cheb1ap]
    exact List.map_congr_left fun i _ => sinh_pole μ N i
  have hscale : ∀ i, (Wn : ℂ) * pole (Real.sinh μ) (Real.cosh μ) N i =
      pole (Wn * Real.sinh μ) (Wn * Real.cosh μ) N i := by
    intro i
    apply Complex.ext <;> simp [pole] <;> ring
  have hpole : (lp2lp (cheb1ap N rp) Wn).p = (List.range N).map (pole (Wn * Real.sinh μ) (Wn * Real.cosh μ) N) := by
    simp only [lp2lp, hap, List.map_map]
    exact List.map_congr_left fun i _ => hscale i
  have hzero : (lp2lp (cheb1ap N rp) Wn).z = [] := rfl
  have hlen : (lp2lp (cheb1ap N rp) Wn).p.length = N := by rw [hpole]; simp
  have hconj : Conjugate (lp2lp (cheb1ap N rp) Wn).p := by
    rw [hpole]
    exact pole_conjugate _ (mul_pos hW hb) N
  have hre : ∀ a ∈ (lp2lp (cheb1ap N rp) Wn).p, a.re < 0 := by
    intro a ha'
    rw [hpole] at ha'
    obtain ⟨i, hi, rfl⟩ := List.mem_map.mp ha'
    exact pole_re (mul_pos hW ha) _ (List.mem_range.mp hi)
  -- the squared distances from the poles
  have hnorm : ∀ x : ℝ, ‖∏ i ∈ range N, (x * I - pole (Real.sinh μ) (Real.cosh μ) N i)‖ ^ 2 =
      ((Chebyshev.T ℝ N).eval x ^ 2 + (1 / ripple rp) ^ 2) / 4 ^ (N - 1) := by
    intro x
    have h := norm_prod (Real.sinh μ) (Real.cosh μ) N x
    rw [ellipse_prod hμ hN, hsinh] at h
    exact_mod_cast h
  have hnormW : ∀ ω : ℝ, ‖(((lp2lp (cheb1ap N rp) Wn).p).map fun p => jw ω - p).prod‖ ^ 2 =
      Wn ^ (2 * N) * (((Chebyshev.T ℝ N).eval (ω / Wn) ^ 2 + (1 / ripple rp) ^ 2) / 4 ^ (N - 1)) := by
    intro ω
    rw [hpole, List.map_map, list_prod, ← hnorm]
    have : ∀ i ∈ range N, ((fun p => jw ω - p) ∘ pole (Wn * Real.sinh μ) (Wn * Real.cosh μ) N) i =
        Wn * (((ω / Wn : ℝ) : ℂ) * I - pole (Real.sinh μ) (Real.cosh μ) N i) := by
      intro i _
      have hWc : (Wn : ℂ) ≠ 0 := by exact_mod_cast hW.ne'
      simp only [Function.comp_apply, ← hscale, jw]
      push_cast
      field_simp
    rw [Finset.prod_congr rfl this, Finset.prod_mul_distrib, Finset.prod_const, card_range, norm_mul, norm_pow,
      norm_real, Real.norm_eq_abs, abs_of_pos hW, mul_pow, ← pow_mul, mul_comm N 2]
  -- the gain of the prototype
  have hconj0 : Conjugate (cheb1ap N rp).p := by
    rw [hap]
    exact pole_conjugate _ hb N
  have hre0 : ∀ a ∈ (cheb1ap N rp).p, a.re < 0 := by
    intro a ha'
    rw [hap] at ha'
    obtain ⟨i, hi, rfl⟩ := List.mem_map.mp ha'
    exact pole_re ha _ (List.mem_range.mp hi)
  obtain ⟨r, hr, er⟩ := prod_neg_pos sort hsort hconj0 fun a ha _ => hre0 a ha
  have hr2 : r ^ 2 = ((Chebyshev.T ℝ N).eval 0 ^ 2 + (1 / ripple rp) ^ 2) / 4 ^ (N - 1) := by
    have h0 := hnorm 0
    rw [hap, List.map_map, list_prod] at er
    simp only [ofReal_zero, zero_mul, zero_sub] at h0
    rw [← h0]
    simp only [Function.comp_apply] at er
    rw [er, norm_real, Real.norm_eq_abs, sq_abs]
  have hs1 : 0 < Real.sqrt (1 + ripple rp ^ 2) := Real.sqrt_pos.mpr (by positivity)
  have hkap : (cheb1ap N rp).k = if N % 2 = 0 then r / Real.sqrt (1 + ripple rp ^ 2) else r := by
    have : (((cheb1ap N rp).p.map fun p => -p).prod).re = r := by rw [er, ofReal_re]
    rw [← this]
    rfl
  have hkpos : 0 < (cheb1ap N rp).k := by
    rw [hkap]
    split_ifs
    · positivity
    · exact hr
  have hk2 : (cheb1ap N rp).k ^ 2 = (1 / ripple rp) ^ 2 / 4 ^ (N - 1) := by
    rw [hkap]
    split_ifs with he
    · have hT : (Chebyshev.T ℝ N).eval 0 ^ 2 = 1 := by
        rw [Chebyshev.T_eval_zero_of_even ℝ (by exact_mod_cast Nat.even_iff.mpr he)]
        rw [← sq_abs]
        simp
      rw [div_pow, Real.sq_sqrt (by positivity), hr2, hT]
      field_simp
      ring
    · rw [hr2, Chebyshev.T_eval_zero_of_odd ℝ (by exact_mod_cast Nat.odd_iff.mpr (by omega))]
      ring
  have hk : (lp2lp (cheb1ap N rp) Wn).k = (cheb1ap N rp).k * Wn ^ N := by
    have : (cheb1ap N rp).p.length = N := by rw [hap]; simp
    show (cheb1ap N rp).k * Wn ^ ((cheb1ap N rp).p.length - 0) = _
    rw [this, Nat.sub_zero]
  have hkW : 0 < (lp2lp (cheb1ap N rp) Wn).k := by
    rw [hk]
    positivity
  obtain ⟨g, hg, hgN, hL, hNt, h⟩ := system_ok sort hsort (lp2lp (cheb1ap N rp) Wn)
    (by rw [hzero]; exact ⟨List.nodup_nil, by simp, by simp⟩) hconj (by rw [hzero]; simp)
    (by rw [← List.length_pos_iff, hlen]; exact hN)
  have hs : ∀ s : ℂ, 0 ≤ s.re → ∀ r ∈ (lp2lp (cheb1ap N rp) Wn).p, s ≠ r := by
    rintro s h0 r hr rfl
    linarith [hre s hr]
  refine ⟨g, ?_, by rw [hgN, hlen], hL, hNt, fun s h0 => (h s (hs s h0)).1, fun ω i j => ?_, fun i j => ?_⟩
  · rw [chebyshevI, if_neg (by rintro (h | h) <;> linarith), if_neg hrp.ne', hg]
  · have h4 : (0 : ℝ) < 4 ^ (N - 1) := by positivity
    have hW2 : (0 : ℝ) < Wn ^ (2 * N) := pow_pos hW _
    rw [(h (jw ω) (hs _ (by simp [jw]))).2, zpkValue, hzero, List.map_nil, List.prod_nil, mul_one, norm_div,
      div_pow, hnormW, norm_real, Real.norm_eq_abs, abs_abs, sq_abs, hk, mul_pow, hk2, ← pow_mul, mul_comm N 2,
      Spec.chebyshevI, ← ripple]
    rw [div_eq_div_iff (by positivity) (by positivity)]
    field_simp
    ring
  · rw [(h 0 (hs 0 le_rfl)).2, zpkValue, hzero, abs_of_pos hkW, hk, hkap]
    have e : ((lp2lp (cheb1ap N rp) Wn).p.map fun p => 0 - p).prod = ((Wn ^ N * r : ℝ) : ℂ) := by
      have : ((lp2lp (cheb1ap N rp) Wn).p.map fun p : ℂ => (0 : ℂ) - p) = (cheb1ap N rp).p.map fun p => (Wn : ℂ) * -p := by
        simp only [lp2lp, List.map_map]
        refine List.map_congr_left fun p _ => ?_
        simp
      rw [this, List.prod_map_mul, er]
      have hl : (cheb1ap N rp).p.length = N := by rw [hap]; simp
      rw [List.map_const', List.prod_replicate, hl]
      push_cast
      rfl
    rw [e, List.map_nil, List.prod_nil, mul_one, ← ofReal_div]
    congr 1
    have hWN := (pow_pos hW N).ne'
    split_ifs
    · rw [hε2, Real.sqrt_eq_rpow, ← Real.rpow_mul (by norm_num)]
      rw [show -rp / 20 = -(rp / 10 * (1 / 2)) by ring, Real.rpow_neg (by norm_num)]
      field_simp
    · field_simp

/-- **C117** in the pass band the magnitude of the response stays between `-rp` and zero decibel, above the critical
frequency it is below `-rp` decibel -/
theorem C117_ripple (sort : List ℂ → List ℂ) (hsort : Sorts sort) (N : ℕ) (hN : 0 < N) (Wn rp : ℝ)
    (hW : 0 < Wn) (hrp : 0 < rp) (g : Sys ℂ) (hg : chebyshevI sort N Wn rp = .ok g) (ω : ℝ) (i j) :
    (|ω| ≤ Wn → (10 : ℝ) ^ (-rp / 10) ≤ ‖g.tfm (jw ω) i j‖ ^ 2 ∧ ‖g.tfm (jw ω) i j‖ ^ 2 ≤ 1) ∧
    (Wn < |ω| → ‖g.tfm (jw ω) i j‖ ^ 2 < (10 : ℝ) ^ (-rp / 10)) := by
  obtain ⟨hε, hε2⟩ := ripple_sq hrp
  obtain ⟨g', hg', -, -, -, -, h, -⟩ := C117_chebyshev sort hsort N hN Wn rp hW hrp
  rw [hg] at hg'
  cases hg'
  rw [h, Spec.chebyshevI, ← ripple]
  have e : (10 : ℝ) ^ (-rp / 10) = 1 / (1 + ripple rp ^ 2) := by
    rw [hε2, neg_div, Real.rpow_neg (by norm_num), one_div]
  have hx : |ω / Wn| = |ω| / Wn := by rw [abs_div, abs_of_pos hW]
  have hne : (N : ℤ) ≠ 0 := by exact_mod_cast hN.ne'
  rw [e]
  have hε3 := pow_pos hε 2
  refine ⟨fun hω => ?_, fun hω => ?_⟩
  · have hT : (Chebyshev.T ℝ N).eval (ω / Wn) ^ 2 ≤ 1 := by
      rw [← sq_abs]
      have := (Chebyshev.abs_eval_T_real_le_one_iff hne (ω / Wn)).mp (by rw [hx, div_le_one hW]; exact hω)
      exact pow_le_one₀ (abs_nonneg _) this
    have h0 := sq_nonneg ((Chebyshev.T ℝ N).eval (ω / Wn))
    constructor
    · exact one_div_le_one_div_of_le (by positivity) (by nlinarith)
    · rw [div_le_one (by positivity)]
      nlinarith
  · have hT : 1 < (Chebyshev.T ℝ N).eval (ω / Wn) ^ 2 := by
      rw [← sq_abs]
      have := Chebyshev.one_lt_abs_eval_T_real hne (x := ω / Wn) (by rw [hx, one_lt_div hW]; exact hω)
      exact one_lt_pow₀ this two_ne_zero
    exact one_div_lt_one_div_of_lt (by positivity) (by nlinarith)

/-- **C117** a frequency that is not positive, a negative ripple, and the order zero, are rejected -/
theorem C117_rejects (sort : List ℂ → List ℂ) (N : ℕ) (Wn rp : ℝ) :
    (Wn ≤ 0 ∨ rp < 0 → chebyshevI sort N Wn rp = .error .valueError) ∧
    (0 < Wn → 0 < rp → chebyshevI sort 0 Wn rp = .error .exception) := by
  refine ⟨fun h => if_pos h, fun h h' => ?_⟩
  unfold chebyshevI system zpk2abcd
  rw [if_neg (by rintro (h | h) <;> linarith), if_neg h'.ne', if_pos (Or.inr (by simp [lp2lp, cheb1ap]))]
  rfl

/-- `C117_ripple`: a sorting as the filters need it exists, and the hypotheses hold for filters of order five and four -/
example : ∃ sort, Sorts sort ∧ (∃ g, butterWorth sort 5 100 = .ok g ∧ g.N = 5) ∧
    ∃ g, chebyshevI sort 4 100 3 = .ok g ∧ g.N = 4 := by
  classical
  let r : ℂ → ℂ → Prop := fun a b => |b.im| ≤ |a.im|
  have : Std.Total r := ⟨fun a b => le_total _ _⟩
  have : IsTrans ℂ r := ⟨fun a b c h1 h2 => le_trans h2 h1⟩
  have hs : Sorts fun l => l.insertionSort r :=
    fun l => ⟨List.perm_insertionSort _ _, List.pairwise_insertionSort _ _⟩
  obtain ⟨g, h1, h2, -⟩ := C116_butterworth _ hs 5 (by norm_num) 100 (by norm_num)
  obtain ⟨g', h1', h2', -⟩ := C117_chebyshev _ hs 4 (by norm_num) 100 3 (by norm_num) (by norm_num)
  exact ⟨_, hs, ⟨g, h1, h2⟩, ⟨g', h1', h2'⟩⟩

end Cbadc.Filters
