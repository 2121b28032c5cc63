import Mathlib.Analysis.SpecialFunctions.Log.Base
import Mathlib.Analysis.SpecialFunctions.Trigonometric.Chebyshev.RootsExtrema
import Verif.Lemmas.ChebyshevII
import Verif.Props.Filters

/-! # Chebyshev filters of the second kind (C118) -/

namespace Cbadc.Filters
open Complex Finset Polynomial Cbadc.Analog

/-- **C118 (part that holds)** every Chebyshev filter of the second kind of order `N ≥ 1`, critical frequency
`Wn > 0` and attenuation `rs > 0` no two pole pairs of which have the same imaginary parts is constructed; it has
`N` states, one input and one output, no pole in the closed right half plane, constant gain one, and its squared
magnitude response is the textbook one.  (Missing: attenuations with such a tie, where the order of the sorted
poles is not specified.) -/
theorem C118_chebyshevII_partial (sort : List ℂ → List ℂ) (hsort : Sorts sort) (N : ℕ) (hN : 0 < N) (Wn rs : ℝ)
    (hW : 0 < Wn) (hrs : 0 < rs)
    (htie : NoTie N (Real.arsinh (Real.sqrt ((10 : ℝ) ^ (rs / 10) - 1)) / N)) :
    ∃ g, chebyshevII sort N Wn rs = .ok g ∧ g.N = N ∧ g.L = 1 ∧ g.Nt = 1 ∧
      (∀ s : ℂ, 0 ≤ s.re → (s • (1 : Matrix (Fin g.N) (Fin g.N) ℂ) - toM g.N g.N g.A).det ≠ 0) ∧
      (∀ i j, g.tfm 0 i j = 1) ∧
      ∀ (ω : ℝ) i j, ω ≠ 0 → ‖g.tfm (jw ω) i j‖ ^ 2 =
        Spec.chebyshevII N (1 / Real.sqrt ((10 : ℝ) ^ (rs / 10) - 1)) (Wn / ω) := by
  obtain ⟨hε, -⟩ := ripple_sq hrs
  rw [← ripple] at htie ⊢
  set μ := Real.arsinh (ripple rs) / N with hμdef
  have hN' : (0 : ℝ) < N := by exact_mod_cast hN
  have hμ : 0 < μ := div_pos (Real.arsinh_pos_iff.mpr hε) hN'
  have hsinh : Real.sinh (N * μ) = ripple rs := by
    rw [hμdef, mul_div_cancel₀ _ hN'.ne', Real.sinh_arsinh]
  have ha : 0 < Real.sinh μ := Real.sinh_pos_iff.mpr hμ
  have hWc : (Wn : ℂ) ≠ 0 := by exact_mod_cast hW.ne'
  have hp0 : (cheb2ap N rs).p = (List.range N).map fun i => (pole (Real.sinh μ) (Real.cosh μ) N i)⁻¹ := by
    have e : Real.arsinh (1 / (1 / Real.sqrt ((10 : ℝ) ^ (rs / 10) - 1))) / N = μ := by
      rw [one_div_one_div]
      rfl
    simp only [cheb2ap, e]
    refine List.map_congr_left fun i _ => ?_
    rw [one_div]
    congr 1
    have := pole_circle 1 N i
    rw [ofReal_one, one_mul] at this
    rw [this]
    apply Complex.ext <;> simp [pole, -ofReal_cos, -ofReal_sin, -ofReal_sinh, -ofReal_cosh]
  have hz0 : (cheb2ap N rs).z = (zeros N).map (zero 1 N) := by
    simp only [cheb2ap, zeros]
    refine List.map_congr_left fun i _ => ?_
    rw [map_div₀, conj_I, conj_ofReal, neg_div, neg_neg]
    apply Complex.ext <;> simp [zero, -ofReal_sin, div_re, div_im, normSq_apply]
  have hlen0 : (cheb2ap N rs).p.length = N := by rw [hp0]; simp
  have hlenz : (cheb2ap N rs).z.length ≤ N := by
    rw [hz0, List.length_map, zeros]
    exact (List.length_filter_le _ _).trans (by simp)
  have hpole : (lp2lp (cheb2ap N rs) Wn).p =
      (List.range N).map fun i => (Wn : ℂ) * (pole (Real.sinh μ) (Real.cosh μ) N i)⁻¹ := by
    simp only [lp2lp, hp0, List.map_map]
    rfl
  have hzero : (lp2lp (cheb2ap N rs) Wn).z = (zeros N).map (zero Wn N) := by
    simp only [lp2lp, hz0, List.map_map]
    refine List.map_congr_left fun i _ => ?_
    apply Complex.ext <;> simp [zero, div_eq_mul_inv]
  have hlen : (lp2lp (cheb2ap N rs) Wn).p.length = N := by rw [hpole]; simp
  have hconj : Conjugate (lp2lp (cheb2ap N rs) Wn).p := by
    rw [hpole]
    exact inv_pole_conjugate hμ hW htie
  have hconjz : Conjugate (lp2lp (cheb2ap N rs) Wn).z := by
    rw [hzero]
    exact zero_conjugate hW N
  have hinv : ∀ w : ℝ, 0 < w → ∀ i < N, ((w : ℂ) * (pole (Real.sinh μ) (Real.cosh μ) N i)⁻¹).re < 0 := by
    intro w hw i hi
    have h1 := pole_re ha (Real.cosh μ) hi
    have h2 : 0 < normSq (pole (Real.sinh μ) (Real.cosh μ) N i) := by
      rw [normSq_pos]
      intro h
      rw [h] at h1
      simp at h1
    rw [re_ofReal_mul, inv_re]
    exact mul_neg_of_pos_of_neg hw (div_neg_of_neg_of_pos h1 h2)
  have hre : ∀ a ∈ (lp2lp (cheb2ap N rs) Wn).p, a.re < 0 := by
    intro a ha'
    rw [hpole] at ha'
    obtain ⟨i, hi, rfl⟩ := List.mem_map.mp ha'
    exact hinv Wn hW i (List.mem_range.mp hi)
  -- the products of the prototype
  have hc1 : Conjugate (cheb2ap N rs).p := by
    have := inv_pole_conjugate hμ one_pos htie
    simp only [ofReal_one, one_mul] at this
    rw [hp0]
    exact this
  obtain ⟨P, hP, eP⟩ := prod_neg_pos sort hsort hc1 (by
    intro a ha' _
    rw [hp0] at ha'
    obtain ⟨i, hi, rfl⟩ := List.mem_map.mp ha'
    have := hinv 1 one_pos i (List.mem_range.mp hi)
    rwa [ofReal_one, one_mul] at this)
  obtain ⟨Z, hZ, eZ⟩ := prod_neg_pos sort hsort (l := (cheb2ap N rs).z) (by
      rw [hz0]
      exact zero_conjugate one_pos N) (by
    intro a ha' h0
    rw [hz0] at ha'
    obtain ⟨i, hi, rfl⟩ := List.mem_map.mp ha'
    have := (mem_zeros.mp hi).2
    simp [zero, this] at h0)
  have hk0 : (cheb2ap N rs).k = P / Z := by
    have : (cheb2ap N rs).k = (((cheb2ap N rs).p.map fun p => -p).prod / ((cheb2ap N rs).z.map fun z => -z).prod).re :=
      rfl
    rw [this, eP, eZ, ← ofReal_div, ofReal_re]
  have hk : (lp2lp (cheb2ap N rs) Wn).k = P / Z * Wn ^ (N - (cheb2ap N rs).z.length) := by
    show (cheb2ap N rs).k * Wn ^ ((cheb2ap N rs).p.length - (cheb2ap N rs).z.length) = _
    rw [hlen0, hk0]
  have hkpos : 0 < (lp2lp (cheb2ap N rs) Wn).k := by
    rw [hk]
    positivity
  -- the transfer function in terms of the prototype
  have hval : ∀ s : ℂ, zpkValue (lp2lp (cheb2ap N rs) Wn).z (lp2lp (cheb2ap N rs) Wn).p
      (|(lp2lp (cheb2ap N rs) Wn).k| : ℝ) s =
      (P / Z : ℝ) * (((cheb2ap N rs).z.map fun z => s / Wn - z).prod / ((cheb2ap N rs).p.map fun p => s / Wn - p).prod) := by
    intro s
    have e : ∀ l : List ℂ, (l.map fun p => s - Wn * p).prod = (Wn : ℂ) ^ l.length * (l.map fun p => s / Wn - p).prod := by
      intro l
      induction l with
      | nil => simp
      | cons a l ih =>
        rw [List.map_cons, List.prod_cons, ih, List.map_cons, List.prod_cons, List.length_cons, pow_succ]
        have : s - Wn * a = Wn * (s / Wn - a) := by field_simp
        rw [this]
        ring
    have ez : ((lp2lp (cheb2ap N rs) Wn).z.map fun p => s - p).prod =
        (Wn : ℂ) ^ (cheb2ap N rs).z.length * ((cheb2ap N rs).z.map fun p => s / Wn - p).prod := by
      rw [← e]
      simp only [lp2lp, List.map_map]
      rfl
    have ep : ((lp2lp (cheb2ap N rs) Wn).p.map fun p => s - p).prod =
        (Wn : ℂ) ^ N * ((cheb2ap N rs).p.map fun p => s / Wn - p).prod := by
      have := e (cheb2ap N rs).p
      rw [hlen0] at this
      rw [← this]
      simp only [lp2lp, List.map_map]
      rfl
    rw [zpkValue, ez, ep, abs_of_pos hkpos, hk]
    push_cast
    have : (Wn : ℂ) ^ N = (Wn : ℂ) ^ (N - (cheb2ap N rs).z.length) * (Wn : ℂ) ^ (cheb2ap N rs).z.length := by
      rw [← pow_add, Nat.sub_add_cancel hlenz]
    rw [this]
    have h1 := pow_ne_zero (N - (cheb2ap N rs).z.length) hWc
    have h2 := pow_ne_zero (cheb2ap N rs).z.length hWc
    generalize (Wn : ℂ) ^ (N - (cheb2ap N rs).z.length) = a at h1 ⊢
    generalize (Wn : ℂ) ^ (cheb2ap N rs).z.length = b at h2 ⊢
    rw [mul_assoc a b, ← mul_div_mul_left _ (((cheb2ap N rs).p.map fun p => s / Wn - p).prod) (mul_ne_zero h1 h2)]
    ring
  obtain ⟨g, hg, hgN, hL, hNt, h⟩ := system_ok sort hsort (lp2lp (cheb2ap N rs) Wn) hconjz hconj
    (by rw [hlen, hzero, List.length_map, zeros]; exact (List.length_filter_le _ _).trans (by simp))
    (by rw [← List.length_pos_iff, hlen]; exact hN)
  have hs : ∀ s : ℂ, 0 ≤ s.re → ∀ r ∈ (lp2lp (cheb2ap N rs) Wn).p, s ≠ r := by
    rintro s h0 r hr rfl
    linarith [hre s hr]
  refine ⟨g, ?_, by rw [hgN, hlen], hL, hNt, fun s h0 => (h s (hs s h0)).1, fun i j => ?_, fun ω i j hω => ?_⟩
  · rw [chebyshevII, if_neg (by rintro (h | h) <;> linarith), if_neg hrs.ne', hg]
  · rw [(h 0 (hs 0 le_rfl)).2, hval]
    simp only [zero_div, zero_sub]
    rw [eP, eZ]
    have h1 : (P : ℂ) ≠ 0 := by exact_mod_cast hP.ne'
    have h2 : (Z : ℂ) ≠ 0 := by exact_mod_cast hZ.ne'
    push_cast
    field_simp
  · rw [(h (jw ω) (hs _ (by simp [jw]))).2, hval]
    set x := ω / Wn with hx
    have hx0 : x ≠ 0 := div_ne_zero hω hW.ne'
    have hjw : jw ω / Wn = x * I := by
      rw [jw, hx]
      push_cast
      ring
    rw [hjw, norm_mul, norm_div, norm_real, Real.norm_eq_abs, abs_of_pos (div_pos hP hZ)]
    -- zeros
    have hzn := zeros_norm hN hx0
    have hZs : Z * ‖((zeros N).map fun i => (Real.sin (angle N i) : ℂ)).prod‖ = 1 := by
      have : ‖((cheb2ap N rs).z.map fun a => -a).prod‖ = Z := by
        rw [eZ, norm_real, Real.norm_eq_abs, abs_of_pos hZ]
      rw [← this, hz0, List.map_map, ← norm_mul, ← List.prod_map_mul]
      have e : ∀ l : List ℕ, (∀ i ∈ l, i ∈ zeros N) →
          ‖(l.map fun i => ((fun a => -a) ∘ zero 1 N) i * (Real.sin (angle N i) : ℂ)).prod‖ = 1 := by
        intro l
        induction l with
        | nil => simp
        | cons i l ih =>
          intro hl
          rw [List.map_cons, List.prod_cons, norm_mul, ih fun k hk => hl k (by simp [hk]), mul_one]
          have h0 := (mem_zeros.mp (hl i (by simp))).2
          have : ((fun a => -a) ∘ zero 1 N) i * (Real.sin (angle N i) : ℂ) = -I := by
            apply Complex.ext <;> simp [zero, -ofReal_sin, h0]
          rw [this, norm_neg, norm_I]
      exact e _ fun i hi => hi
    -- poles
    have hpn : ‖((cheb2ap N rs).p.map fun p => x * I - p).prod‖ ^ 2 =
        P ^ 2 * (x ^ 2) ^ N * (((Chebyshev.T ℝ N).eval (1 / x) ^ 2 + ripple rs ^ 2) / 4 ^ (N - 1)) := by
      have hnorm : ‖∏ i ∈ range N, (((-(1 / x) : ℝ) : ℂ) * I - pole (Real.sinh μ) (Real.cosh μ) N i)‖ ^ 2 =
          ((Chebyshev.T ℝ N).eval (1 / x) ^ 2 + ripple rs ^ 2) / 4 ^ (N - 1) := by
        have h := norm_prod (Real.sinh μ) (Real.cosh μ) N (-(1 / x))
        rw [ellipse_prod hμ hN, hsinh, Chebyshev.T_eval_neg] at h
        have h' := ofReal_injective h
        rw [h', mul_pow]
        rcases Int.units_eq_one_or (N : ℤ).negOnePow with e | e <;> simp [e]
      rw [← hnorm]
      have : ‖((cheb2ap N rs).p.map fun a => -a).prod‖ = P := by
        rw [eP, norm_real, Real.norm_eq_abs, abs_of_pos hP]
      rw [← this, hp0, List.map_map, List.map_map, list_prod, list_prod]
      have e : ∀ i ∈ range N, ((fun p => x * I - p) ∘ fun i => (pole (Real.sinh μ) (Real.cosh μ) N i)⁻¹) i =
          ((fun a => -a) ∘ fun i => (pole (Real.sinh μ) (Real.cosh μ) N i)⁻¹) i * (x * I) *
          (((-(1 / x) : ℝ) : ℂ) * I - pole (Real.sinh μ) (Real.cosh μ) N i) := by
        intro i hi
        have h1 := pole_re ha (Real.cosh μ) (Finset.mem_range.mp hi)
        have h2 : pole (Real.sinh μ) (Real.cosh μ) N i ≠ 0 := by
          intro h
          rw [h] at h1
          simp at h1
        have hxc : (x : ℂ) ≠ 0 := by exact_mod_cast hx0
        simp only [Function.comp_apply]
        push_cast
        field_simp
        ring_nf
        rw [I_sq]
        ring
      rw [Finset.prod_congr rfl e, Finset.prod_mul_distrib, Finset.prod_mul_distrib, Finset.prod_const, card_range,
        norm_mul, norm_mul, norm_pow, norm_mul, norm_I, mul_one, norm_real, Real.norm_eq_abs, mul_pow, mul_pow,
        ← pow_mul, mul_comm N 2, pow_mul, sq_abs]
    have hzn2 : ‖((cheb2ap N rs).z.map fun z => x * I - z).prod‖ =
        Z * (|x| ^ N * |(Chebyshev.T ℝ N).eval (1 / x)| / 2 ^ (N - 1)) := by
      rw [← hzn, hz0, List.map_map]
      calc _ = ‖((zeros N).map fun i => x * I - zero 1 N i).prod‖ * 1 := by rw [mul_one]; rfl
        _ = _ := by rw [← hZs]; ring
    have hT : (Wn / ω) = 1 / x := by rw [hx, one_div_div]
    rw [hT, mul_pow, div_pow, div_pow, hpn, hzn2, Spec.chebyshevII, mul_pow, div_pow, mul_pow, sq_abs, ← pow_mul,
      mul_comm N 2, pow_mul |x|, sq_abs]
    have h4 : ((2 : ℝ) ^ (N - 1)) ^ 2 = 4 ^ (N - 1) := by rw [← pow_mul, mul_comm, pow_mul]; norm_num
    rw [h4]
    have hxN : 0 < (x ^ 2) ^ N := by positivity
    generalize (x ^ 2) ^ N = X at hxN ⊢
    generalize (Chebyshev.T ℝ N).eval (1 / x) = T
    have h5 : (0 : ℝ) < 4 ^ (N - 1) := by positivity
    generalize (4 : ℝ) ^ (N - 1) = F at h5 ⊢
    have h6 : 0 < T ^ 2 + ripple rs ^ 2 := by positivity
    have h7 : 0 < 1 + (1 / ripple rs) ^ 2 * T ^ 2 := by positivity
    rw [eq_sub_iff_add_eq]
    field_simp
    ring

/-- **C118 (part that holds)** from the critical frequency on the response is at least `rs` decibel below one, before
it is less than `rs` decibel below one -/
theorem C118_stopband_partial (sort : List ℂ → List ℂ) (hsort : Sorts sort) (N : ℕ) (hN : 0 < N) (Wn rs : ℝ)
    (hW : 0 < Wn) (hrs : 0 < rs)
    (htie : NoTie N (Real.arsinh (Real.sqrt ((10 : ℝ) ^ (rs / 10) - 1)) / N))
    (g : Sys ℂ) (hg : chebyshevII sort N Wn rs = .ok g) (ω : ℝ) (i j) :
    (Wn ≤ |ω| → ‖g.tfm (jw ω) i j‖ ^ 2 ≤ (10 : ℝ) ^ (-rs / 10)) ∧
    (|ω| < Wn → (10 : ℝ) ^ (-rs / 10) < ‖g.tfm (jw ω) i j‖ ^ 2 ∧ ‖g.tfm (jw ω) i j‖ ^ 2 ≤ 1) := by
  obtain ⟨hε, hε2⟩ := ripple_sq hrs
  obtain ⟨g', hg', -, -, -, -, h0, h⟩ := C118_chebyshevII_partial sort hsort N hN Wn rs hW hrs htie
  rw [hg] at hg'
  cases hg'
  have hten : (10 : ℝ) ^ (-rs / 10) = 1 / (1 + ripple rs ^ 2) := by
    rw [hε2, neg_div, Real.rpow_neg (by norm_num), one_div]
  have hne : (N : ℤ) ≠ 0 := by exact_mod_cast hN.ne'
  rw [← ripple] at h
  rw [hten]
  have hε3 := pow_pos hε 2
  by_cases hω : ω = 0
  · subst hω
    have : jw 0 = 0 := by simp [jw]
    rw [this, h0, norm_one, one_pow, abs_zero]
    refine ⟨fun h => absurd h (by linarith), fun _ => ⟨?_, le_rfl⟩⟩
    rw [div_lt_one (by positivity)]
    linarith
  · have hω' : 0 < |ω| := abs_pos.mpr hω
    have hx : |Wn / ω| = Wn / |ω| := by rw [abs_div, abs_of_pos hW]
    rw [h ω i j hω, Spec.chebyshevII]
    have key : ∀ T : ℝ, 1 - 1 / (1 + (1 / ripple rs) ^ 2 * T ^ 2) = T ^ 2 / (ripple rs ^ 2 + T ^ 2) := by
      intro T
      have : 0 < ripple rs ^ 2 + T ^ 2 := by positivity
      have : 0 < 1 + (1 / ripple rs) ^ 2 * T ^ 2 := by positivity
      rw [sub_eq_iff_eq_add]
      field_simp
      ring
    rw [key]
    refine ⟨fun hc => ?_, fun hc => ?_⟩
    · have hT : (Chebyshev.T ℝ N).eval (Wn / ω) ^ 2 ≤ 1 := by
        rw [← sq_abs]
        have := (Chebyshev.abs_eval_T_real_le_one_iff hne (Wn / ω)).mp (by rw [hx, div_le_one hω']; exact hc)
        exact pow_le_one₀ (abs_nonneg _) this
      rw [div_le_div_iff₀ (by positivity) (by positivity)]
      nlinarith
    · have hT : 1 < (Chebyshev.T ℝ N).eval (Wn / ω) ^ 2 := by
        rw [← sq_abs]
        have := Chebyshev.one_lt_abs_eval_T_real hne (x := Wn / ω) (by rw [hx, one_lt_div hω']; exact hc)
        exact one_lt_pow₀ this two_ne_zero
      constructor
      · rw [div_lt_div_iff₀ (by positivity) (by positivity)]
        nlinarith
      · rw [div_le_one (by positivity)]
        linarith

/-- up to the order three there are no ties -/
theorem noTie_three {μ : ℝ} (hμ : 0 < μ) : NoTie 3 μ := by
  intro i hi j hj hne h
  have h1 : Real.sin (angle 3 1) = 0 := (angle_zero (by norm_num)).mpr (by norm_num)
  have h2 : Real.sin (angle 3 2) = -Real.sin (angle 3 0) := by
    rw [← Real.sin_neg, ← angle_reflect (by norm_num)]
  have h3 := pow_pos (Real.sinh_pos_iff.mpr hμ) 2
  interval_cases i <;> interval_cases j <;> simp [h1, h2] at hne h <;> exact h3.ne' (by simp [← h])

/-- the hypotheses hold for a filter of order three -/
example : ∃ sort, Sorts sort ∧ ∃ g, chebyshevII sort 3 100 40 = .ok g ∧ g.N = 3 := by
  classical
  let r : ℂ → ℂ → Prop := fun a b => |b.im| ≤ |a.im|
  have : Std.Total r := ⟨fun a b => le_total _ _⟩
  have : IsTrans ℂ r := ⟨fun a b c h1 h2 => le_trans h2 h1⟩
  have hs : Sorts fun l => l.insertionSort r :=
    fun l => ⟨List.perm_insertionSort _ _, List.pairwise_insertionSort _ _⟩
  obtain ⟨g, h1, h2, -⟩ := C118_chebyshevII_partial _ hs 3 (by norm_num) 100 40 (by norm_num) (by norm_num)
    (noTie_three (div_pos (Real.arsinh_pos_iff.mpr (ripple_sq (by norm_num)).1) (by norm_num)))
  exact ⟨_, hs, g, h1, h2⟩

theorem tie_far {A B n w : ℝ} (hA0 : 0 < A) (hA : A < 0.25) (hB : 0.5 < B) (hn : 1.4 < n) (hw : w ≤ 2)
    (h : -(A / ((1 + n) / 2)) - -(B / (1 / 2)) ≤ 1e-8 + 1e-5 * w) : False := by
  have h1 : A / ((1 + n) / 2) ≤ A := div_le_self hA0.le (by linarith)
  have h2 : B / (1 / 2) = 2 * B := by ring
  rw [h2] at h
  norm_num at h hA hB
  linarith

/-- **C118 (false in general)** for the order four there is an attenuation at which both pole pairs have the same
imaginary parts; the sorting may then separate the pairs, and the construction fails. -/
theorem C118_tie_false : ∃ rs : ℝ, 0 < rs ∧ ∃ sort, Sorts sort ∧ chebyshevII sort 4 1 rs = .error .exception := by
  classical
  let r : ℂ → ℂ → Prop := fun a b => |b.im| ≤ |a.im|
  have : Std.Total r := ⟨fun a b => le_total _ _⟩
  have : IsTrans ℂ r := ⟨fun a b c h1 h2 => le_trans h2 h1⟩
  -- the attenuation
  have h2 : Real.sqrt 2 ^ 2 = 2 := Real.sq_sqrt (by norm_num)
  have h2p : 0 < Real.sqrt 2 := Real.sqrt_pos.mpr (by norm_num)
  obtain ⟨μ, hμ, hμs⟩ : ∃ μ : ℝ, 0 < μ ∧ Real.sinh μ ^ 2 = Real.sqrt 2 / 4 := by
    refine ⟨Real.arsinh (Real.sqrt (Real.sqrt 2 / 4)), Real.arsinh_pos_iff.mpr (Real.sqrt_pos.mpr (by positivity)), ?_⟩
    rw [Real.sinh_arsinh, Real.sq_sqrt (by positivity)]
  have ha : 0 < Real.sinh μ := Real.sinh_pos_iff.mpr hμ
  have h4μ : 0 < Real.sinh (4 * μ) := Real.sinh_pos_iff.mpr (by linarith)
  set rs := 10 * Real.logb 10 (1 + Real.sinh (4 * μ) ^ 2) with hrs
  have hten : (10 : ℝ) ^ (rs / 10) = 1 + Real.sinh (4 * μ) ^ 2 := by
    rw [hrs, mul_div_cancel_left₀ _ (by norm_num), Real.rpow_logb (by norm_num) (by norm_num) (by positivity)]
  have hrs0 : 0 < rs := by
    refine mul_pos (by norm_num) (Real.logb_pos (by norm_num) ?_)
    have := pow_pos h4μ 2
    linarith
  have hrip : ripple rs = Real.sinh (4 * μ) := by
    rw [ripple, hten, add_sub_cancel_left, Real.sqrt_sq h4μ.le]
  -- the poles
  have hp0 : (cheb2ap 4 rs).p = (List.range 4).map fun i => (pole (Real.sinh μ) (Real.cosh μ) 4 i)⁻¹ := by
    have e : Real.arsinh (1 / (1 / Real.sqrt ((10 : ℝ) ^ (rs / 10) - 1))) / (4 : ℕ) = μ := by
      rw [one_div_one_div, ← ripple, hrip, Real.arsinh_sinh]
      push_cast
      field_simp
    simp only [cheb2ap, e]
    refine List.map_congr_left fun i _ => ?_
    rw [one_div]
    congr 1
    have := pole_circle 1 4 i
    rw [ofReal_one, one_mul] at this
    rw [this]
    apply Complex.ext <;> simp [pole, -ofReal_cos, -ofReal_sin, -ofReal_sinh, -ofReal_cosh]
  have hpole : (lp2lp (cheb2ap 4 rs) 1).p = (List.range 4).map fun i => (pole (Real.sinh μ) (Real.cosh μ) 4 i)⁻¹ := by
    simp only [lp2lp, hp0, ofReal_one, one_mul, List.map_id']
  -- sines and cosines
  have hs0 : Real.sin (angle 4 0) ^ 2 = (2 + Real.sqrt 2) / 4 ∧ Real.cos (angle 4 0) ^ 2 = (2 - Real.sqrt 2) / 4 := by
    have e : angle 4 0 = -(Real.pi / 2 - Real.pi / 8) := by unfold angle; push_cast; ring
    rw [e, Real.sin_neg, Real.cos_neg, Real.sin_pi_div_two_sub, Real.cos_pi_div_two_sub, neg_sq,
      Real.cos_pi_div_eight, Real.sin_pi_div_eight, div_pow, div_pow, Real.sq_sqrt (by nlinarith),
      Real.sq_sqrt (by nlinarith)]
    norm_num
  have hs1 : Real.sin (angle 4 1) ^ 2 = (2 - Real.sqrt 2) / 4 ∧ Real.cos (angle 4 1) ^ 2 = (2 + Real.sqrt 2) / 4 := by
    have e : angle 4 1 = -(Real.pi / 8) := by unfold angle; push_cast; ring
    rw [e, Real.sin_neg, Real.cos_neg, neg_sq, Real.cos_pi_div_eight, Real.sin_pi_div_eight, div_pow, div_pow,
      Real.sq_sqrt (by nlinarith), Real.sq_sqrt (by nlinarith)]
    norm_num
  have hn : ∀ i, normSq (pole (Real.sinh μ) (Real.cosh μ) 4 i) = Real.sqrt 2 / 4 + Real.sin (angle 4 i) ^ 2 := by
    intro i
    have h1 := Real.sin_sq_add_cos_sq (angle 4 i)
    rw [normSq_apply]
    simp only [pole]
    have h3 := Real.cosh_sq μ
    calc _ = Real.sinh μ ^ 2 * Real.cos (angle 4 i) ^ 2 + Real.cosh μ ^ 2 * Real.sin (angle 4 i) ^ 2 := by ring
      _ = Real.sinh μ ^ 2 * (Real.sin (angle 4 i) ^ 2 + Real.cos (angle 4 i) ^ 2) + Real.sin (angle 4 i) ^ 2 := by
        rw [h3]; ring
      _ = _ := by rw [h1, hμs, mul_one]
  have hn0 : normSq (pole (Real.sinh μ) (Real.cosh μ) 4 0) = (1 + Real.sqrt 2) / 2 := by rw [hn, hs0.1]; ring
  have hn1 : normSq (pole (Real.sinh μ) (Real.cosh μ) 4 1) = 1 / 2 := by rw [hn, hs1.1]; ring
  have hc2 : Real.cosh μ ^ 2 = 1 + Real.sqrt 2 / 4 := by rw [Real.cosh_sq, hμs]; ring
  -- all imaginary parts have the same magnitude
  have him : ∀ i < 4, ((pole (Real.sinh μ) (Real.cosh μ) 4 i)⁻¹).im ^ 2 =
      (1 + Real.sqrt 2 / 4) * (2 - Real.sqrt 2) := by
    have h0 : ((pole (Real.sinh μ) (Real.cosh μ) 4 0)⁻¹).im ^ 2 = (1 + Real.sqrt 2 / 4) * (2 - Real.sqrt 2) := by
      rw [inv_im, hn0]
      simp only [pole]
      rw [neg_neg, div_pow, mul_pow, hc2, hs0.1, div_eq_iff (by positivity)]
      nlinarith
    have h1 : ((pole (Real.sinh μ) (Real.cosh μ) 4 1)⁻¹).im ^ 2 = (1 + Real.sqrt 2 / 4) * (2 - Real.sqrt 2) := by
      rw [inv_im, hn1]
      simp only [pole]
      rw [neg_neg, div_pow, mul_pow, hc2, hs1.1]
      ring
    have hr : ∀ i < 4, ((pole (Real.sinh μ) (Real.cosh μ) 4 (4 - 1 - i))⁻¹).im ^ 2 =
        ((pole (Real.sinh μ) (Real.cosh μ) 4 i)⁻¹).im ^ 2 := by
      intro i hi
      rw [pole_reflect _ _ hi, ← map_inv₀, conj_im, neg_sq]
    intro i hi
    interval_cases i
    · exact h0
    · exact h1
    · exact (hr 1 (by norm_num)).trans h1
    · exact (hr 0 (by norm_num)).trans h0
  have hlt : Real.sqrt 2 < 1.5 := by
    rw [Real.sqrt_lt' (by norm_num)]
    norm_num
  have hgt : 1.4 < Real.sqrt 2 := by
    rw [Real.lt_sqrt (by norm_num)]
    norm_num
  have him0 : ∀ i < 4, ((pole (Real.sinh μ) (Real.cosh μ) 4 i)⁻¹).im ≠ 0 := by
    intro i hi h
    have := him i hi
    rw [h] at this
    nlinarith
  -- the first two poles are not conjugate
  have hfar : ¬ closeC (pole (Real.sinh μ) (Real.cosh μ) 4 0)⁻¹
      (starRingEnd ℂ (pole (Real.sinh μ) (Real.cosh μ) 4 1)⁻¹) := by
    intro h
    unfold closeC at h
    have hB : ‖starRingEnd ℂ (pole (Real.sinh μ) (Real.cosh μ) 4 1)⁻¹‖ ≤ 2 := by
      rw [RCLike.norm_conj, norm_inv]
      refine inv_le_of_inv_le₀ (by norm_num) ?_
      refine le_of_sq_le_sq ?_ (norm_nonneg _)
      rw [← normSq_eq_norm_sq, hn1]
      norm_num
    have h' := (abs_re_le_norm _).trans h
    rw [sub_re, conj_re, inv_re, inv_re, hn0, hn1] at h'
    simp only [pole] at h'
    have hc0 := Real.cos_pos_of_mem_Ioo ⟨neg_angle_lt (by norm_num : 0 < 4), angle_lt (by norm_num : 0 < 4)⟩
    have hc1 := Real.cos_pos_of_mem_Ioo ⟨neg_angle_lt (by norm_num : 1 < 4), angle_lt (by norm_num : 1 < 4)⟩
    have hA : (Real.sinh μ * Real.cos (angle 4 0)) ^ 2 < 0.06 := by
      rw [mul_pow, hμs, hs0.2]
      nlinarith
    have hB' : 0.25 < (Real.sinh μ * Real.cos (angle 4 1)) ^ 2 := by
      rw [mul_pow, hμs, hs1.2]
      nlinarith
    have hA1 : Real.sinh μ * Real.cos (angle 4 0) < 0.25 :=
      lt_of_pow_lt_pow_left₀ 2 (by norm_num) (hA.trans (by norm_num))
    have hB1 : 0.5 < Real.sinh μ * Real.cos (angle 4 1) :=
      lt_of_pow_lt_pow_left₀ 2 (mul_pos ha hc1).le (lt_of_eq_of_lt (by norm_num) hB')
    have hle := (abs_le.mp h').2
    rw [neg_div, neg_div] at hle
    exact tie_far (mul_pos ha hc0) hA1 hB1 hgt hB hle
  -- the sorting
  let L := (List.range 4).map fun i => (pole (Real.sinh μ) (Real.cosh μ) 4 i)⁻¹
  refine ⟨rs, hrs0, fun l => if l = L then L else l.insertionSort r, fun l => ?_, ?_⟩
  · by_cases h : l = L
    · simp only [if_pos h]
      refine ⟨by rw [h], ?_⟩
      refine List.pairwise_of_forall_mem_list fun a ha' b hb' => ?_
      obtain ⟨i, hi, rfl⟩ := List.mem_map.mp ha'
      obtain ⟨j, hj, rfl⟩ := List.mem_map.mp hb'
      rw [← sq_le_sq, him i (List.mem_range.mp hi), him j (List.mem_range.mp hj)]
    · simp only [if_neg h]
      exact ⟨List.perm_insertionSort _ _, List.pairwise_insertionSort _ _⟩
  · rw [chebyshevII, if_neg (by rintro (h | h) <;> linarith), if_neg hrs0.ne']
    have hz : (lp2lp (cheb2ap 4 rs) 1).z.length ≤ 4 := by
      simp only [lp2lp, cheb2ap, List.length_map]
      exact (List.length_filter_le _ _).trans (by simp)
    have hsort : sortByComplex (fun l => if l = L then L else l.insertionSort r) (lp2lp (cheb2ap 4 rs) 1).p =
        .error .exception := by
      unfold sortByComplex
      simp only [hpole]
      rw [if_pos rfl, if_neg]
      intro h
      have e : L.filter (fun z => z.im ≠ 0) = L := by
        rw [List.filter_eq_self]
        intro a ha'
        obtain ⟨i, hi, rfl⟩ := List.mem_map.mp ha'
        simpa using him0 i (List.mem_range.mp hi)
      rw [e] at h
      exact hfar h.1
    unfold system zpk2abcd
    rw [if_neg (by rw [hpole, List.length_map, List.length_range]; omega), hsort]
    rfl

end Cbadc.Filters
