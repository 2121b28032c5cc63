import Verif.Lemmas.Filters

/-! # Poles and zeros of the Chebyshev filters of the second kind -/

namespace Cbadc.Filters
open Complex Finset Polynomial Cbadc.Analog

/-- the sines of the angles are the roots of the Chebyshev polynomial -/
theorem chebyshev_prod {N : ℕ} (hN : 0 < N) (x : ℝ) :
    (Chebyshev.T ℝ N).eval x = 2 ^ (N - 1) * ∏ i ∈ range N, (x - Real.sin (angle N i)) := by
  have hpoly : Chebyshev.T ℝ N = C (2 ^ (N - 1)) * ∏ i ∈ range N, (X - C (Real.sin (angle N i))) := by
    have hd : (Chebyshev.T ℝ N).degree = N := by rw [Chebyshev.degree_T]; simp
    have hm : (∏ i ∈ range N, (X - C (Real.sin (angle N i)))).Monic :=
      monic_prod_of_monic _ _ fun i _ => monic_X_sub_C _
    have h2 : (2 : ℝ) ^ (N - 1) ≠ 0 := pow_ne_zero _ two_ne_zero
    refine eq_of_degree_le_of_eval_index_eq (range N) (v := fun i : ℕ => Real.sin (angle N i)) ?_ ?_ ?_ ?_ ?_
    · intro i hi j hj h
      exact sin_angle_inj (by simpa using hi) (by simpa using hj) h
    · rw [hd, card_range]
    · rw [hd, degree_C_mul h2, degree_prod]
      simp
    · rw [Chebyshev.leadingCoeff_T, leadingCoeff_mul, leadingCoeff_C, hm.leadingCoeff]
      simp
    · intro i hi
      rw [eval_mul, eval_prod, Finset.prod_eq_zero hi (by simp), mul_zero, ← Real.cos_pi_div_two_sub,
        Chebyshev.T_real_cos]
      have hN' : (N : ℝ) ≠ 0 := by exact_mod_cast hN.ne'
      have : ((N : ℤ) : ℝ) * (Real.pi / 2 - angle N i) = ((N - i : ℤ) : ℝ) * Real.pi - Real.pi / 2 := by
        unfold angle
        push_cast
        field_simp
        ring
      rw [this, Real.cos_sub_pi_div_two, Real.sin_int_mul_pi]
  conv_lhs => rw [hpoly]
  rw [eval_mul, eval_C, eval_prod]
  simp

theorem angle_zero {N i : ℕ} (hi : i < N) : Real.sin (angle N i) = 0 ↔ 2 * i + 1 = N := by
  have hN : (0 : ℝ) < N := by exact_mod_cast (by omega : 0 < N)
  have h0 : Real.sin (angle N i) = 0 ↔ angle N i = 0 := by
    rw [Real.sin_eq_zero_iff_of_lt_of_lt] <;> linarith [angle_lt hi, neg_angle_lt hi, Real.pi_pos]
  rw [h0]
  unfold angle
  rw [div_eq_zero_iff, mul_eq_zero]
  constructor
  · rintro ((h | h) | h)
    · exact absurd h Real.pi_pos.ne'
    · have : (2 * i + 1 : ℝ) = N := by linarith
      exact_mod_cast this
    · linarith
  · intro h
    left; right
    rw [← h]
    push_cast
    ring

/-- the zeros of the prototype -/
noncomputable def zeros (N : ℕ) : List ℕ := (List.range N).filter fun i => 2 * i + 1 ≠ N

theorem mem_zeros {N i : ℕ} : i ∈ zeros N ↔ i < N ∧ Real.sin (angle N i) ≠ 0 := by
  unfold zeros
  simp only [List.mem_filter, List.mem_range, decide_eq_true_eq]
  constructor
  · rintro ⟨h1, h2⟩
    exact ⟨h1, fun h => h2 ((angle_zero h1).mp h)⟩
  · rintro ⟨h1, h2⟩
    exact ⟨h1, fun h => h2 ((angle_zero h1).mpr h)⟩

/-- a zero on the imaginary axis -/
noncomputable def zero (w : ℝ) (N i : ℕ) : ℂ := ⟨0, w / Real.sin (angle N i)⟩

theorem zero_conjugate {w : ℝ} (hw : 0 < w) (N : ℕ) : Conjugate ((zeros N).map (zero w N)) := by
  refine ⟨?_, ?_, ?_⟩
  · refine (List.nodup_map_iff_inj_on (List.nodup_range.filter _)).mpr fun i hi j hj h => ?_
    obtain ⟨hi, hi0⟩ := mem_zeros.mp hi
    obtain ⟨hj, hj0⟩ := mem_zeros.mp hj
    have h2 : w / Real.sin (angle N i) = w / Real.sin (angle N j) := congrArg Complex.im h
    rw [div_eq_div_iff hi0 hj0] at h2
    exact sin_angle_inj hi hj (mul_left_cancel₀ hw.ne' h2).symm
  · intro a ha
    obtain ⟨i, hi, rfl⟩ := List.mem_map.mp ha
    obtain ⟨hi, hi0⟩ := mem_zeros.mp hi
    refine List.mem_map.mpr ⟨N - 1 - i, mem_zeros.mpr ⟨by omega, ?_⟩, ?_⟩
    · rw [angle_reflect hi, Real.sin_neg]
      exact neg_ne_zero.mpr hi0
    · unfold zero
      rw [angle_reflect hi, Real.sin_neg]
      apply Complex.ext <;> simp [div_neg]
  · intro a ha b hb h
    obtain ⟨i, hi, rfl⟩ := List.mem_map.mp ha
    obtain ⟨j, hj, rfl⟩ := List.mem_map.mp hb
    rcases abs_eq_abs.mp h with e | e
    · exact Or.inl (Complex.ext rfl e)
    · exact Or.inr (Complex.ext (by simp [zero]) (by rw [conj_im]; exact e))

/-- an inverted pole -/
theorem inv_pole_im (a b : ℝ) (N i : ℕ) : ((pole a b N i)⁻¹).im =
    b * Real.sin (angle N i) / (a ^ 2 * Real.cos (angle N i) ^ 2 + b ^ 2 * Real.sin (angle N i) ^ 2) := by
  rw [inv_im, normSq_apply]
  simp only [pole]
  rw [neg_neg]
  congr 1
  ring

/-- no two pairs of poles with the same imaginary parts -/
def NoTie (N : ℕ) (μ : ℝ) : Prop := ∀ i < N, ∀ j < N, |Real.sin (angle N i)| ≠ |Real.sin (angle N j)| →
  |Real.sin (angle N i) * Real.sin (angle N j)| ≠ Real.sinh μ ^ 2

theorem inv_pole_tie {μ : ℝ} (hμ : 0 < μ) {N i j : ℕ} (h : NoTie N μ) (hi : i < N) (hj : j < N)
    (e : |((pole (Real.sinh μ) (Real.cosh μ) N i)⁻¹).im| = |((pole (Real.sinh μ) (Real.cosh μ) N j)⁻¹).im|) :
    |Real.sin (angle N i)| = |Real.sin (angle N j)| := by
  by_contra hne
  have ht := h i hi j hj hne
  have hs := Real.sinh_pos_iff.mpr hμ
  have hc := Real.cosh_pos μ
  have key : ∀ k, Real.sinh μ ^ 2 * Real.cos (angle N k) ^ 2 + Real.cosh μ ^ 2 * Real.sin (angle N k) ^ 2 =
      Real.sinh μ ^ 2 + |Real.sin (angle N k)| ^ 2 := by
    intro k
    rw [sq_abs, Real.cosh_sq, Real.cos_sq']
    ring
  rw [inv_pole_im, inv_pole_im, key, key, abs_div, abs_div, abs_mul, abs_mul, abs_of_pos hc,
    abs_of_pos (by positivity : 0 < Real.sinh μ ^ 2 + |Real.sin (angle N i)| ^ 2),
    abs_of_pos (by positivity : 0 < Real.sinh μ ^ 2 + |Real.sin (angle N j)| ^ 2),
    div_eq_div_iff (by positivity) (by positivity)] at e
  rw [abs_mul] at ht
  have : Real.cosh μ * ((|Real.sin (angle N i)| - |Real.sin (angle N j)|) *
      (Real.sinh μ ^ 2 - |Real.sin (angle N i)| * |Real.sin (angle N j)|)) = 0 := by
    linear_combination e
  rcases mul_eq_zero.mp this with h' | h'
  · exact hc.ne' h'
  · rcases mul_eq_zero.mp h' with h' | h'
    · exact hne (sub_eq_zero.mp h')
    · exact ht (sub_eq_zero.mp h').symm

theorem inv_pole_conjugate {μ w : ℝ} (hμ : 0 < μ) (hw : 0 < w) {N : ℕ} (h : NoTie N μ) :
    Conjugate ((List.range N).map fun i => (w : ℂ) * (pole (Real.sinh μ) (Real.cosh μ) N i)⁻¹) := by
  have him : ∀ i, ((w : ℂ) * (pole (Real.sinh μ) (Real.cosh μ) N i)⁻¹).im =
      w * ((pole (Real.sinh μ) (Real.cosh μ) N i)⁻¹).im := fun i => by simp
  have hc := pole_conjugate (Real.sinh μ) (Real.cosh_pos μ) N
  have hwc : (w : ℂ) ≠ 0 := by exact_mod_cast hw.ne'
  refine ⟨?_, ?_, ?_⟩
  · refine (List.nodup_map_iff_inj_on List.nodup_range).mpr fun i hi j hj e => ?_
    exact (List.nodup_map_iff_inj_on List.nodup_range).mp hc.nodup i hi j hj
      (inv_injective (mul_left_cancel₀ hwc e))
  · intro a ha
    obtain ⟨i, hi, rfl⟩ := List.mem_map.mp ha
    have hi := List.mem_range.mp hi
    refine List.mem_map.mpr ⟨N - 1 - i, List.mem_range.mpr (by omega), ?_⟩
    rw [pole_reflect _ _ hi]
    simp
  · intro a ha b hb e
    obtain ⟨i, hi, rfl⟩ := List.mem_map.mp ha
    obtain ⟨j, hj, rfl⟩ := List.mem_map.mp hb
    have hi := List.mem_range.mp hi
    have hj := List.mem_range.mp hj
    rw [him, him, abs_mul, abs_mul] at e
    have e := inv_pole_tie hμ h hi hj (mul_left_cancel₀ (abs_pos.mpr hw.ne').ne' e)
    rcases abs_eq_abs.mp e with e | e
    · left
      rw [sin_angle_inj hi hj e]
    · right
      rw [← Real.sin_neg, ← angle_reflect hj] at e
      rw [sin_angle_inj hi (by omega) e, pole_reflect _ _ hj]
      simp

/-- the squared distance from the zeros -/
theorem zeros_norm {N : ℕ} (hN : 0 < N) {x : ℝ} (hx : x ≠ 0) :
    ‖((zeros N).map fun i => x * I - zero 1 N i).prod‖ * ‖((zeros N).map fun i => (Real.sin (angle N i) : ℂ)).prod‖ =
      |x| ^ N * |(Chebyshev.T ℝ N).eval (1 / x)| / 2 ^ (N - 1) := by
  have hx' : |x| ≠ 0 := abs_ne_zero.mpr hx
  have h1 : ∀ l : List ℕ, (∀ i ∈ l, i < N) →
      ‖((l.filter fun i => 2 * i + 1 ≠ N).map fun i => x * I - zero 1 N i).prod‖ *
      ‖((l.filter fun i => 2 * i + 1 ≠ N).map fun i => (Real.sin (angle N i) : ℂ)).prod‖ =
      |x| ^ l.length * (l.map fun i => |1 / x - Real.sin (angle N i)|).prod := by
    intro l
    induction l with
    | nil => simp
    | cons i l ih =>
      intro hl
      have ih := ih fun k hk => hl k (by simp [hk])
      have hi := hl i (by simp)
      rw [List.map_cons, List.prod_cons, List.length_cons, pow_succ]
      by_cases h0 : 2 * i + 1 = N
      · rw [List.filter_cons_of_neg (by simpa using h0), ih, (angle_zero hi).mpr h0, sub_zero, abs_div, abs_one]
        field_simp
      · have hs : Real.sin (angle N i) ≠ 0 := fun h => h0 ((angle_zero hi).mp h)
        rw [List.filter_cons_of_pos (by simpa using h0), List.map_cons, List.map_cons, List.prod_cons,
          List.prod_cons, norm_mul, norm_mul]
        have e : ‖x * I - zero 1 N i‖ * ‖(Real.sin (angle N i) : ℂ)‖ =
            |x| * |1 / x - Real.sin (angle N i)| := by
          rw [← norm_mul, ← abs_mul]
          have : (x * I - zero 1 N i) * (Real.sin (angle N i) : ℂ) =
              ((-(x * (1 / x - Real.sin (angle N i))) : ℝ) : ℂ) * I := by
            have hz : zero 1 N i = ((1 / Real.sin (angle N i) : ℝ) : ℂ) * I := by
              apply Complex.ext <;> simp [zero, -ofReal_sin]
            have hsc : ((Real.sin (angle N i) : ℝ) : ℂ) ≠ 0 := by exact_mod_cast hs
            have hxc : (x : ℂ) ≠ 0 := by exact_mod_cast hx
            rw [hz]
            simp only [ofReal_neg, ofReal_mul, ofReal_sub, ofReal_div, ofReal_one]
            field_simp
            ring
          rw [this, norm_mul, norm_I, mul_one, norm_real, Real.norm_eq_abs, abs_neg]
        calc _ = (‖x * I - zero 1 N i‖ * ‖(Real.sin (angle N i) : ℂ)‖) *
            (‖((l.filter fun i => 2 * i + 1 ≠ N).map fun i => x * I - zero 1 N i).prod‖ *
            ‖((l.filter fun i => 2 * i + 1 ≠ N).map fun i => (Real.sin (angle N i) : ℂ)).prod‖) := by ring
          _ = _ := by
            rw [e, ih]
            ring
  have h2 := h1 (List.range N) fun i hi => List.mem_range.mp hi
  rw [List.length_range] at h2
  have h3 : ((List.range N).map fun i => |1 / x - Real.sin (angle N i)|).prod =
      |(Chebyshev.T ℝ N).eval (1 / x)| / 2 ^ (N - 1) := by
    rw [chebyshev_prod hN, abs_mul, Finset.abs_prod, abs_of_pos (by positivity : (0 : ℝ) < 2 ^ (N - 1)),
      mul_div_cancel_left₀ _ (by positivity)]
    rw [Finset.prod_range, ← List.prod_ofFn, List.ofFn_eq_map, ← List.map_coe_finRange_eq_range, List.map_map]
    rfl
  rw [h3] at h2
  rw [mul_div_assoc]
  exact h2

end Cbadc.Filters
