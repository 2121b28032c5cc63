import Verif.Lemmas.FilterExample
import Verif.Lemmas.FilterTransfer
import Verif.Props.Estimator

/-! # Properties of the filter coefficients (C95-C98) -/

namespace Cbadc.Filter

open Matrix Set Filter.Spec Cbadc.Analog Cbadc.Control Cbadc.Estimator Cbadc.Streams Synthesis.Spec
open scoped ComplexOrder

variable {M : ℕ} {g : Sys ℝ} {G : ℕ → ℕ → ℝ} {dc : DC ℝ M} {eta2 : ℝ} {Vf Vb : Matrix (Fin g.N) (Fin g.N) ℝ}
  {c : Coeffs ℝ g.N M g.L}

/-! ### C95 -/

/-- **C95** Over any horizon of `K` periods, whatever the control decisions were, there is a unique input of least cost that
explains them, where the cost is the energy of the input plus the energy of the observed outputs over `eta2` plus quadratic
costs of the end states; the estimates of an estimator that looks at these `K` periods are its samples.  The controls act
through the contribution the control itself reports, with any waveform that starts at the updates; the numerical coefficients
are the exact ones. -/
theorem C95_least_squares (h : Numerical g G dc eta2 Vf Vb c) (he : 0 < eta2) (hT : 0 ≤ dc.T) (pf : Vf.PosDef) (pb : Vb.PosDef)
    (hd : dc.tDelay = 0) (h0 : ∀ m, (dc.ir m).t0 = 0) (K : ℕ) (s : ℕ → Fin M → ℝ) (st : ℕ → State ℝ M)
    (hst : ∀ k, (st k).cur = valued (s k)) :
    ∃ u, IsLeastSquares (toM g.N g.N g.A) (toM g.N g.L g.B) (toM g.Nt g.N g.CT) eta2 Vf Vb
        (fun k t => toM g.N M G *ᵥ contribution dc (st k) t) dc.T K u ∧
      ∀ k ≤ K, u k 0 = Cbadc.Spec.future c.WT c.Ab c.Bb (Cbadc.Spec.ext s) k (K - k) -
        Cbadc.Spec.past c.WT c.Af c.Bf (Cbadc.Spec.ext s) k k := by
  obtain ⟨u, ⟨x, J, hE, hI, hopt⟩, hu⟩ := numerical_least_squares h he hT pf pb K fun k => valued (s k)
  have hq : ∀ k < K, ∀ t ∈ Ico 0 dc.T, toM g.N M G *ᵥ (fun m => (dc.ir m).f t * valued (s k) m) =
      toM g.N M G *ᵥ contribution dc (st k) t := by
    intro k _ t ht
    refine congrArg _ (funext fun m => ?_)
    unfold contribution
    rw [h0, if_neg (not_lt.2 ht.1), hd, if_neg (not_lt.2 ht.1), hst]
  refine ⟨u, ⟨x, J, hE.congr hq, hI, fun u' x' J' hE' hI' => hopt u' x' J' (hE'.congr fun k hk t ht => (hq k hk t ht).symm) hI'⟩,
    fun k hk => ?_⟩
  rw [hu k hk, mulVec_sub, fSum_past, bSum_future]

example : ∃ u, IsLeastSquares (toM 1 1 (exSys 0).A) (toM 1 1 (exSys 0).B) (toM 1 1 (exSys 0).CT) 1 1 1
    (fun k t => toM 1 1 (fun _ _ => -1) *ᵥ contribution (exDC 0 (.step 0 1)) ⟨fun _ => k % 2, valued fun _ => k % 2, fun _ => 0⟩ t)
    1 5 u :=
  (C95_least_squares (ex_numerical (d := 0) 0) one_pos zero_le_one PosDef.one PosDef.one rfl (fun _ => rfl) 5
    (fun k _ => (k % 2 : ℝ)) (fun k => ⟨fun _ => k % 2, valued fun _ => k % 2, fun _ => 0⟩) fun _ => rfl).imp fun _ h => h.1

/-- **C95** Every value returned by the batch estimator is the sample of the least-squares input over all control decisions
that the estimator has read so far. -/
theorem C95_batch (h : Numerical g G dc eta2 Vf Vb c) (he : 0 < eta2) (hT : 0 ≤ dc.T) (pf : Vf.PosDef) (pb : Vb.PosDef)
    (hd : dc.tDelay = 0) (h0 : ∀ m, (dc.ir m).t0 = 0) (K1 K2 : ℕ) (ds : ℤ) (limit : ℕ) (f : Batch ℝ g.N M g.L)
    (hf : Batch.new c K1 K2 eta2 ds limit = .ok f) (src : ℕ → Res (Fin M → ℝ)) (s : ℕ → Fin M → ℝ) (st : ℕ → State ℝ M)
    (hst : ∀ k, (st k).cur = valued (s k)) (n : ℕ) (hlim : n + n / K1 + 1 ≤ limit)
    (hs : ∀ j < n / K1 * K1 + (K1 + K2), src j = .ok (s j)) :
    ∃ u, IsLeastSquares (toM g.N g.N g.A) (toM g.N g.L g.B) (toM g.Nt g.N g.CT) eta2 Vf Vb
        (fun k t => toM g.N M G *ᵥ contribution dc (st k) t) dc.T (n / K1 * K1 + (K1 + K2)) u ∧
      call (f.next src) f.init n = .ok (u n 0) := by
  obtain ⟨hK1, -⟩ := batch_new_ok hf
  obtain ⟨u, hu, hn⟩ := C95_least_squares h he hT pf pb hd h0 (n / K1 * K1 + (K1 + K2)) s st hst
  refine ⟨u, hu, ?_⟩
  have e : n / K1 * K1 + n % K1 = n := Nat.div_add_mod' n K1
  have hm : n % K1 < K1 := Nat.mod_lt _ (by omega)
  rw [C32_batch_estimate c K1 K2 eta2 ds limit f hf src s n hlim hs, hn n (by omega),
    show n / K1 * K1 + (K1 + K2) - n = K2 + (K1 - n % K1) by omega]

example : ∃ u f, Batch.new (exC 0 (-1 + Real.exp (-1)) (1 - Real.exp (-1))) 2 1 (1 : ℝ) 1 100 = .ok f ∧
    call (f.next fun k => .ok fun _ => (k % 2 : ℝ)) f.init 3 = .ok (u 3 0) ∧
    IsLeastSquares (toM 1 1 (exSys 0).A) (toM 1 1 (exSys 0).B) (toM 1 1 (exSys 0).CT) 1 1 1
      (fun k t => toM 1 1 (fun _ _ => -1) *ᵥ contribution (exDC 0 (.step 0 1)) ⟨fun _ => k % 2, valued fun _ => k % 2, fun _ => 0⟩ t)
      1 5 u := by
  obtain ⟨f, hf⟩ : ∃ f, Batch.new (exC 0 (-1 + Real.exp (-1)) (1 - Real.exp (-1))) 2 1 (1 : ℝ) 1 100 = .ok f :=
    ((C32_batch_accepts _ 2 1 (1 : ℝ) 1 100).1.2 ⟨by norm_num, by norm_num, by norm_num, rfl⟩)
  obtain ⟨u, h1, h2⟩ := C95_batch (ex_numerical (d := 0) 0) one_pos zero_le_one PosDef.one PosDef.one rfl (fun _ => rfl) 2 1 1 100 f hf
    (fun k => .ok fun _ => (k % 2 : ℝ)) (fun k _ => (k % 2 : ℝ)) (fun k => ⟨fun _ => k % 2, valued fun _ => k % 2, fun _ => 0⟩)
    (fun _ => rfl) 3 (by norm_num) (fun _ _ => rfl)
  exact ⟨u, f, hf, h2, h1⟩

/-- **C95** The same for the infinite impulse response estimator with look-ahead `K2`, once it has read `K2` decisions. -/
theorem C95_iir (h : Numerical g G dc eta2 Vf Vb c) (he : 0 < eta2) (hT : 0 ≤ dc.T) (pf : Vf.PosDef) (pb : Vb.PosDef)
    (hd : dc.tDelay = 0) (h0 : ∀ m, (dc.ir m).t0 = 0) (K2 ds limit : ℕ) (f : IIR ℝ g.N M g.L)
    (hf : IIR.new c K2 eta2 ds limit = .ok f) (hK2 : 1 ≤ K2) (hds : 1 ≤ ds) (src : ℕ → Res (Fin M → ℝ)) (s : ℕ → Fin M → ℝ)
    (st : ℕ → State ℝ M) (hst : ∀ k, (st k).cur = valued (s k)) (n : ℕ) (hn : K2 ≤ ds * n + 1)
    (hlim : limit = 0 ∨ ds * n + 1 ≤ limit) (hs : ∀ j ≤ ds * n, src j = .ok (s j)) :
    ∃ u, IsLeastSquares (toM g.N g.N g.A) (toM g.N g.L g.B) (toM g.Nt g.N g.CT) eta2 Vf Vb
        (fun k t => toM g.N M G *ᵥ contribution dc (st k) t) dc.T (ds * n + 1) u ∧
      call (f.next src) IIRState.init n = .ok (u (ds * n + 1 - K2) 0) := by
  obtain ⟨u, hu, hk⟩ := C95_least_squares h he hT pf pb hd h0 (ds * n + 1) s st hst
  refine ⟨u, hu, ?_⟩
  rw [C33_iir_estimate c K2 eta2 ds limit f hf hK2 hds src s n (ds * n + 1 - K2) (by omega) hlim hs, hk _ (by omega),
    show ((ds * n : ℕ) : ℤ) + 1 - K2 = ((ds * n + 1 - K2 : ℕ) : ℤ) by omega, show ds * n + 1 - (ds * n + 1 - K2) = K2 by omega]

example : ∃ u f, IIR.new (exC 0 (-1 + Real.exp (-1)) (1 - Real.exp (-1))) 2 (1 : ℝ) 1 0 = .ok f ∧
    call (f.next fun k => .ok fun _ => (k % 2 : ℝ)) IIRState.init 3 = .ok (u 2 0) ∧
    IsLeastSquares (toM 1 1 (exSys 0).A) (toM 1 1 (exSys 0).B) (toM 1 1 (exSys 0).CT) 1 1 1
      (fun k t => toM 1 1 (fun _ _ => -1) *ᵥ contribution (exDC 0 (.step 0 1)) ⟨fun _ => k % 2, valued fun _ => k % 2, fun _ => 0⟩ t)
      1 4 u := by
  obtain ⟨f, hf⟩ : ∃ f, IIR.new (exC 0 (-1 + Real.exp (-1)) (1 - Real.exp (-1))) 2 (1 : ℝ) 1 0 = .ok f :=
    ⟨_, by unfold IIR.new; rw [if_neg (by norm_num), if_neg (by norm_num)]⟩
  obtain ⟨u, h1, h2⟩ := C95_iir (ex_numerical (d := 0) 0) one_pos zero_le_one PosDef.one PosDef.one rfl (fun _ => rfl) 2 1 0 f hf
    (by norm_num) le_rfl (fun k => .ok fun _ => (k % 2 : ℝ)) (fun k _ => (k % 2 : ℝ))
    (fun k => ⟨fun _ => k % 2, valued fun _ => k % 2, fun _ => 0⟩) (fun _ => rfl) 3 (by norm_num) (Or.inl rfl) (fun _ _ => rfl)
  exact ⟨u, f, hf, h2, h1⟩

/-- **C95** The filters realise the reported transfer functions: when all signals are sinusoids of angular frequency `ω`,
the output `WT (b - f)` of the two continuous-time filters, driven by the control contribution alone, equals `F G u - F y`,
where `G` is the transfer function matrix of the analog system, `F` the documented noise transfer function, `u` the input and
`y` the observed output of the system.  Provided the system has no direct feedthrough. -/
theorem C95_transfer {T ω : ℝ} (hc : Cares g eta2 Vf Vb) (h : Common g T eta2 Vf Vb c) (he : 0 < eta2)
    (hV : IsUnit (Vf + Vb).det) (hD : ∀ n l, g.D n l = 0)
    (hA : IsUnit (jw ω • (1 : Matrix (Fin g.N) (Fin g.N) ℂ) - toM g.N g.N (cplx g).A).det)
    {F : Matrix (Fin g.L) (Fin g.Nt) ℂ} (hF : Analog.Spec.IsNTF eta2 ((cplx g).tfm (jw ω)) F)
    {u : Fin g.L → ℂ} {q x f b : Fin g.N → ℂ} (hx : Steady ω (toM g.N g.N g.A) (toM g.N g.L (cplx g).B *ᵥ u + q) x)
    (hf : Steady ω (tempAf g eta2 Vf) q f) (hb : Steady ω (tempAb g eta2 Vb) q b) :
    c.WT.map (fun a => (a : ℂ)) *ᵥ (b - f) =
      F *ᵥ ((cplx g).tfm (jw ω) *ᵥ u) - F *ᵥ (toM g.Nt g.N (cplx g).CT *ᵥ x) := by
  have hric := hc.riccati
  have hWT := h.WT_eq hc.f.symm hc.b.symm hV
  have hG : (cplx g).tfm (jw ω) = cc (toM g.Nt g.N g.CT) *
      ((jw ω • (1 : Matrix (Fin g.N) (Fin g.N) ℂ) - cc (toM g.N g.N g.A))⁻¹ * cc (toM g.N g.L g.B)) := by
    have hD0 : toM (cplx g).Nt (cplx g).L (cplx g).D = 0 := by
      ext i j
      show ((g.D i j : ℝ) : ℂ) = 0
      rw [hD, Complex.ofReal_zero]
    rw [Sys.tfm, hD0, zero_add]
    rfl
  have key := filter_transfer he (cct_eq (g := g) he.ne') hV hWT hric.1 hric.2 (ω := ω) hA hG hx hf hb
  obtain ⟨G', hG'⟩ : ∃ G' : Matrix (Fin g.Nt) (Fin g.L) ℂ, G' = (cplx g).tfm (jw ω) := ⟨_, rfl⟩
  have hF' : F * gram eta2 G' = G'ᴴ := by rw [hG']; exact hF
  have hgd := (Matrix.isUnit_iff_isUnit_det _).1 (gram_posDef he G').isUnit
  have hgd' := (Matrix.isUnit_iff_isUnit_det _).1 (gram'_posDef he G').isUnit
  have hFe : F = G'ᴴ * (gram eta2 G')⁻¹ := by rw [← hF', Matrix.mul_assoc, mul_nonsing_inv _ hgd, Matrix.mul_one]
  have hpush : gram' eta2 G' * F = G'ᴴ := by rw [hFe]; exact push_through he G'
  have key' : gram' eta2 G' *ᵥ (cc c.WT *ᵥ (b - f)) = gram' eta2 G' *ᵥ (F *ᵥ (G' *ᵥ u - cc (toM g.Nt g.N g.CT) *ᵥ x)) := by
    rw [mulVec_mulVec _ (gram' eta2 G') F, hpush, hG']
    exact key
  have := congrArg (fun z => (gram' eta2 G')⁻¹ *ᵥ z) key'
  simp only [mulVec_mulVec (M := (gram' eta2 G')⁻¹), nonsing_inv_mul _ hgd', one_mulVec] at this
  rw [← hG', ← mulVec_sub]
  exact this

theorem ex_steady {X : Matrix (Fin 1) (Fin 1) ℝ} {v x : ℂ} {ω : ℝ} (h : ω * Complex.I * x = (X 0 0 : ℝ) * x + v) :
    Steady ω X (fun _ => v) (fun _ => x) := by
  unfold Steady
  ext i
  obtain rfl : i = 0 := Subsingleton.elim _ _
  simpa [Matrix.mulVec, dotProduct] using h

theorem mat1_mul (X Y : Matrix (Fin 1) (Fin 1) ℂ) (i j : Fin 1) : (X * Y) i j = X 0 0 * Y 0 0 := by
  obtain rfl : i = 0 := Subsingleton.elim _ _
  obtain rfl : j = 0 := Subsingleton.elim _ _
  simp [Matrix.mul_apply]

theorem mat1_mulVec (X : Matrix (Fin 1) (Fin 1) ℂ) (x : Fin 1 → ℂ) : X *ᵥ x = fun _ => X 0 0 * x 0 := by
  ext i
  obtain rfl : i = 0 := Subsingleton.elim _ _
  simp [Matrix.mulVec, dotProduct]

theorem ex_sI (d : ℝ) : jw 1 • (1 : Matrix (Fin 1) (Fin 1) ℂ) - toM 1 1 (cplx (exSys d)).A = of fun _ _ => Complex.I := by
  ext i j
  obtain rfl : i = 0 := Subsingleton.elim _ _
  obtain rfl : j = 0 := Subsingleton.elim _ _
  simp [toM, cm, cplx, jw]

theorem ex_tfm (d : ℝ) : (cplx (exSys d)).tfm (jw 1) = (of fun _ _ => (d : ℂ) - Complex.I : Matrix (Fin 1) (Fin 1) ℂ) := by
  have h2 : (jw 1 • (1 : Matrix (Fin 1) (Fin 1) ℂ) - toM 1 1 (cplx (exSys d)).A)⁻¹ = of fun _ _ => -Complex.I := by
    rw [ex_sI]
    refine Matrix.inv_eq_right_inv ?_
    ext i j
    rw [mat1_mul]
    obtain rfl : i = 0 := Subsingleton.elim _ _
    obtain rfl : j = 0 := Subsingleton.elim _ _
    simp
  unfold Sys.tfm Sys.atf
  show toM 1 1 (cplx (exSys d)).D + toM 1 1 (cplx (exSys d)).CT *
    ((jw 1 • (1 : Matrix (Fin 1) (Fin 1) ℂ) - toM 1 1 (cplx (exSys d)).A)⁻¹ * toM 1 1 (cplx (exSys d)).B) = _
  rw [h2]
  ext i j
  rw [Matrix.add_apply, mat1_mul, mat1_mul]
  rw [of_apply, of_apply]
  simp [toM, cm, cplx]
  ring

theorem ex_ntf (d : ℝ) : Analog.Spec.IsNTF 1 ((cplx (exSys d)).tfm (jw 1)) (of fun _ _ => (d + Complex.I) / (d ^ 2 + 2)) := by
  rw [ex_tfm]
  show Analog.Spec.IsNTF (Nt := 1) (L := 1) 1 (of fun _ _ => (d : ℂ) - Complex.I) (of fun _ _ => (d + Complex.I) / (d ^ 2 + 2))
  unfold Analog.Spec.IsNTF
  have hd : (d : ℂ) ^ 2 + 2 ≠ 0 := by
    have : (0 : ℝ) < d ^ 2 + 2 := by positivity
    exact_mod_cast this.ne'
  ext i j
  rw [mat1_mul, Matrix.add_apply, mat1_mul]
  simp only [of_apply, conjTranspose_apply, star_sub, Complex.star_def, Complex.conj_ofReal, Complex.conj_I, sub_neg_eq_add,
    Complex.ofReal_one, one_smul, Matrix.one_apply_eq]
  field_simp
  linear_combination (-(d : ℂ) - Complex.I) * Complex.I_sq

theorem ex_unit : IsUnit ((1 : Matrix (Fin 1) (Fin 1) ℝ) + 1).det := by
  rw [Matrix.det_fin_one]
  simp

theorem ex_fb (d : ℝ) : Steady 1 (tempAf (exSys d) 1 1) (fun _ => -1) (fun _ => -1 / (1 + Complex.I)) ∧
    Steady 1 (tempAb (exSys d) 1 1) (fun _ => -1) (fun _ => 1 / (1 - Complex.I)) := by
  have h1 : (1 : ℂ) - Complex.I ≠ 0 := fun h => by simpa using congrArg Complex.re h
  have h2 : (1 : ℂ) + Complex.I ≠ 0 := fun h => by simpa using congrArg Complex.re h
  refine ⟨ex_steady ?_, ex_steady ?_⟩
  · rw [ex_tempAf]
    simp
    field_simp
    ring
  · rw [ex_tempAb]
    simp
    field_simp
    ring

theorem ex_est (d : ℝ) : (exC d 0 0).WT.map (fun a => (a : ℂ)) *ᵥ ((fun _ => 1 / (1 - Complex.I)) - (fun _ => -1 / (1 + Complex.I))) =
    fun _ => (1 / 2 : ℂ) := by
  have h1 : (1 : ℂ) - Complex.I ≠ 0 := fun h => by simpa using congrArg Complex.re h
  have h2 : (1 : ℂ) + Complex.I ≠ 0 := fun h => by simpa using congrArg Complex.re h
  refine (mat1_mulVec _ _).trans (funext fun _ => ?_)
  show ((1 / 2 : ℝ) : ℂ) * (1 / (1 - Complex.I) - -1 / (1 + Complex.I)) = 1 / 2
  push_cast
  field_simp
  linear_combination Complex.I_sq

/-- the integrator with input `1` and a control that compensates it -/
example : (fun _ => (1 / 2 : ℂ)) = (of fun _ _ => (((0 : ℝ) : ℂ) + Complex.I) / (((0 : ℝ) : ℂ) ^ 2 + 2) : Matrix (Fin 1) (Fin 1) ℂ) *ᵥ
      ((cplx (exSys 0)).tfm (jw 1) *ᵥ fun _ => 1) -
    (of fun _ _ => (((0 : ℝ) : ℂ) + Complex.I) / (((0 : ℝ) : ℂ) ^ 2 + 2) : Matrix (Fin 1) (Fin 1) ℂ) *ᵥ
      (toM 1 1 (cplx (exSys 0)).CT *ᵥ fun _ => 0) := by
  rw [← ex_est 0]
  refine C95_transfer (T := 1) (q := fun _ => -1) (ex_cares (d := 0)) (ex_common 0 0) one_pos ex_unit (fun _ _ => rfl) ?_
    (ex_ntf 0) ?_ (ex_fb 0).1 (ex_fb 0).2
  · show IsUnit (jw 1 • (1 : Matrix (Fin 1) (Fin 1) ℂ) - toM 1 1 (cplx (exSys 0)).A).det
    rw [ex_sI, Matrix.det_fin_one]
    simp
  · unfold Steady
    ext i
    simp [Matrix.mulVec, dotProduct, toM, cplx, cm]

/-- **C95** With a direct feedthrough the filters do not realise the reported transfer functions: for the integrator with
`D = 1` the filters return half of the input although neither the reported signal transfer function nor its combination with
the output of the system says so. -/
theorem C95_feedthrough_false : ∃ (g : Sys ℝ) (Vf Vb : Matrix (Fin g.N) (Fin g.N) ℝ) (c : Coeffs ℝ g.N 1 g.L)
    (F : Matrix (Fin g.L) (Fin g.Nt) ℂ) (u : Fin g.L → ℂ) (q x f b : Fin g.N → ℂ), Cares g 1 Vf Vb ∧ Common g 1 1 Vf Vb c ∧
      IsUnit (Vf + Vb).det ∧ Analog.Spec.IsNTF 1 ((cplx g).tfm (jw 1)) F ∧
      Steady 1 (toM g.N g.N g.A) (toM g.N g.L (cplx g).B *ᵥ u + q) x ∧ Steady 1 (tempAf g 1 Vf) q f ∧ Steady 1 (tempAb g 1 Vb) q b ∧
      c.WT.map (fun a => (a : ℂ)) *ᵥ (b - f) ≠
        F *ᵥ ((cplx g).tfm (jw 1) *ᵥ u) - F *ᵥ (toM g.Nt g.N (cplx g).CT *ᵥ x) ∧
      c.WT.map (fun a => (a : ℂ)) *ᵥ (b - f) ≠
        F *ᵥ ((cplx g).tfm (jw 1) *ᵥ u) - F *ᵥ (toM g.Nt g.N (cplx g).CT *ᵥ x + toM g.Nt g.L (cplx g).D *ᵥ u) := by
  refine ⟨exSys 1, 1, 1, exC 1 0 0, of fun _ _ => (((1 : ℝ) : ℂ) + Complex.I) / (((1 : ℝ) : ℂ) ^ 2 + 2), fun _ => 1, fun _ => -1,
    fun _ => 0, _, _, ex_cares, ex_common 0 0, ex_unit, ex_ntf 1, ?_, (ex_fb 1).1, (ex_fb 1).2, ?_, ?_⟩
  · unfold Steady
    ext i
    simp [Matrix.mulVec, dotProduct, toM, cplx, cm]
  · rw [ex_est 1, ex_tfm]
    intro h
    have h0 : (1 / 2 : ℂ) = ((of fun _ _ => (((1 : ℝ) : ℂ) + Complex.I) / (((1 : ℝ) : ℂ) ^ 2 + 2) : Matrix (Fin 1) (Fin 1) ℂ) *ᵥ
        ((of fun _ _ => ((1 : ℝ) : ℂ) - Complex.I : Matrix (Fin 1) (Fin 1) ℂ) *ᵥ fun _ => 1) -
      (of fun _ _ => (((1 : ℝ) : ℂ) + Complex.I) / (((1 : ℝ) : ℂ) ^ 2 + 2) : Matrix (Fin 1) (Fin 1) ℂ) *ᵥ
        (toM 1 1 (cplx (exSys 1)).CT *ᵥ fun _ => 0)) 0 := congrFun h 0
    have h1 := congrArg Complex.re h0
    simp [mat1_mulVec, toM, cplx, cm] at h1
    norm_num at h1
  · rw [ex_est 1, ex_tfm]
    intro h
    have h0 : (1 / 2 : ℂ) = ((of fun _ _ => (((1 : ℝ) : ℂ) + Complex.I) / (((1 : ℝ) : ℂ) ^ 2 + 2) : Matrix (Fin 1) (Fin 1) ℂ) *ᵥ
        ((of fun _ _ => ((1 : ℝ) : ℂ) - Complex.I : Matrix (Fin 1) (Fin 1) ℂ) *ᵥ fun _ => 1) -
      (of fun _ _ => (((1 : ℝ) : ℂ) + Complex.I) / (((1 : ℝ) : ℂ) ^ 2 + 2) : Matrix (Fin 1) (Fin 1) ℂ) *ᵥ
        (toM 1 1 (cplx (exSys 1)).CT *ᵥ (fun _ => 0) + toM 1 1 (cplx (exSys 1)).D *ᵥ fun _ => 1)) 0 := congrFun h 0
    have h1 := congrArg Complex.im h0
    simp [mat1_mulVec, toM, cplx, cm] at h1
    rw [show (1 : ℂ) + 2 = ((3 : ℝ) : ℂ) by norm_num, Complex.div_ofReal_re] at h1
    simp at h1

/-! ### C96 -/

/-- **C96** numpy backend: over one period, `Af`, `Bf` and `Ab`, `Bb` carry every solution of the forward and of the backward
filter equation from one update to the next, for any waveforms of the controls. -/
theorem C96_numpy (h : Numerical g G dc eta2 Vf Vb c) (hT : 0 ≤ dc.T) :
    SamplesForward (tempAf g eta2 Vf) (fun s t => toM g.N M G *ᵥ fun m => (dc.ir m).f t * s m) dc.T c.Af c.Bf ∧
      SamplesBackward (tempAb g eta2 Vb) (fun s t => toM g.N M G *ᵥ fun m => (dc.ir m).f t * s m) dc.T c.Ab c.Bb := by
  refine ⟨fun s x hx => ?_, fun s x hx => ?_⟩
  · obtain ⟨y, hy, h0, h1⟩ := forward_period h.common h.regular s (x 0)
    rw [flow_unique hx hy h0.symm dc.T ⟨hT, le_rfl⟩, h1]
  · obtain ⟨y, hy, h0, h1⟩ := backward_period h.common h.regular s (x dc.T)
    have h2 := (hx.add (hy.smul (-1))).congr (w := fun _ => 0) fun t _ => by rw [neg_one_smul, add_neg_cancel]
    have h3 := flow_start hT h2 (flow_zero (N := g.N)) rfl
    simp only [h0, neg_one_smul, add_neg_cancel, mulVec_zero, add_zero] at h3
    rw [add_neg_eq_zero.1 h3, h1]

example : (SamplesForward (tempAf (exSys 0) 1 1) (fun s t => toM 1 1 (fun _ _ => -1) *ᵥ fun m => ((exDC 0 (.step 0 1)).ir m).f t * s m) 1
    (exC 0 (-1 + Real.exp (-1)) (1 - Real.exp (-1))).Af fun _ _ => -1 + Real.exp (-1)) :=
  (C96_numpy (ex_numerical (d := 0) 0) zero_le_one).1

/-- **C96** With waveforms that start at the updates and without excess delay, that is the contribution the control reports. -/
theorem C96_contribution (h : Numerical g G dc eta2 Vf Vb c) (hT : 0 ≤ dc.T) (hd : dc.tDelay = 0) (h0 : ∀ m, (dc.ir m).t0 = 0)
    (sig old : Fin M → ℝ) :
    SamplesForward (tempAf g eta2 Vf) (fun s t => toM g.N M G *ᵥ contribution dc ⟨sig, s, old⟩ t) dc.T c.Af c.Bf ∧
      SamplesBackward (tempAb g eta2 Vb) (fun s t => toM g.N M G *ᵥ contribution dc ⟨sig, s, old⟩ t) dc.T c.Ab c.Bb := by
  have hq : ∀ s, ∀ t ∈ Ico 0 dc.T, toM g.N M G *ᵥ contribution dc ⟨sig, s, old⟩ t = toM g.N M G *ᵥ fun m => (dc.ir m).f t * s m := by
    intro s t ht
    refine congrArg _ (funext fun m => ?_)
    unfold contribution
    rw [h0, if_neg (not_lt.2 ht.1), hd, if_neg (not_lt.2 ht.1)]
  exact ⟨fun s x hx => (C96_numpy h hT).1 s x (hx.congr (hq s)), fun s x hx => (C96_numpy h hT).2 s x (hx.congr (hq s))⟩

example : (SamplesForward (tempAf (exSys 0) 1 1)
    (fun s t => toM 1 1 (fun _ _ => -1) *ᵥ contribution (exDC 0 (.step 0 1)) ⟨fun _ => 0, s, fun _ => 1⟩ t) 1
    (exC 0 (-1 + Real.exp (-1)) (1 - Real.exp (-1))).Af fun _ _ => -1 + Real.exp (-1)) :=
  (C96_contribution (ex_numerical (d := 0) 0) zero_le_one rfl (fun _ => rfl) _ _).1

/-- settling under a drive that changes once -/
theorem flow_two {X : Matrix (Fin 1) (Fin 1) ℝ} (hX : X = -1) (a b e h T : ℝ) :
    Flow X (fun t _ => if t < h then a else b) 0 T
      (fun t _ => if t < h then a + (e - a) * Real.exp (-t)
        else b + ((a - b) * Real.exp h + (e - a)) * Real.exp (-t)) := by
  have hj : a + (e - a) * Real.exp (-h) = b + ((a - b) * Real.exp h + (e - a)) * Real.exp (-h) := by
    have : Real.exp h * Real.exp (-h) = 1 := by rw [← Real.exp_add, add_neg_cancel, Real.exp_zero]
    linear_combination (b - a) * this
  refine ⟨?_, fun t ht => ?_⟩
  · refine continuousOn_pi.2 fun _ => Continuous.continuousOn ?_
    have : (fun t : ℝ => if t < h then a + (e - a) * Real.exp (-t) else b + ((a - b) * Real.exp h + (e - a)) * Real.exp (-t)) =
        fun t => if h ≤ t then b + ((a - b) * Real.exp h + (e - a)) * Real.exp (-t) else a + (e - a) * Real.exp (-t) := by
      funext t
      by_cases ht : t < h
      · rw [if_pos ht, if_neg (not_le.2 ht)]
      · rw [if_neg ht, if_pos (not_lt.1 ht)]
    rw [this]
    refine Continuous.if_le (continuous_iff_continuousAt.2 fun t => (hasDerivAt_decay _ _ t).continuousAt)
      (continuous_iff_continuousAt.2 fun t => (hasDerivAt_decay _ _ t).continuousAt) continuous_const continuous_id fun t ht => ?_
    rw [← show h = t from ht, hj]
  · by_cases hlt : t < h
    · have h1 := (flow_decay hX a (e - a) 0 (t + 1)).ode t ⟨ht.1, by linarith⟩
      simp only [if_pos hlt]
      refine h1.congr_of_eventuallyEq ?_ (by simp [hlt])
      have : Ico t h ∈ nhdsWithin t (Ici t) := Ico_mem_nhdsGE hlt
      filter_upwards [this] with r hr
      simp [hr.2]
    · have h1 := (flow_decay hX b ((a - b) * Real.exp h + (e - a)) 0 (t + 1)).ode t ⟨ht.1, by linarith⟩
      simp only [if_neg hlt]
      refine h1.congr (fun r hr => ?_) (by simp [hlt])
      have : ¬ r < h := not_lt.2 ((not_lt.1 hlt).trans hr)
      simp [this]

theorem ex_half : (0 : ℝ) < Real.exp (-2⁻¹) ∧ Real.exp (-2⁻¹) < 1 ∧ Real.exp (-1) = Real.exp (-2⁻¹) * Real.exp (-2⁻¹) ∧
    Real.exp 2⁻¹ * Real.exp (-2⁻¹) = 1 := by
  refine ⟨Real.exp_pos _, Real.exp_lt_one_iff.2 (by norm_num), ?_, ?_⟩
  · rw [← Real.exp_add]; norm_num
  · rw [← Real.exp_add]; norm_num

/-- **C96** With excess delay (`t_delay > 0`) the filters are not driven by what the controls contribute. -/
theorem C96_delay_false : ∃ (g : Sys ℝ) (G : ℕ → ℕ → ℝ) (dc : DC ℝ 1) (Vf Vb : Matrix (Fin g.N) (Fin g.N) ℝ)
    (c : Coeffs ℝ g.N 1 g.L) (sig old : Fin 1 → ℝ), Numerical g G dc 1 Vf Vb c ∧ 0 < dc.tDelay ∧ dc.tDelay < dc.T ∧
      (∀ m, (dc.ir m).t0 = 0) ∧
      ¬ SamplesForward (tempAf g 1 Vf) (fun s t => toM g.N 1 G *ᵥ contribution dc ⟨sig, s, old⟩ t) dc.T c.Af c.Bf := by
  refine ⟨exSys 0, fun _ _ => -1, exDC 2⁻¹ (.step 0 1), 1, 1, _, fun _ => 0, fun _ => -1, ex_numerical 2⁻¹, by norm_num,
    by norm_num, fun _ => rfl, fun h => ?_⟩
  have h1 := h (fun _ => 1) _ ((flow_two ex_tempAf 1 (-1) 0 2⁻¹ 1).congr fun t ht => ?_)
  · have h2 := congrFun h1 0
    obtain ⟨p, q, r, e⟩ := ex_half
    simp [Matrix.mulVec, dotProduct] at h2
    rw [if_neg (by norm_num), r] at h2
    have h3 : 2 * Real.exp (-2⁻¹) = 2 * (Real.exp (-2⁻¹) * Real.exp (-2⁻¹)) := by
      linear_combination h2 - 2 * Real.exp (-2⁻¹) * e
    nlinarith
  · refine Eq.trans ?_ (ex_drive _).symm
    ext i
    have h0 := ht.1
    by_cases hlt : t < 2⁻¹
    · simp [contribution, Dac.ir, Dac.eval, Dac.t0, not_lt.2 h0, h0, hlt]
    · simp [contribution, Dac.ir, Dac.eval, Dac.t0, not_lt.2 h0, h0, hlt]

end Cbadc.Filter
