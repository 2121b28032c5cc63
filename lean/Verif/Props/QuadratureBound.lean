import Verif.Props.Quadrature
import Verif.Props.Bounded

/-! # C86: boundedness of simulated first-order bandpass converters -/

namespace Cbadc.Synthesis
open Analog Control Signal Finset Simulate
open Analog.Spec Spec

/-- the decisions of two comparators (specification) -/
noncomputable def decisions (y : ℂ) : ℂ :=
  ((if 0 ≤ y.re then 1 else -1 : ℝ) : ℂ) + Complex.I * ((if 0 ≤ y.im then 1 else -1 : ℝ) : ℂ)

theorem sum_two (f : ℕ → ℝ) : ∑ c ∈ range (1 + 1), f c = f 0 + f 1 := by
  simp [sum_range_succ]

theorem asVec_two (v : Fin 2 → ℝ) : (asVec v).v 0 = v 0 ∧ (asVec v).v 1 = v 1 := ⟨rfl, rfl⟩

/-- one period of a first-order bandpass simulation, in terms of the envelopes -/
theorem bp_period (Nt : ℕ) (A B CT : ℕ → ℕ → ℝ) (Ga Gt : Option (ℕ → ℕ → ℝ)) (D Bt At : ℕ → ℕ → ℝ) (w p q p' q' T tt2 : ℝ)
    (h2 : 0 ≤ tt2) (hA : A 0 0 = 0) (hAt : At 0 0 = 0) (cfg : Cfg 2)
    (hsys : cfg.sys = bpSys ⟨1, 1, 1, 1, Nt, A, B, CT, Ga, Gt, D, Bt, At⟩ w (1 + 1) (1 + 1) (rotBlocks 1 p q)
      (rotBlocks 1 p' q'))
    (hdc : cfg.dc = ⟨T, tt2, 0, fun _ => stepResponse 0, fun _ => 0⟩) (hin : cfg.hasInput = true)
    (st st' : St 2) (φ : ℝ → ℕ → ℝ) (hp : Period cfg st φ st') :
    envelope 1 (φ 0) 0 = envelope 1 st.x 0 ∧ envelope 1 st'.x 0 = envelope 1 (φ T) 0 ∧
    ContinuousOn (fun τ => envelope 1 (φ τ) 0) (Set.Icc 0 T) ∧
    ∀ τ ∈ Set.Ico 0 T, HasDerivWithinAt (fun τ => envelope 1 (φ τ) 0)
      (Complex.I * w * envelope 1 (φ τ) 0 +
        ((p : ℂ) + Complex.I * q) * decisions (((p' : ℂ) + Complex.I * q') * envelope 1 st.x 0) +
        B 0 0 * envelope 1 (cfg.input (st.ticks + 1) (τ + st.t)) 0) (Set.Ici τ) τ := by
  obtain ⟨g, hg⟩ : ∃ g : Sys ℝ, g = ⟨1, 1, 1, 1, Nt, A, B, CT, Ga, Gt, D, Bt, At⟩ := ⟨_, rfl⟩
  have gN : g.N = 1 := by rw [hg]
  have gL : g.L = 1 := by rw [hg]
  rw [← hg] at hsys
  have cN : cfg.sys.N = 2 := by rw [hsys, hg]; rfl
  have cL : cfg.sys.L = 2 := by rw [hsys, hg]; rfl
  have cM : cfg.sys.M = 2 := by rw [hsys]; rfl
  have cMt : cfg.sys.Mt = 2 := by rw [hsys]; rfl
  have cT : cfg.dc.T = T := by rw [hdc]
  have hnew : DC.new T tt2 2 none 0 none = .ok cfg.dc := by
    rw [hdc]
    unfold DC.new initIR initOffsets
    rw [if_neg (lt_irrefl 0)]
  -- the decisions
  obtain ⟨⟨y, hy1, hy2, hy3⟩, -⟩ := C27_observation_partial cfg.sys (rotBlocks 1 p' q') (by rw [hsys]; rfl)
    ⟨cfg.sys.N, st.x⟩ (cfg.u0 st) (asVec (contribution cfg.dc st.c 0)) rfl rfl (by rw [cM]; rfl)
  have hstack : ∀ r < 2, ∀ c < 2, stackMat Sys.Mt Sys.M Sys.At [g, g] r c = 0 := by
    obtain ⟨s1, s2, s3, s4⟩ := stack2 Sys.Mt Sys.M Sys.At g
    have e1 : g.Mt = 1 := by rw [hg]
    have e2 : g.M = 1 := by rw [hg]
    have e3 : g.At = At := by rw [hg]
    rw [e1, e2] at s1 s2 s3 s4
    intro r hr c hc
    interval_cases r <;> interval_cases c
    · rw [s1 0 one_pos 0 one_pos, e3, hAt]
    · rw [s2 0 one_pos 1 le_rfl]
    · exact s3 0 0 one_pos
    · rw [show (1 : ℕ) = 1 + 0 from rfl, s4 0 one_pos 0 one_pos, e3, hAt]
  have hy : ∀ r < 2, y.v r = ∑ c ∈ range (1 + 1), rotBlocks 1 p' q' r c * st.x c := by
    intro r hr
    rw [hy3 r, cN, cL, cM, hsys]
    have z1 : ∑ c ∈ range 2, (bpSys g w (1 + 1) (1 + 1) (rotBlocks 1 p q) (rotBlocks 1 p' q')).Bt r c * (cfg.u0 st).v c = 0 :=
      sum_eq_zero fun c _ => zero_mul _
    have z2 : ∑ c ∈ range 2, (bpSys g w (1 + 1) (1 + 1) (rotBlocks 1 p q) (rotBlocks 1 p' q')).At r c *
        (asVec (contribution cfg.dc st.c 0)).v c = 0 :=
      sum_eq_zero fun c hc => by
        change stackMat Sys.Mt Sys.M Sys.At [g, g] r c * _ = 0
        rw [hstack r hr c (mem_range.1 hc), zero_mul]
    rw [z1, z2, add_zero, add_zero]
  have hye : envelope 1 y.v 0 = ((p' : ℂ) + Complex.I * q') * envelope 1 st.x 0 := by
    rw [← rot_env 1 p' q' st.x 0 one_pos]
    unfold envelope
    rw [hy 0 (by omega), hy (1 + 0) (by omega)]
  have hcur : ∀ m : Fin 2, st'.c.cur m = if 0 ≤ y.v m then 1 else -1 := by
    intro m
    have hd := hp.dec
    unfold Cfg.decide at hd
    rw [hy1] at hd
    dsimp only at hd
    rw [if_neg (by omega), Except.ok.injEq] at hd
    rw [← hd]
    exact plain_update T tt2 h2 cfg.dc hnew st.c _ m
  have hdec : envelope 1 (asVec st'.c.cur).v 0 = decisions (((p' : ℂ) + Complex.I * q') * envelope 1 st.x 0) := by
    rw [← hye]
    have h := parts_env y.v
    unfold envelope decisions
    change ((asVec st'.c.cur).v 0 : ℂ) + Complex.I * (asVec st'.c.cur).v 1 = _
    rw [(asVec_two _).1, (asVec_two _).2, hcur, hcur]
    unfold envelope at h
    rw [← h.1, ← h.2]
    rfl
  -- the differential equation
  have hode : ∀ τ ∈ Set.Ico 0 T, ∀ n < 2, HasDerivWithinAt (fun τ => φ τ n)
      (rhs (bpSys g w (1 + 1) (1 + 1) (rotBlocks 1 p q) (rotBlocks 1 p' q')) (φ τ)
        (cfg.input (st.ticks + 1) (τ + st.t)) (asVec st'.c.cur).v n) (Set.Ici τ) τ := by
    intro τ hτ n hn
    obtain ⟨d, hd1, hd2⟩ := hp.ode τ (by rw [cT]; exact hτ)
    unfold Cfg.rhs at hd1
    rw [hin, if_pos rfl] at hd1
    obtain ⟨d', h1, -, h3⟩ := (C21_derivative_partial cfg.sys (rotBlocks 1 p q) (by rw [hsys]; rfl) ⟨cfg.sys.N, φ τ⟩
      ⟨cfg.sys.L, fun l => cfg.input (st.ticks + 1) (τ + st.t) l⟩ (asVec (contribution cfg.dc st'.c τ))).1
      ⟨rfl, rfl, by rw [cM]; rfl⟩
    rw [h1, Except.ok.injEq] at hd1
    subst hd1
    have h4 := hd2 n (by omega)
    rw [h3 n] at h4
    refine h4.congr_deriv ?_
    have hc : contribution cfg.dc st'.c τ = st'.c.cur := by
      funext m
      exact plain_contribution T tt2 cfg.dc hnew st'.c τ hτ.1 m
    rw [hc, cN, cL, cM]
    unfold rhs
    have e1 : (bpSys g w (1 + 1) (1 + 1) (rotBlocks 1 p q) (rotBlocks 1 p' q')).N = 2 := by rw [hg]; rfl
    have e2 : (bpSys g w (1 + 1) (1 + 1) (rotBlocks 1 p q) (rotBlocks 1 p' q')).L = 2 := by rw [hg]; rfl
    rw [e1, e2, hsys]
    rfl
  refine ⟨?_, ?_, ?_, ?_⟩
  · unfold envelope
    rw [hp.start 0 (by omega), hp.start (1 + 0) (by omega)]
  · unfold envelope
    rw [hp.stop 0 (by omega), hp.stop (1 + 0) (by omega), cT]
  · have h1 := hp.cont 0 (by omega)
    have h3 := hp.cont (1 + 0) (by omega)
    rw [cT] at h1 h3
    exact env_cont 1 φ _ 0 h1 h3
  · intro τ hτ
    refine (env_deriv 1 φ _ τ _ 0 (hode τ hτ 0 (by omega)) (hode τ hτ (1 + 0) (by omega))).congr_deriv ?_
    have h := ctl_rhs g w p q (rotBlocks 1 p' q') (φ τ) (cfg.input (st.ticks + 1) (τ + st.t)) (asVec st'.c.cur).v 0
      (by rw [gN]; exact one_pos)
    rw [gN, gL] at h
    rw [h, hdec]
    have hd : drive (cplx g) (envelope 1 (φ τ)) (envelope 1 (cfg.input (st.ticks + 1) (τ + st.t))) 0 =
        B 0 0 * envelope 1 (cfg.input (st.ticks + 1) (τ + st.t)) 0 := by
      rw [hg]
      simp [drive, cplx, cm, hA]
    rw [hd]

/-- decisions opposite to a number bring it closer to zero, unless it is small -/
theorem dec_shrink (o : ℂ) (R : ℝ) (hR : 2 ≤ R) (h : ‖o‖ ≤ R) : ‖o + decisions (-o)‖ ^ 2 ≤ (R - 1) ^ 2 + 1 := by
  have hs : ∀ a : ℝ, (a + if 0 ≤ -a then 1 else -1) ^ 2 = a ^ 2 - 2 * |a| + 1 := by
    intro a
    by_cases ha : 0 ≤ -a
    · rw [if_pos ha, abs_of_nonpos (by linarith)]
      ring
    · rw [if_neg ha, abs_of_pos (by linarith)]
      ring
  have e1 : ‖o + decisions (-o)‖ ^ 2 = (o.re ^ 2 - 2 * |o.re| + 1) + (o.im ^ 2 - 2 * |o.im| + 1) := by
    rw [← Complex.normSq_eq_norm_sq, Complex.normSq_apply, ← hs, ← hs]
    unfold decisions
    simp only [Complex.add_re, Complex.add_im, Complex.neg_re, Complex.neg_im, Complex.ofReal_re, Complex.ofReal_im,
      Complex.mul_re, Complex.mul_im, Complex.I_re, Complex.I_im]
    ring
  have e2 : ‖o‖ ^ 2 = o.re ^ 2 + o.im ^ 2 := by
    rw [← Complex.normSq_eq_norm_sq, Complex.normSq_apply]
    ring
  have e3 : ‖o‖ ≤ |o.re| + |o.im| := Complex.norm_le_abs_re_add_abs_im o
  have e4 := norm_nonneg o
  rw [e1]
  nlinarith

theorem norm_turn (c t : ℝ) : ‖Complex.exp (Complex.I * c * t)‖ = 1 := by
  have : Complex.I * c * t = ((c * t : ℝ) : ℂ) * Complex.I := by push_cast; ring
  rw [this, Complex.norm_exp_ofReal_mul_I]

theorem norm_cis (c : ℝ) : ‖Complex.exp (Complex.I * c)‖ = 1 := by
  rw [mul_comm, Complex.norm_exp_ofReal_mul_I]

/-- **C86** a simulated first-order bandpass converter is control bounded: while the envelope of the input stays below
`V < 1` times the full scale, the envelope of the state never leaves a disc `|beta| T R` it started in, where `R` is any
number with `2 ≤ R` and `(2 - V^2) / (2 (1 - V)) ≤ R`; during a period it exceeds the disc by no more than the drive allows. -/
theorem C86_bounded (g : Sys ℝ) (dc : DC ℝ 1) (G : ℕ → ℕ → ℝ) (hG : g.Gamma = some G) (hN : g.N = 1) (hL : g.L = 1)
    (hM : g.M = 1) (hMt : g.Mt = 1) (hA : g.A 0 0 = 0) (hAt : g.At 0 0 = 0) (hB : |g.B 0 0| ≤ |G 0 0|) (hb : G 0 0 ≠ 0)
    (hT : 0 < dc.T) (h2 : 0 ≤ dc.tt2) (fc φ : ℝ) (hs : Real.sin (2 * Real.pi * fc * dc.T / 2) ≠ 0) :
    ∃ g' dc', bandpass { frontend := some ⟨1, g, dc⟩, fc := some fc, phi := some φ } = .ok ⟨2, g', dc'⟩ ∧ dc'.T = dc.T ∧
      ∀ V : ℝ, 0 ≤ V → V < 1 → ∀ R, 2 ≤ R → (2 - V ^ 2) / (2 * (1 - V)) ≤ R →
      ∀ cfg : Cfg 2, cfg.sys = g' → cfg.dc = dc' → cfg.hasInput = true →
        (∀ k t, ‖envelope 1 (cfg.input k t) 0‖ ≤ V) → ∀ st ψ, Run cfg st ψ →
        ‖envelope 1 (st 0).x 0‖ ≤ |G 0 0| * dc.T * R → ∀ j,
          ‖envelope 1 (st j).x 0‖ ≤ |G 0 0| * dc.T * R ∧ ∀ τ ∈ Set.Icc 0 dc.T, ‖envelope 1 (ψ j τ) 0‖ ≤
            |G 0 0| * dc.T * R + (|Real.sqrt 2 * (G 0 0 * dc.T * (2 * Real.pi * fc) /
              (2 * Real.sin (2 * Real.pi * fc * dc.T / 2)))| + |G 0 0| * V) * τ := by
  obtain ⟨N, L, M, Mt, Nt, A, B, CT, Ga, Gt, D, Bt, At⟩ := g
  dsimp only at hN hL hM hMt hG hA hAt hB
  subst hN hL hM hMt hG
  have hbT : G 0 0 * dc.T ≠ 0 := mul_ne_zero hb hT.ne'
  refine ⟨_, _, bandpass_ctl ⟨1, _, dc⟩ fc (some φ) none false G rfl one_ne_zero rfl rfl hs hbT (by simp), rfl, ?_⟩
  intro V hV0 hV1 R hR hRV cfg hsys hdc hin hu st ψ hrun h0
  simp only [Bool.false_eq_true, if_false, id_eq, Option.getD_some, Option.getD_none, add_zero] at hsys
  obtain ⟨w, hw⟩ : ∃ w, w = 2 * Real.pi * fc := ⟨_, rfl⟩
  rw [← hw] at hsys hs ⊢
  have hwn : w ≠ 0 := by
    rintro rfl
    rw [zero_mul, zero_div, Real.sin_zero] at hs
    exact hs rfl
  obtain ⟨b, hbd⟩ : ∃ b, b = G 0 0 := ⟨_, rfl⟩
  obtain ⟨T, hTd⟩ : ∃ T, T = dc.T := ⟨_, rfl⟩
  have hdc' : cfg.dc = ⟨dc.T, dc.tt2, 0, fun _ => stepResponse 0, fun _ => 0⟩ := hdc
  rw [← hTd] at hdc' hT
  rw [← hbd] at hB hb
  rw [← hbd, ← hTd] at hsys h0 hbT ⊢
  rw [← hTd] at hs
  have hbTp : 0 < |b| * T := mul_pos (abs_pos.2 hb) hT
  have hRV' : (R - 1) ^ 2 + 1 ≤ (R - V) ^ 2 := by
    rw [div_le_iff₀ (by linarith)] at hRV
    nlinarith
  -- every period keeps the disc
  have step : ∀ j, ‖envelope 1 (st j).x 0‖ ≤ |b| * T * R →
      ‖envelope 1 (st (j + 1)).x 0‖ ≤ |b| * T * R ∧ ∀ τ ∈ Set.Icc 0 T, ‖envelope 1 (ψ j τ) 0‖ ≤
            |b| * T * R + (|Real.sqrt 2 * (b * T * w / (2 * Real.sin (w * T / 2)))| + |b| * V) * τ := by
    intro j hj
    obtain ⟨p1, p2, p3, p4⟩ := bp_period Nt A B CT (some G) Gt D Bt At w _ _ _ _ T dc.tt2 h2 hA hAt cfg hsys
      hdc' hin _ _ _ (hrun j)
    obtain ⟨z, hz⟩ : ∃ z, z = envelope 1 (st j).x 0 := ⟨_, rfl⟩
    rw [← hz] at p1 p4 hj
    obtain ⟨o, ho⟩ : ∃ o : ℂ, o = Complex.exp (Complex.I * (w * (T / 2) - φ : ℝ)) * z / (b * T) := ⟨_, rfl⟩
    have hbTc : (b : ℂ) * T ≠ 0 := by exact_mod_cast hbT
    have hobs : (((-1 / (b * T) * Real.cos (w * (T / 2) - φ) : ℝ) : ℂ) +
        Complex.I * ((-1 / (b * T) * Real.sin (w * (T / 2) - φ) : ℝ) : ℂ)) * z = -o := by
      rw [ho, ← cis]
      push_cast
      ring
    rw [hobs] at p4
    have hon : ‖o‖ ≤ R := by
      rw [ho, norm_div, norm_mul, norm_cis, one_mul, norm_mul, Complex.norm_real, Complex.norm_real, Real.norm_eq_abs,
        Real.norm_eq_abs, abs_of_pos hT, div_le_iff₀ hbTp]
      linarith
    have hB' : ∀ k t, ‖(B 0 0 : ℂ) * envelope 1 (cfg.input k t) 0‖ ≤ |b| * V := by
      intro k t
      rw [norm_mul, Complex.norm_real, Real.norm_eq_abs]
      exact mul_le_mul hB (hu k t) (norm_nonneg _) (abs_nonneg _)
    constructor
    · have hr := rotating_bound w hwn _ (fun τ => envelope 1 (ψ j τ) 0)
        (fun τ => B 0 0 * envelope 1 (cfg.input ((st j).ticks + 1) (τ + (st j).t)) 0) 0 T (|b| * V) hT.le p3 p4
        (fun τ _ => hB' _ _)
      rw [sub_zero, held _ _ _ _ hs, p1, ← p2] at hr
      have e1 : Complex.exp (Complex.I * w * T) * z = b * T * Complex.exp (Complex.I * (φ + w * T / 2 : ℝ)) * o := by
        have e2 : Complex.I * w * T = Complex.I * (φ + w * T / 2 : ℝ) + Complex.I * (w * (T / 2) - φ : ℝ) := by
          push_cast
          ring
        have e3 : (b : ℂ) * T * o = Complex.exp (Complex.I * (w * (T / 2) - φ : ℝ)) * z := by
          rw [ho]
          exact mul_div_cancel₀ _ hbTc
        rw [e2, Complex.exp_add]
        linear_combination -Complex.exp (Complex.I * (φ + w * T / 2 : ℝ)) * e3
      rw [e1, ← mul_add] at hr
      have h3 : ‖o + decisions (-o)‖ ≤ R - V :=
        abs_le_of_sq_le_sq' ((dec_shrink o R hR hon).trans hRV') (by linarith) |>.2
      have h4 : ‖(b : ℂ) * T * Complex.exp (Complex.I * (φ + w * T / 2 : ℝ)) * (o + decisions (-o))‖ ≤
          |b| * T * (R - V) := by
        rw [norm_mul, norm_mul, norm_cis, mul_one, norm_mul, Complex.norm_real, Complex.norm_real, Real.norm_eq_abs,
          Real.norm_eq_abs, abs_of_pos hT]
        exact mul_le_mul_of_nonneg_left h3 hbTp.le
      have h5 := norm_le_norm_add_norm_sub' (envelope 1 (st (j + 1)).x 0)
        ((b : ℂ) * T * Complex.exp (Complex.I * (φ + w * T / 2 : ℝ)) * (o + decisions (-o)))
      linarith
    · intro τ hτ
      have hd2 : ‖decisions (-o)‖ = Real.sqrt 2 := by
        have hsq : ‖decisions (-o)‖ ^ 2 = 2 := by
          rw [← Complex.normSq_eq_norm_sq, Complex.normSq_apply]
          unfold decisions
          simp only [Complex.add_re, Complex.add_im, Complex.ofReal_re, Complex.ofReal_im,
            Complex.mul_re, Complex.mul_im, Complex.I_re, Complex.I_im]
          split_ifs <;> norm_num
        rw [← hsq, Real.sqrt_sq (norm_nonneg _)]
      have hr := rotating_bound w hwn 0 (fun τ => envelope 1 (ψ j τ) 0)
        (fun τ' => ((b * T * w / (2 * Real.sin (w * T / 2)) * Real.cos φ : ℝ) +
          Complex.I * (b * T * w / (2 * Real.sin (w * T / 2)) * Real.sin φ : ℝ)) * decisions (-o) +
            B 0 0 * envelope 1 (cfg.input ((st j).ticks + 1) (τ' + (st j).t)) 0) 0 τ
        (|Real.sqrt 2 * (b * T * w / (2 * Real.sin (w * T / 2)))| + |b| * V) hτ.1
        (p3.mono (Set.Icc_subset_Icc_right hτ.2))
        (fun τ' hτ' => (p4 τ' ⟨hτ'.1, hτ'.2.trans_le hτ.2⟩).congr_deriv (by rw [add_zero, add_assoc]))
        (fun τ' hτ' => by
          refine (norm_add_le _ _).trans (add_le_add ?_ (hB' _ _))
          have e1 : ((b * T * w / (2 * Real.sin (w * T / 2)) * Real.cos φ : ℝ) +
              Complex.I * (b * T * w / (2 * Real.sin (w * T / 2)) * Real.sin φ : ℝ) : ℂ) =
              (b * T * w / (2 * Real.sin (w * T / 2)) : ℝ) * Complex.exp (Complex.I * φ) := by
            rw [← cis]
            push_cast
            ring
          rw [e1, norm_mul, norm_mul, norm_cis, hd2, mul_one, Complex.norm_real, Real.norm_eq_abs, abs_mul,
            abs_of_nonneg (Real.sqrt_nonneg 2), mul_comm])
      rw [zero_mul, add_zero, sub_zero, p1] at hr
      have h5 := norm_le_norm_add_norm_sub' (envelope 1 (ψ j τ) 0) (Complex.exp (Complex.I * w * τ) * z)
      rw [norm_mul, norm_turn, one_mul] at h5
      linarith
  intro j
  have inv : ∀ j, ‖envelope 1 (st j).x 0‖ ≤ |b| * T * R := by
    intro j
    induction j with
    | zero => exact h0
    | succ j ih => exact (step j ih).1
  exact ⟨inv j, (step j (inv j)).2⟩

/-- **C86** below full scale every simulation of a first-order bandpass converter is bounded, whatever its initial state. -/
theorem C86_every_start (g : Sys ℝ) (dc : DC ℝ 1) (G : ℕ → ℕ → ℝ) (hG : g.Gamma = some G) (hN : g.N = 1) (hL : g.L = 1)
    (hM : g.M = 1) (hMt : g.Mt = 1) (hA : g.A 0 0 = 0) (hAt : g.At 0 0 = 0) (hB : |g.B 0 0| ≤ |G 0 0|) (hb : G 0 0 ≠ 0)
    (hT : 0 < dc.T) (h2 : 0 ≤ dc.tt2) (fc φ : ℝ) (hs : Real.sin (2 * Real.pi * fc * dc.T / 2) ≠ 0) :
    ∃ g' dc', bandpass { frontend := some ⟨1, g, dc⟩, fc := some fc, phi := some φ } = .ok ⟨2, g', dc'⟩ ∧
      ∀ V : ℝ, V < 1 → ∀ cfg : Cfg 2, cfg.sys = g' → cfg.dc = dc' → cfg.hasInput = true →
        (∀ k t, ‖envelope 1 (cfg.input k t) 0‖ ≤ V) → ∀ st ψ, Run cfg st ψ →
        ∃ C, ∀ j, ‖envelope 1 (st j).x 0‖ ≤ C ∧ ∀ τ ∈ Set.Icc 0 dc.T, ‖envelope 1 (ψ j τ) 0‖ ≤ C := by
  obtain ⟨g', dc', h1, -, h3⟩ := C86_bounded g dc G hG hN hL hM hMt hA hAt hB hb hT h2 fc φ hs
  refine ⟨g', dc', h1, ?_⟩
  intro V hV cfg hsys hdc hin hu st ψ hrun
  have hV0 : 0 ≤ V := (norm_nonneg _).trans (hu 0 0)
  have hbT : 0 < |G 0 0| * dc.T := mul_pos (abs_pos.2 hb) hT
  obtain ⟨R, hR⟩ : ∃ R, R = max (max 2 ((2 - V ^ 2) / (2 * (1 - V)))) (‖envelope 1 (st 0).x 0‖ / (|G 0 0| * dc.T)) := ⟨_, rfl⟩
  have h := h3 V hV0 hV R (by rw [hR]; exact (le_max_left _ _).trans (le_max_left _ _))
    (by rw [hR]; exact (le_max_right _ _).trans (le_max_left _ _)) cfg hsys hdc hin hu st ψ hrun (by
      rw [mul_comm, ← div_le_iff₀ hbT, hR]
      exact le_max_right _ _)
  obtain ⟨K, hK⟩ : ∃ K, K = |Real.sqrt 2 * (G 0 0 * dc.T * (2 * Real.pi * fc) /
    (2 * Real.sin (2 * Real.pi * fc * dc.T / 2)))| + |G 0 0| * V := ⟨_, rfl⟩
  have hK0 : 0 ≤ K := by
    rw [hK]
    positivity
  rw [← hK] at h
  refine ⟨|G 0 0| * dc.T * R + K * dc.T, fun j => ⟨?_, fun τ hτ => ?_⟩⟩
  · have := (h j).1
    have := mul_nonneg hK0 hT.le
    linarith
  · have h5 := (h j).2 τ hτ
    have := mul_le_mul_of_nonneg_left hτ.2 hK0
    linarith

/-- the entries of a single integrator -/
theorem network_one (g : Sys ℝ) (beta alpha rho kappa : ℕ → ℝ) (h : IsNetwork g 1 beta alpha rho kappa) (hk : kappa 0 ≠ 0) :
    ∃ G, g.Gamma = some G ∧ G 0 0 = kappa 0 ∧ g.A 0 0 = rho 0 ∧ g.B 0 0 = beta 0 ∧ g.At 0 0 = 0 := by
  cases hG : g.Gamma with
  | none =>
    obtain ⟨d, hd, -⟩ := h.deriv (fun _ => 0) (fun _ => 0) (fun _ => 0)
    unfold Sys.derivative npDot at hd
    rw [hG] at hd
    simp [h.n, h.l, bind, Except.bind] at hd
  | some G =>
    have key : ∀ x u s : ℝ, g.A 0 0 * x + g.B 0 0 * u + G 0 0 * s = rho 0 * x + beta 0 * u + kappa 0 * s := by
      intro x u s
      obtain ⟨d, hd, hv⟩ := h.deriv (fun _ => x) (fun _ => u) (fun _ => s)
      obtain ⟨d', hd', -, hv'⟩ := (C21_derivative_partial g G hG ⟨1, fun _ => x⟩ ⟨1, fun _ => u⟩ ⟨1, fun _ => s⟩).1
        ⟨h.n.symm, h.l.symm, h.m.symm⟩
      rw [hd] at hd'
      rw [Except.ok.injEq] at hd'
      subst hd'
      have h1 := hv 0 one_pos
      rw [hv' 0, h.n, h.l, h.m] at h1
      simpa [previous, following] using h1
    have hobs : g.At 0 0 = 0 := by
      cases hGT : g.GammaT with
      | none =>
        obtain ⟨y, hy, -⟩ := h.obs (fun _ => 0) (fun _ => 0) (fun _ => 0)
        unfold Sys.controlObservation at hy
        rw [hGT] at hy
        cases hy
      | some GT =>
        obtain ⟨y, hy, -, hv⟩ := h.obs (fun _ => 0) (fun _ => 0) (fun _ => 1)
        obtain ⟨⟨y', hy', -, hv'⟩, -⟩ := C27_observation_partial g GT hGT ⟨1, fun _ => 0⟩ ⟨1, fun _ => 0⟩ ⟨1, fun _ => 1⟩
          h.n.symm h.l.symm h.m.symm
        rw [hy, Except.ok.injEq] at hy'
        subst hy'
        have h1 : y.v 0 = 0 := by
          rcases lt_or_gt_of_ne hk with h2 | h2
          · exact (hv 0 one_pos).2 h2
          · rw [(hv 0 one_pos).1 h2, neg_zero]
        rw [hv' 0, h.m] at h1
        simpa using h1
    refine ⟨G, rfl, ?_, ?_, ?_, hobs⟩
    · simpa using key 0 0 1
    · simpa using key 1 0 0
    · simpa using key 0 1 0

/-- **C86** for `get_bandpass` of `get_leap_frog(N=1, OSR, BW)`: below full scale every simulation is bounded. -/
theorem C86_leap_frog (k : Kw) (gg : ℕ → ℝ) (BW OSR fc φ : ℝ) (hB : 0 < BW) (hO : 0 < OSR) (hd : 0 < k.delta.getD 1)
    (hkN : k.N = some 1) (hkB : k.BW = some BW) (hkO : k.OSR = some OSR) (hkE : k.ENOB = none)
    (hT : 2 / 10 ^ 14 ≤ 1 / (2 * OSR * BW)) (hs : Real.sin (Real.pi * fc / (2 * OSR * BW)) ≠ 0) :
    ∃ fe g' dc', leapSynthesis k gg = .ok fe ∧
      bandpass { frontend := some fe, fc := some fc, phi := some φ } = .ok ⟨2, g', dc'⟩ ∧ Fom.osr (1 / fe.dc.T) BW = OSR ∧
      ∀ V : ℝ, V < 1 → ∀ cfg : Cfg 2, cfg.sys = g' → cfg.dc = dc' → cfg.hasInput = true →
        (∀ k t, ‖envelope 1 (cfg.input k t) 0‖ ≤ V) → ∀ st ψ, Run cfg st ψ →
        ∃ C, ∀ j, ‖envelope 1 (st j).x 0‖ ≤ C ∧ ∀ τ ∈ Set.Icc 0 fe.dc.T, ‖envelope 1 (ψ j τ) 0‖ ≤ C := by
  obtain ⟨g, dc, beta, alpha, T, h1, hl, hT0, hosr⟩ := (C81_osr k gg 1 one_ne_zero BW OSR hB hO hd hkN hkB hkO hkE).1 hT
  obtain ⟨G, hG, g1, g2, g3, g4⟩ := network_one g _ _ _ _ hl.net (by rw [pow_zero, mul_one]; exact hl.nz)
  rw [pow_zero, mul_one] at g1
  have hper := hl.per
  have htt : dc.tt2 = 1 / 10 ^ 14 / 2 := by
    have hc := hl.ctl
    unfold DC.new initIR initOffsets at hc
    rw [if_neg (lt_irrefl 0)] at hc
    dsimp only at hc
    rw [Except.ok.injEq] at hc
    rw [← hc]
  have hTe : T = 1 / (2 * OSR * BW) := by
    unfold Fom.osr Fom.nyquistFrequency at hosr
    rw [← hosr]
    field_simp
  obtain ⟨g', dc', h2, h3⟩ := C86_every_start g dc G hG hl.net.n hl.net.l hl.net.m hl.net.mt g2 g4 (by rw [g3, g1])
    (by rw [g1]; exact hl.nz) (by rw [hper]; exact hT0) (by rw [htt]; positivity) fc φ
    (by
      rw [hper, hTe]
      have : 2 * Real.pi * fc * (1 / (2 * OSR * BW)) / 2 = Real.pi * fc / (2 * OSR * BW) := by ring
      rw [this]
      exact hs)
  exact ⟨⟨1, g, dc⟩, g', dc', h1, h2, by change Fom.osr (1 / dc.T) BW = OSR; rw [hper]; exact hosr, h3⟩

example : ∃ fe be, leapSynthesis { N := some 1, OSR := some 8, BW := some 1000 } (fun _ => 1) = .ok fe ∧
    bandpass { frontend := some fe, fc := some 4000, phi := some 0 } = .ok be ∧ be.M = 2 := by
  obtain ⟨fe, g', dc', h1, h2, -⟩ := C86_leap_frog { N := some 1, OSR := some 8, BW := some 1000 } (fun _ => 1) 1000 8 4000 0
    (by norm_num) (by norm_num) one_pos rfl rfl rfl rfl (by norm_num)
    (by
      have : Real.pi * 4000 / (2 * 8 * 1000) = Real.pi / 4 := by ring
      rw [this, Real.sin_pi_div_four]
      positivity)
  exact ⟨fe, _, h1, h2, rfl⟩

/-- `C86_every_start` -/
example : ∃ be, bandpass { frontend := some exOne, fc := some (1 / 4), phi := some 2 } = .ok be ∧ be.M = 2 := by
  obtain ⟨g', dc', h1, -⟩ := C86_bounded exOne.sys exOne.dc (fun _ _ => 1) rfl rfl rfl rfl rfl rfl rfl le_rfl one_ne_zero
    one_pos le_rfl (1 / 4) 2 exOne_sin
  exact ⟨_, h1, rfl⟩

end Cbadc.Synthesis
