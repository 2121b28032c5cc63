import Verif.Lemmas.Parts
import Verif.Props.Estimator
import Verif.Props.Existence
import Verif.Props.Mirror
import Verif.Props.RunExists
import Verif.Props.Simulator
import Verif.Props.Topology

/-!
# C164: converters put side by side do not disturb each other

A stack of analog systems with one digital control is simulated, its filter coefficients are computed and its estimates are the same as
if every part had been treated alone.
-/

namespace Cbadc.Parts

open Matrix Set Cbadc.Analog Cbadc.Analog.Spec Cbadc.Control Cbadc.Simulate Cbadc.Estimator Cbadc.Filter Cbadc.Filter.Spec Cbadc.Streams

section simulation
variable {M : ℕ} {l1 l2 : List (Sys ℝ)} {g : Sys ℝ} (c : Cfg M) (hM : total Sys.M l1 + g.M ≤ M)

theorem contribution_take (s : State ℝ M) (t : ℝ) (i : ℕ) (hi : i < g.M) :
    (asVec (contribution (control hM c.dc) ⟨take hM s.s, take hM s.cur, take hM s.old⟩ t)).v i =
      shift (total Sys.M l1) (asVec (contribution c.dc s t)).v i := by
  show (if h : i < g.M then _ else _) = if h : total Sys.M l1 + i < M then _ else _
  rw [dif_pos hi, dif_pos (show total Sys.M l1 + i < M by omega)]
  rfl

/-- **C164** Simulations: what a simulation of the stack does to a part is a simulation of the part, with the part's own inputs and
controls. -/
theorem C164_simulation (h : stack (l1 ++ g :: l2) = .ok c.sys) (hin : c.hasInput = true) (hT : 0 < c.dc.T) (hG : g.Gamma ≠ none)
    (hGT : g.GammaT ≠ none) (hBt : ∀ r c, g.Bt r c = 0) (hMt : total Sys.Mt l1 = total Sys.M l1) (hg : g.M ≤ g.Mt)
    {s : ℕ → St M} {φ : ℕ → ℝ → ℕ → ℝ} (hr : Run c s φ) :
    Run (config c g (total Sys.L l1) hM) (fun k => st (total Sys.N l1) hM (s k)) fun k t n => φ k t (total Sys.N l1 + n) := by
  intro k
  obtain ⟨G, hG⟩ := Option.ne_none_iff_exists'.1 hG
  obtain ⟨GT, hGT⟩ := Option.ne_none_iff_exists'.1 hGT
  have hp := hr k
  have hN : total Sys.N l1 + g.N ≤ c.sys.N := (part_of_stack h).N
  obtain ⟨d0, hd0, -⟩ := hp.ode 0 ⟨le_refl _, hT⟩
  obtain ⟨-, -, hcM, -⟩ := rhs_input c hin _ _ _ _ _ hd0
  refine ⟨?_, fun n hn => hp.start _ (by have : n < g.N := hn; omega), fun n hn => hp.cont _ (by have : n < g.N := hn; omega), fun τ hτ => ?_,
    fun n hn => hp.stop _ (by have : n < g.N := hn; omega), hp.ticks, hp.time⟩
  · obtain ⟨y, h1, h2, h3⟩ := (decide_ok c _ _).1 hp.dec
    obtain ⟨y1, k1, k2, k3⟩ := C23_control_observation_partial l1 g l2 c.sys h hBt ⟨c.sys.N, (s k).x⟩ (c.u0 (s k))
      (asVec (contribution c.dc (s k).c 0)) rfl rfl hcM.symm
    obtain rfl := Except.ok.inj (h1.symm.trans k1)
    obtain ⟨⟨y', q1, q2, q3⟩, -⟩ := C27_observation_partial g GT hGT ⟨g.N, fun n => (s k).x (total Sys.N l1 + n)⟩
      ((config c g (total Sys.L l1) hM).u0 (st (total Sys.N l1) hM (s k)))
      (asVec (contribution (control hM c.dc) (st (total Sys.N l1) hM (s k)).c 0)) rfl rfl rfl
    have hy : ∀ i < g.M, y'.v i = y.v (total Sys.M l1 + i) := by
      intro i hi
      rw [← hMt, k3 i (by omega), q3]
      unfold cObs
      rw [hGT]
      have e := Finset.sum_congr rfl fun j (hj : j ∈ Finset.range g.M) =>
        congrArg (g.At i j * ·) (contribution_take c hM (s k).c 0 j (Finset.mem_range.1 hj))
      exact congrArg₂ (· + ·) rfl e
    refine (decide_ok _ _ _).2 ⟨y', q1, by rw [q2]; exact hg, ?_⟩
    show (⟨take hM (s (k + 1)).c.s, take hM (s (k + 1)).c.cur, take hM (s (k + 1)).c.old⟩ : State ℝ g.M) = _
    rw [h3]
    have e : (fun m : Fin g.M => y'.v m) = fun m : Fin g.M => y.v (total Sys.M l1 + m) := funext fun m => hy m m.2
    rw [e]
    rfl
  · obtain ⟨d, h1, h2⟩ := hp.ode τ hτ
    obtain ⟨d1, k1, -, k3⟩ := C23_trajectory l1 g l2 c.sys h ⟨c.sys.N, φ k τ⟩ ⟨c.sys.L, fun l => c.input ((s k).ticks + 1) (τ + (s k).t) l⟩
      (asVec (contribution c.dc (s (k + 1)).c τ)) rfl rfl hcM.symm
    have hd : d = d1 := by
      unfold Cfg.rhs at h1
      rw [hin, if_pos rfl] at h1
      exact Except.ok.inj (h1.symm.trans k1)
    subst hd
    obtain ⟨d', q1, q2⟩ := rhs_input_mk (config c g (total Sys.L l1) hM) hin G hG rfl (st (total Sys.N l1) hM (s k))
      (st (total Sys.N l1) hM (s (k + 1))).c τ (fun n => φ k τ (total Sys.N l1 + n))
    refine ⟨d', q1, fun n hn => ?_⟩
    refine (h2 (total Sys.N l1 + n) (by have : n < g.N := hn; omega)).congr_deriv ?_
    rw [k3 n hn, q2]
    unfold rhs
    rw [hG]
    have e := Finset.sum_congr rfl fun j (hj : j ∈ Finset.range g.M) =>
      congrArg (G n j * ·) (contribution_take c hM (s (k + 1)).c τ j (Finset.mem_range.1 hj))
    rw [add_assoc]
    exact congrArg₂ (· + ·) rfl (congrArg₂ (· + ·) rfl e.symm)

end simulation

section solvable
variable {l : List (Sys ℝ)} {S : Sys ℝ}

/-- a nonzero vector is nonzero in some part -/
theorem part_ne_zero {R : Sys ℝ → ℕ} {x : Fin (total R l) → ℂ} (hx : x ≠ 0) :
    ∃ l1 g l2, l = l1 ++ g :: l2 ∧ pick (R g) (total R l) (total R l1) *ᵥ x ≠ 0 := by
  obtain ⟨r, hr⟩ := Function.ne_iff.1 hx
  obtain ⟨l1, g, l2, i, rfl, hi, he⟩ := exists_part R l r r.2
  refine ⟨l1, g, l2, rfl, fun h0 => hr ?_⟩
  have := congrFun h0 ⟨i, hi⟩
  rw [pick_mulVec (part_le R l1 g l2)] at this
  refine Eq.trans (congrArg x (Fin.ext ?_)) this
  exact he

theorem part_of_ne_zero (h : stack l = .ok S) {x : Fin S.N → ℂ} (hx : x ≠ 0) :
    ∃ l1 g l2, l = l1 ++ g :: l2 ∧ pick g.N S.N (total Sys.N l1) *ᵥ x ≠ 0 := by
  have hS : S.N = total Sys.N l := by
    rw [stack_eq l (by rintro rfl; cases h)] at h
    cases h
    rfl
  revert x
  rw [hS]
  exact fun hx => part_ne_zero hx

theorem map_pick {n N o : ℕ} : (pick n N o : Matrix (Fin n) (Fin N) ℝ).map (fun a => (a : ℂ)) = pick n N o := by
  ext i j
  show ((if (j : ℕ) = o + i then (1 : ℝ) else 0 : ℝ) : ℂ) = if (j : ℕ) = o + i then 1 else 0
  by_cases h : (j : ℕ) = o + i
  · rw [if_pos h, if_pos h, Complex.ofReal_one]
  · rw [if_neg h, if_neg h, Complex.ofReal_zero]

theorem map_intertwine {a b c d : ℕ} {P : Matrix (Fin a) (Fin b) ℝ} {X : Matrix (Fin b) (Fin c) ℝ} {Y : Matrix (Fin a) (Fin d) ℝ} {P' : Matrix (Fin d) (Fin c) ℝ}
    (h : P * X = Y * P') : P.map (fun a => (a : ℂ)) * X.map (fun a => (a : ℂ)) = Y.map (fun a => (a : ℂ)) * P'.map (fun a => (a : ℂ)) := by
  have e : ∀ {a b c : ℕ} (X : Matrix (Fin a) (Fin b) ℝ) (Y : Matrix (Fin b) (Fin c) ℝ),
      X.map (fun a => (a : ℂ)) * Y.map (fun a => (a : ℂ)) = (X * Y).map fun a => (a : ℂ) := fun X Y => by
    ext i j
    simp [Matrix.mul_apply]
  rw [e, e, h]

theorem Part.Bt {g S : Sys ℝ} {oN oL oNt : ℕ} (P : Part g S oN oL oNt) :
    pick g.L S.L oL * (toM S.N S.L S.B)ᵀ = (toM g.N g.L g.B)ᵀ * pick g.N S.N oN := by
  have := congrArg transpose P.B'
  rwa [transpose_mul, transpose_mul, transpose_transpose, transpose_transpose] at this

/-- controllability from the inputs, in the form in which the equation is solvable -/
theorem reachable (h : stack l = .ok S) (hr : ∀ g ∈ l, Observable (toM g.N g.L g.B)ᵀ (toM g.N g.N g.A)ᵀ) :
    Observable (toM S.N S.L S.B)ᵀ (toM S.N S.N S.A)ᵀ := by
  intro μ x hx he h0
  obtain ⟨l1, g, l2, rfl, hp⟩ := part_of_ne_zero h hx
  have P := part_of_stack h
  refine hr g (by simp) μ _ hp ?_ ?_
  · have := map_intertwine P.At
    rw [map_pick] at this
    rw [mulVec_mulVec, ← this, ← mulVec_mulVec, he, mulVec_smul]
  · have := map_intertwine P.Bt
    rw [map_pick, map_pick] at this
    rw [mulVec_mulVec, ← this, ← mulVec_mulVec, h0, mulVec_zero]

/-- **C164** The conditions under which the coefficients can be computed hold for the stack if they hold for every part. -/
theorem C164_solvable (h : stack l = .ok S) (hr : ∀ g ∈ l, Observable (toM g.N g.L g.B)ᵀ (toM g.N g.N g.A)ᵀ)
    (ho : ∀ g ∈ l, Observable (toM g.Nt g.N g.CT) (toM g.N g.N g.A)) :
    Observable (toM S.N S.L S.B)ᵀ (toM S.N S.N S.A)ᵀ ∧ Observable (toM S.Nt S.N S.CT) (toM S.N S.N S.A) := by
  refine ⟨reachable h hr, ?_⟩
  intro μ x hx he h0
  obtain ⟨l1, g, l2, rfl, hp⟩ := part_of_ne_zero h hx
  have P := part_of_stack h
  refine ho g (by simp) μ _ hp ?_ ?_
  · have := map_intertwine P.A
    rw [map_pick] at this
    rw [mulVec_mulVec, ← this, ← mulVec_mulVec, he, mulVec_smul]
  · have := map_intertwine P.C
    rw [map_pick, map_pick] at this
    rw [mulVec_mulVec, ← this, ← mulVec_mulVec, h0, mulVec_zero]

end solvable

section coefficients
variable {M : ℕ} {l1 l2 : List (Sys ℝ)} {g S : Sys ℝ} {eta2 : ℝ}

/-- **C164** Coefficients: the covariance matrices of the stack are those of the part in the part's rows and zero elsewhere, and so are
the filter coefficients. -/
theorem C164_coefficients (h : stack (l1 ++ g :: l2) = .ok S) (hM : total Sys.M l1 + g.M ≤ M) (d : DC ℝ M) (hT : 0 ≤ d.T) (he : 0 < eta2)
    (hr : ∀ f ∈ l1 ++ g :: l2, Observable (toM f.N f.L f.B)ᵀ (toM f.N f.N f.A)ᵀ)
    {GS G : ℕ → ℕ → ℝ} (hGS : S.Gamma = some GS) (hG : g.Gamma = some G) {Vf Vb : Matrix (Fin S.N) (Fin S.N) ℝ} {vf vb : Matrix (Fin g.N) (Fin g.N) ℝ}
    {c : Coeffs ℝ S.N M S.L} {c' : Coeffs ℝ g.N g.M g.L}
    (hf : IsStabilising (careA S) (careB S) (careQ S) (careR S eta2) Vf) (hb : IsStabilising (-careA S) (careB S) (careQ S) (careR S eta2) Vb)
    (hc : Numerical S GS d eta2 Vf Vb c)
    (hf' : IsStabilising (careA g) (careB g) (careQ g) (careR g eta2) vf) (hb' : IsStabilising (-careA g) (careB g) (careQ g) (careR g eta2) vb)
    (hc' : Numerical g G (control hM d) eta2 vf vb c') :
    pick g.N S.N (total Sys.N l1) * Vf = vf * pick g.N S.N (total Sys.N l1) ∧ pick g.N S.N (total Sys.N l1) * Vb = vb * pick g.N S.N (total Sys.N l1) ∧
      Restricts (total Sys.N l1) (total Sys.M l1) (total Sys.L l1) c c' := by
  have P := part_of_stack h
  have e0 : eta2 ≠ 0 := he.ne'
  have ef := P.Vf e0 hf hf'
  have eb := P.Vb e0 hb hb'
  have hRS := reachable h hr
  have eAf : pick g.N S.N (total Sys.N l1) * tempAf S eta2 Vf = tempAf g eta2 vf * pick g.N S.N (total Sys.N l1) := by
    unfold tempAf
    rw [Matrix.mul_sub, Matrix.sub_mul, P.A, ← Matrix.mul_assoc, ef, Matrix.mul_assoc, P.cct e0, Matrix.mul_assoc]
  have eAb : pick g.N S.N (total Sys.N l1) * tempAb S eta2 Vb = tempAb g eta2 vb * pick g.N S.N (total Sys.N l1) := by
    unfold tempAb
    rw [Matrix.mul_add, Matrix.add_mul, P.A, ← Matrix.mul_assoc, eb, Matrix.mul_assoc, P.cct e0, Matrix.mul_assoc]
  have eAb' : pick g.N S.N (total Sys.N l1) * -tempAb S eta2 Vb = -tempAb g eta2 vb * pick g.N S.N (total Sys.N l1) := by
    rw [Matrix.mul_neg, Matrix.neg_mul, eAb]
  have eG : pick g.N S.N (total Sys.N l1) * toM S.N M GS = toM g.N g.M G * pick g.M M (total Sys.M l1) := by
    rw [stack_eq _ (by simp)] at h
    cases h
    cases hGS
    have := row_eq Sys.N Sys.M (fun g : Sys ℝ => optBlock g.Gamma) l1 g l2 M
    simp only [hG] at this
    exact this
  have drive : ∀ (j : Fin M) (t : ℝ), pick g.N S.N (total Sys.N l1) *ᵥ (toM S.N M GS *ᵥ impulseResponse d j t) =
      toM g.N g.M G *ᵥ if hj : total Sys.M l1 ≤ j ∧ (j : ℕ) < total Sys.M l1 + g.M then impulseResponse (control hM d) ⟨j - total Sys.M l1, by omega⟩ t else 0 := by
    intro j t
    rw [mulVec_mulVec, eG, ← mulVec_mulVec, pick_impulse hM]
  refine ⟨ef, eb, ?_, ?_, ?_, ?_, ?_⟩
  · rw [hc.common.Af, hc'.common.Af]
    exact exp_intertwine (smul_intertwine eAf _)
  · rw [hc.common.Ab, hc'.common.Ab]
    exact exp_intertwine (smul_intertwine eAb' _)
  · ext i j
    obtain ⟨ψ, k1, k2, k3⟩ := hc.regular.Bf j
    have k4 : (pick g.N S.N (total Sys.N l1) * c.Bf : Matrix _ _ ℝ) i j = (pick g.N S.N (total Sys.N l1) *ᵥ ψ d.T) i := by
      rw [Matrix.mul_apply]
      exact Finset.sum_congr rfl fun n _ => congrArg _ (k3 n)
    rw [k4, mul_pick]
    by_cases hj : total Sys.M l1 ≤ j ∧ (j : ℕ) < total Sys.M l1 + g.M
    · rw [dif_pos hj]
      obtain ⟨χ, q1, q2, q3⟩ := hc'.regular.Bf ⟨j - total Sys.M l1, by omega⟩
      rw [q3]
      have k5 := flow (w := fun t => toM g.N g.M G *ᵥ impulseResponse (control hM d) ⟨j - total Sys.M l1, by omega⟩ t) eAf
        (fun t => by rw [drive, dif_pos hj]) k1
      rw [flow_unique k5 q1 (by rw [k2, q2, mulVec_zero]) d.T ⟨hT, le_refl _⟩]
    · rw [dif_neg hj]
      have k5 := flow (w := fun _ => 0) eAf (fun t => by rw [drive, dif_neg hj, mulVec_zero]) k1
      rw [flow_unique k5 flow_zero (by rw [k2, mulVec_zero]) d.T ⟨hT, le_refl _⟩]
      rfl
  · ext i j
    obtain ⟨ψ, k1, k2, k3⟩ := hc.regular.Bb j
    have k4 : (pick g.N S.N (total Sys.N l1) * c.Bb : Matrix _ _ ℝ) i j = (pick g.N S.N (total Sys.N l1) *ᵥ ψ d.T) i := by
      rw [Matrix.mul_apply]
      exact Finset.sum_congr rfl fun n _ => congrArg _ (k3 n)
    rw [k4, mul_pick]
    by_cases hj : total Sys.M l1 ≤ j ∧ (j : ℕ) < total Sys.M l1 + g.M
    · rw [dif_pos hj]
      obtain ⟨χ, q1, q2, q3⟩ := hc'.regular.Bb ⟨j - total Sys.M l1, by omega⟩
      rw [q3]
      have k5 := flowLeft (w := fun t => -(toM g.N g.M G *ᵥ impulseResponse (control hM d) ⟨j - total Sys.M l1, by omega⟩ (d.T - t))) eAb'
        (fun t => by rw [mulVec_neg, drive, dif_pos hj]) k1
      rw [flowLeft_unique hT k5 q1 (by rw [k2, q2, mulVec_zero])]
    · rw [dif_neg hj]
      have k5 := flowLeft (w := fun _ => 0) eAb' (fun t => by rw [mulVec_neg, drive, dif_neg hj, mulVec_zero, neg_zero]) k1
      have k6 : FlowLeft (-tempAb g eta2 vb) (fun _ => 0) 0 d.T fun _ => 0 :=
        ⟨continuousOn_const, fun t _ => by rw [mulVec_zero, add_zero]; exact hasDerivWithinAt_const _ _ _⟩
      rw [flowLeft_unique hT k5 k6 (by rw [k2, mulVec_zero])]
      rfl
  · have o1 : Observable (careQ S) (careA S) := hRS.gram
    have p1 := ((C144_stabilising hf careQ_psd (careR_posDef he) o1).2.add (C144_stabilising hb careQ_psd (careR_posDef he) o1.neg).2).det_pos.ne'.isUnit
    have o2 : Observable (careQ g) (careA g) := (hr g (by simp)).gram
    have p2 := ((C144_stabilising hf' careQ_psd (careR_posDef he) o2).2.add (C144_stabilising hb' careQ_psd (careR_posDef he) o2.neg).2).det_pos.ne'.isUnit
    have w1 : ∀ {f : Sys ℝ} {Vf Vb : Matrix (Fin f.N) (Fin f.N) ℝ} {W : Matrix (Fin f.L) (Fin f.N) ℝ}, IsUnit (Vf + Vb).det →
        (Vf + Vb)ᵀ * ((Vf + Vb) * Wᵀ - toM f.N f.L f.B) = 0 → (Vf + Vb) * Wᵀ = toM f.N f.L f.B := by
      intro f Vf Vb W hu h4
      have hut : IsUnit (Vf + Vb)ᵀ.det := by rwa [det_transpose]
      have h5 : ((Vf + Vb)ᵀ)⁻¹ * ((Vf + Vb)ᵀ * ((Vf + Vb) * Wᵀ - toM f.N f.L f.B)) = 0 := by rw [h4, Matrix.mul_zero]
      rwa [← Matrix.mul_assoc, nonsing_inv_mul _ hut, Matrix.one_mul, sub_eq_zero] at h5
    have a1 := w1 p1 hc.common.WT
    have a2 := w1 p2 hc'.common.WT
    -- transposed: WT_S V = Bᵀ
    have sV : (Vf + Vb)ᵀ = Vf + Vb := by rw [transpose_add, hf.care.symm, hb.care.symm]
    have sv : (vf + vb)ᵀ = vf + vb := by rw [transpose_add, hf'.care.symm, hb'.care.symm]
    have b1 : c.WT * (Vf + Vb) = (toM S.N S.L S.B)ᵀ := by
      rw [← a1, transpose_mul, transpose_transpose, sV]
    have b2 : c'.WT * (vf + vb) = (toM g.N g.L g.B)ᵀ := by
      rw [← a2, transpose_mul, transpose_transpose, sv]
    have b4 : (pick g.L S.L (total Sys.L l1) : Matrix _ _ ℝ) * c.WT * (Vf + Vb) = c'.WT * pick g.N S.N (total Sys.N l1) * (Vf + Vb) := by
      rw [Matrix.mul_assoc, b1, P.Bt, ← b2, Matrix.mul_assoc, Matrix.mul_assoc, Matrix.mul_add, ef, eb, Matrix.add_mul]
    have b5 := congrArg (· * (Vf + Vb)⁻¹) b4
    rwa [Matrix.mul_assoc _ (Vf + Vb), mul_nonsing_inv _ p1, Matrix.mul_one, Matrix.mul_assoc _ (Vf + Vb), mul_nonsing_inv _ p1, Matrix.mul_one] at b5

end coefficients

section estimates
variable {K : Type*} [CommRing K] [LinearOrder K] {N M L n m l oN oM oL : ℕ} {c : Coeffs K N M L} {c' : Coeffs K n m l}

omit [LinearOrder K] in
theorem pow_restrict {X : Matrix (Fin N) (Fin N) K} {Y : Matrix (Fin n) (Fin n) K} (h : pick n N oN * X = Y * pick n N oN) (i : ℕ) :
    pick n N oN * X ^ i = Y ^ i * pick n N oN := by
  induction i with
  | zero => simp
  | succ i ih => rw [pow_succ, ← Matrix.mul_assoc, ih, Matrix.mul_assoc, h, ← Matrix.mul_assoc, ← pow_succ]

omit [LinearOrder K] in
theorem kernel_restrict {X : Matrix (Fin N) (Fin N) K} {Y : Matrix (Fin n) (Fin n) K} {B : Matrix (Fin N) (Fin M) K} {b : Matrix (Fin n) (Fin m) K}
    (hM : oM + m ≤ M) (hA : pick n N oN * X = Y * pick n N oN) (hB : pick n N oN * B = b * pick m M oM) (hW : pick l L oL * c.WT = c'.WT * pick n N oN) (i : ℕ)
    (v : Fin M → K) : pick l L oL *ᵥ ((c.WT * (X ^ i * B)) *ᵥ v) = (c'.WT * (Y ^ i * b)) *ᵥ take hM v := by
  rw [mulVec_mulVec, ← Matrix.mul_assoc, hW, Matrix.mul_assoc, ← Matrix.mul_assoc (pick n N oN), pow_restrict hA, Matrix.mul_assoc (Y ^ i), hB,
    ← Matrix.mul_assoc (Y ^ i), ← Matrix.mul_assoc, ← mulVec_mulVec, pick_mulVec hM]

omit [LinearOrder K] in
theorem ext_take (hM : oM + m ≤ M) (s : ℕ → Fin M → K) (j : ℤ) : take hM (Cbadc.Spec.ext s j) = Cbadc.Spec.ext (fun k => take hM (s k)) j := by
  funext i
  unfold Cbadc.Spec.ext take
  by_cases h : 0 ≤ j
  · rw [if_pos h, if_pos h]
  · rw [if_neg h, if_neg h]
    rfl

omit [LinearOrder K] in
theorem past_restrict (h : Restricts oN oM oL c c') (hM : oM + m ≤ M) (s : ℕ → Fin M → K) (k : ℤ) (q : ℕ) :
    pick l L oL *ᵥ Cbadc.Spec.past c.WT c.Af c.Bf (Cbadc.Spec.ext s) k q =
      Cbadc.Spec.past c'.WT c'.Af c'.Bf (Cbadc.Spec.ext fun k => take hM (s k)) k q := by
  unfold Cbadc.Spec.past
  rw [mulVec_sum]
  exact Finset.sum_congr rfl fun i _ => by rw [kernel_restrict hM h.Af h.Bf h.WT, ext_take]

omit [LinearOrder K] in
theorem future_restrict (h : Restricts oN oM oL c c') (hM : oM + m ≤ M) (s : ℕ → Fin M → K) (k : ℤ) (q : ℕ) :
    pick l L oL *ᵥ Cbadc.Spec.future c.WT c.Ab c.Bb (Cbadc.Spec.ext s) k q =
      Cbadc.Spec.future c'.WT c'.Ab c'.Bb (Cbadc.Spec.ext fun k => take hM (s k)) k q := by
  unfold Cbadc.Spec.future
  rw [mulVec_sum]
  exact Finset.sum_congr rfl fun i _ => by rw [kernel_restrict hM h.Ab h.Bb h.WT, ext_take]

/-- **C164** Estimates: the entries that belong to the part are what an estimator for the part alone gives, from the part's control
signals. -/
theorem C164_estimates (h : Restricts oN oM oL c c') (hM : oM + m ≤ M) (hL : oL + l ≤ L) (s : ℕ → Fin M → K) (K1 K2 : ℕ) (eta2 : K) (ds limit k : ℕ)
    (offset : Option (Fin L → K)) :
    (∀ f f', FIR.new c K1 K2 eta2 false ds limit offset = .ok f →
      FIR.new c' K1 K2 eta2 false ds limit (offset.map (take hL)) = .ok f' → ds ≤ K1 + K2 → limit = 0 ∨ ds * (k + 1) ≤ limit →
      ∃ u, call (f.next fun k => .ok (s k)) FIRState.init k = .ok u ∧ call (f'.next fun k => .ok (take hM (s k))) FIRState.init k = .ok (take hL u)) ∧
    (∀ f f', IIR.new c K2 eta2 ds limit = .ok f → IIR.new c' K2 eta2 ds limit = .ok f' → 1 ≤ K2 → 1 ≤ ds → limit = 0 ∨ ds * k + 1 ≤ limit →
      ∃ u, call (f.next fun k => .ok (s k)) IIRState.init k = .ok u ∧ call (f'.next fun k => .ok (take hM (s k))) IIRState.init k = .ok (take hL u)) ∧
    ∀ f f', Batch.new c K1 K2 eta2 1 limit = .ok f → Batch.new c' K1 K2 eta2 1 limit = .ok f' → k + k / K1 + 1 ≤ limit →
      ∃ u, call (f.next fun k => .ok (s k)) f.init k = .ok u ∧ call (f'.next fun k => .ok (take hM (s k))) f'.init k = .ok (take hL u) := by
  refine ⟨fun f f' hf hf' hds hl => ⟨_, C31_fir_estimate c K1 K2 eta2 false ds limit offset f hf _ s k hds hl fun _ _ => rfl, ?_⟩,
    fun f f' hf hf' h2 hds hl => ⟨_, C33_iir_estimate c K2 eta2 ds limit f hf h2 hds _ s k (ds * k + 1) (by push_cast; omega) hl fun _ _ => rfl, ?_⟩,
    fun f f' hf hf' hl => ⟨_, C32_batch_estimate c K1 K2 eta2 1 limit f hf _ s k hl fun _ _ => rfl, ?_⟩⟩
  · rw [C31_fir_estimate c' K1 K2 eta2 false ds limit _ f' hf' _ (fun k => take hM (s k)) k hds hl fun _ _ => rfl, ← past_restrict h hM,
      ← future_restrict h hM, ← mulVec_sub, pick_mulVec hL]
    cases offset with
    | none => simp only [Option.map_none, Option.getD_none, add_zero]
    | some o => rfl
  · rw [C33_iir_estimate c' K2 eta2 ds limit f' hf' h2 hds _ (fun k => take hM (s k)) k (ds * k + 1) (by push_cast; omega) hl fun _ _ => rfl,
      ← past_restrict h hM, ← future_restrict h hM, ← mulVec_sub, pick_mulVec hL]
  · rw [C32_batch_estimate c' K1 K2 eta2 1 limit f' hf' _ (fun k => take hM (s k)) k hl fun _ _ => rfl, ← past_restrict h hM,
      ← future_restrict h hM, ← mulVec_sub, pick_mulVec hL]

end estimates

/-- **C164** The whole converter: the stack is simulated, its coefficients are computed and its control signals are turned into estimates;
the part is treated alone in the same way.  Then the part's states and control signals are those of the stack and so are its estimates. -/
theorem C164_converter {M : ℕ} {l1 l2 : List (Sys ℝ)} {g : Sys ℝ} (c : Cfg M) (hM : total Sys.M l1 + g.M ≤ M)
    (h : stack (l1 ++ g :: l2) = .ok c.sys) (hin : c.hasInput = true) (hT : 0 < c.dc.T) {GS G : ℕ → ℕ → ℝ} (hGS : c.sys.Gamma = some GS)
    (hG : g.Gamma = some G) (hGT : g.GammaT ≠ none) (hBt : ∀ r c, g.Bt r c = 0) (hMt : total Sys.Mt l1 = total Sys.M l1) (hg : g.M ≤ g.Mt)
    {s : ℕ → St M} {φ : ℕ → ℝ → ℕ → ℝ} (hr : Run c s φ) {s' : ℕ → St g.M} {φ' : ℕ → ℝ → ℕ → ℝ}
    (hr' : Run (config c g (total Sys.L l1) hM) s' φ') (h0 : s' 0 = st (total Sys.N l1) hM (s 0)) :
    (∀ k, (∀ n < g.N, (s' k).x n = (s k).x (total Sys.N l1 + n)) ∧ signal (s' k).c = take hM (signal (s k).c)) ∧
    ∀ {eta2 : ℝ} {Vf Vb : Matrix (Fin c.sys.N) (Fin c.sys.N) ℝ} {vf vb : Matrix (Fin g.N) (Fin g.N) ℝ} {co : Coeffs ℝ c.sys.N M c.sys.L}
      {co' : Coeffs ℝ g.N g.M g.L}, 0 < eta2 → (∀ f ∈ l1 ++ g :: l2, Observable (toM f.N f.L f.B)ᵀ (toM f.N f.N f.A)ᵀ) →
      IsStabilising (careA c.sys) (careB c.sys) (careQ c.sys) (careR c.sys eta2) Vf →
      IsStabilising (-careA c.sys) (careB c.sys) (careQ c.sys) (careR c.sys eta2) Vb → Numerical c.sys GS c.dc eta2 Vf Vb co →
      IsStabilising (careA g) (careB g) (careQ g) (careR g eta2) vf → IsStabilising (-careA g) (careB g) (careQ g) (careR g eta2) vb →
      Numerical g G (control hM c.dc) eta2 vf vb co' → ∀ (K1 K2 ds limit k : ℕ),
      (∀ f f', FIR.new co K1 K2 eta2 false ds limit none = .ok f → FIR.new co' K1 K2 eta2 false ds limit none = .ok f' →
        ds ≤ K1 + K2 → limit = 0 ∨ ds * (k + 1) ≤ limit →
        ∃ u, call (f.next fun k => .ok (signal (s (k + 1)).c)) FIRState.init k = .ok u ∧
          call (f'.next fun k => .ok (signal (s' (k + 1)).c)) FIRState.init k = .ok (take (part_of_stack h).L u)) ∧
      (∀ f f', IIR.new co K2 eta2 ds limit = .ok f → IIR.new co' K2 eta2 ds limit = .ok f' → 1 ≤ K2 → 1 ≤ ds → limit = 0 ∨ ds * k + 1 ≤ limit →
        ∃ u, call (f.next fun k => .ok (signal (s (k + 1)).c)) IIRState.init k = .ok u ∧
          call (f'.next fun k => .ok (signal (s' (k + 1)).c)) IIRState.init k = .ok (take (part_of_stack h).L u)) ∧
      ∀ f f', Batch.new co K1 K2 eta2 1 limit = .ok f → Batch.new co' K1 K2 eta2 1 limit = .ok f' → k + k / K1 + 1 ≤ limit →
        ∃ u, call (f.next fun k => .ok (signal (s (k + 1)).c)) f.init k = .ok u ∧
          call (f'.next fun k => .ok (signal (s' (k + 1)).c)) f'.init k = .ok (take (part_of_stack h).L u) := by
  have e1 := C28_deterministic (config c g (total Sys.L l1) hM) hin hT _ _ _ _ hr'
    (C164_simulation c hM h hin hT (by rw [hG]; simp) hGT hBt hMt hg hr) (by rw [h0]; exact ⟨fun _ _ => rfl, rfl, rfl, rfl⟩)
  have e2 : ∀ k, signal (s' k).c = take hM (signal (s k).c) := fun k => by
    rw [(e1 k).2.1]
    rfl
  refine ⟨fun k => ⟨(e1 k).1, e2 k⟩, fun he ho hf hb hc hf' hb' hc' K1 K2 ds limit k => ?_⟩
  simp only [e2]
  exact C164_estimates (C164_coefficients h hM c.dc hT.le he ho hGS hG hf hb hc hf' hb' hc').2.2 hM _ (fun k => signal (s (k + 1)).c) K1 K2 _ ds limit k none

/-- two integrators, the second a leaky one, side by side -/
noncomputable abbrev exA : Sys ℝ := (Mirror.exCfg 0).sys
noncomputable abbrev exB : Sys ℝ := { exA with A := fun _ _ => -1 }

/-- the stack of two systems -/
noncomputable abbrev exS (a b : Sys ℝ) : Sys ℝ :=
  ⟨total Sys.N [a, b], total Sys.L [a, b], total Sys.M [a, b], total Sys.Mt [a, b], total Sys.Nt [a, b],
      stackMat Sys.N Sys.N Sys.A [a, b], stackMat Sys.N Sys.L Sys.B [a, b], stackMat Sys.Nt Sys.N Sys.CT [a, b],
      some (stackMat Sys.N Sys.M (fun g => optBlock g.Gamma) [a, b]),
      some (stackMat Sys.Mt Sys.N (fun g => optBlock g.GammaT) [a, b]),
      stackMat Sys.Nt Sys.L Sys.D [a, b], fun _ _ => 0, stackMat Sys.Mt Sys.M Sys.At [a, b]⟩

theorem ex_stack (a b : Sys ℝ) : stack [a, b] = .ok (exS a b) := stack_eq _ (by simp)

/-- the set-up: the inputs are 1/4 and a sine -/
noncomputable abbrev exC (a b : Sys ℝ) : Cfg 2 :=
  ⟨exS a b, ⟨1 / 2, 0, 0, fun _ => stepResponse 0, fun _ => 0⟩, fun _ t l => if l = 0 then 1 / 4 else Real.sin t, true⟩

theorem ex_cont (l : ℕ) : Continuous fun t : ℝ => if l = 0 then (1 / 4 : ℝ) else Real.sin t := by
  by_cases h : l = 0
  · simp only [if_pos h]; exact continuous_const
  · simp only [if_neg h]; exact Real.continuous_sin

theorem ex_observable (f : Sys ℝ) (hN : f.N = 1) (h : ∀ i j, f.B i j = 1) (h' : ∀ i j, f.CT i j = 1) (hL : f.L = 1) (hNt : f.Nt = 1) :
    Observable (toM f.N f.L f.B)ᵀ (toM f.N f.N f.A)ᵀ ∧ Observable (toM f.Nt f.N f.CT) (toM f.N f.N f.A) := by
  obtain ⟨N, L, M, Mt, Nt, A, B, CT, G, GT, D, Bt, At⟩ := f
  simp only at hN h h' hL hNt
  subst hN hL hNt
  constructor <;> intro μ x hx _ h0 <;> refine hx (funext fun i => ?_) <;> obtain rfl : i = 0 := Subsingleton.elim _ _ <;>
    have := congrFun h0 0 <;> simpa [mulVec, dotProduct, toM, h, h'] using this

/-- C164_simulation, C164_solvable, C164_coefficients, C164_estimates, C164_converter: an integrator and a leaky integrator side by side meet
the hypotheses, with the second as the part -/
example : ∃ (s : ℕ → St 2) (φ : ℕ → ℝ → ℕ → ℝ) (s' : ℕ → St 1) (φ' : ℕ → ℝ → ℕ → ℝ), stack ([exA] ++ exB :: []) = .ok (exC exA exB).sys ∧
    Run (exC exA exB) s φ ∧ Run (config (o := 1) (exC exA exB) exB 1 (le_refl 2)) s' φ' ∧ s' 0 = st 1 (le_refl 2) (s 0) ∧ (s 0).x 1 = 3 ∧
    (∀ f ∈ [exA] ++ exB :: [], Observable (toM f.N f.L f.B)ᵀ (toM f.N f.N f.A)ᵀ ∧ Observable (toM f.Nt f.N f.CT) (toM f.N f.N f.A)) ∧
    exB.Gamma ≠ none ∧ exB.GammaT ≠ none ∧ (∀ r c, exB.Bt r c = 0) ∧ total Sys.Mt [exA] = total Sys.M [exA] ∧ exB.M ≤ exB.Mt := by
  obtain ⟨s, φ, h0, hr⟩ := C148_run (exC exA exB) (by norm_num) (fun _ => ⟨.step 0 1, rfl⟩) (fun _ l => ex_cont l)
    ⟨by simp, rfl, by simp, le_refl 2⟩ ⟨0, 0, fun n => 2 + n, State.init⟩
  obtain ⟨s', φ', h0', hr'⟩ := C148_run (config (o := 1) (exC exA exB) exB 1 (le_refl 2)) (by norm_num) (fun _ => ⟨.step 0 1, rfl⟩) (fun _ l => ex_cont (1 + l))
    ⟨by simp, rfl, by simp, le_refl 1⟩ (st 1 (le_refl 2) (s 0))
  refine ⟨s, φ, s', φ', ex_stack _ _, hr, hr', h0', by rw [h0]; norm_num, ?_, by simp, by simp, by simp, rfl, le_refl _⟩
  intro f hf
  rcases List.mem_append.1 hf with hf | hf <;> obtain rfl := List.mem_singleton.1 hf <;>
    exact ex_observable _ rfl (fun _ _ => rfl) (fun _ _ => rfl) rfl rfl

/-- the coefficients of both exist -/
example : (∃ Vf Vb c, IsStabilising (careA (exS exA exB)) (careB (exS exA exB)) (careQ (exS exA exB)) (careR (exS exA exB) 1) Vf ∧
      IsStabilising (-careA (exS exA exB)) (careB (exS exA exB)) (careQ (exS exA exB)) (careR (exS exA exB) 1) Vb ∧
      Numerical (exS exA exB) (stackMat Sys.N Sys.M (fun g => optBlock g.Gamma) [exA, exB]) (exC exA exB).dc 1 Vf Vb c) ∧
    ∃ Vf Vb c, IsStabilising (careA exB) (careB exB) (careQ exB) (careR exB 1) Vf ∧ IsStabilising (-careA exB) (careB exB) (careQ exB) (careR exB 1) Vb ∧
      Numerical exB (fun _ _ => -1) (control (o := 1) (m := 1) (le_refl 2) (exC exA exB).dc) 1 Vf Vb c := by
  have hA := ex_observable exA rfl (fun _ _ => rfl) (fun _ _ => rfl) rfl rfl
  have hB := ex_observable exB rfl (fun _ _ => rfl) (fun _ _ => rfl) rfl rfl
  have hS := C164_solvable (ex_stack exA exB) (fun f hf => by
      rcases List.mem_cons.1 hf with rfl | hf
      · exact hA.1
      · obtain rfl := List.mem_singleton.1 hf
        exact hB.1) (fun f hf => by
      rcases List.mem_cons.1 hf with rfl | hf
      · exact hA.2
      · obtain rfl := List.mem_singleton.1 hf
        exact hB.2)
  have hw : ∀ T, Waveform T (stepResponse (0 : ℝ)).f := fun T => C147_waveforms (.step 0 1) T
  obtain ⟨Vf, Vb, c, h, -⟩ := C147_coefficients one_pos hS.1 hS.2 (stackMat Sys.N Sys.M (fun g => optBlock g.Gamma) [exA, exB]) (exC exA exB).dc (by norm_num) fun _ => hw _
  obtain ⟨vf, vb, c', h', -⟩ := C147_coefficients one_pos hB.1 hB.2 (fun _ _ => -1) (control (o := 1) (m := 1) (le_refl 2) (exC exA exB).dc) (by norm_num) fun _ => hw _
  exact ⟨⟨Vf, Vb, c, h⟩, vf, vb, c', h'⟩

/-- what the comparator of the integrator decides, with weight `b` for the direct path -/
theorem ex_decision (b : ℝ) (input : ℕ → ℝ → ℕ → ℝ) {s s' : St 1} {φ : ℝ → ℕ → ℝ}
    (h : Period (⟨{ exA with Bt := fun _ _ => b }, ⟨1 / 2, 0, 0, fun _ => stepResponse 0, fun _ => 0⟩, input, true⟩ : Cfg 1) s φ s') :
    s'.c.s 0 = if 0 ≤ s.x 0 + b * input s.ticks s.t 0 then 1 else 0 := by
  obtain ⟨y, h1, -, h3⟩ := (decide_ok _ s _).1 h.dec
  have hy : y.v 0 = s.x 0 + b * input s.ticks s.t 0 := by
    simp [Sys.controlObservation, npDot, asVec, Cfg.u0, bind, Except.bind, npAdd, dot] at h1
    rw [← h1]
  rw [h3, ← hy]
  exact if_pos (Mirror.ex_decided 0 0)

/-- **C164** A direct path from the input to the comparator breaks it: the stack drops it.  An integrator whose comparator also sees the
input decides differently alone than as the first of two. -/
theorem C164_direct_false : ∃ (g : Sys ℝ) (c : Cfg (g.M + g.M)) (s : ℕ → St (g.M + g.M)) (φ : ℕ → ℝ → ℕ → ℝ) (s' : ℕ → St g.M) (φ' : ℕ → ℝ → ℕ → ℝ)
    (hM : 0 + g.M ≤ g.M + g.M),
    stack [g, g] = .ok c.sys ∧ c.hasInput = true ∧ 0 < c.dc.T ∧ g.Gamma ≠ none ∧ g.GammaT ≠ none ∧ g.M = g.Mt ∧ Run c s φ ∧
      Run (config c g 0 hM) s' φ' ∧ s' 0 = st 0 hM (s 0) ∧ signal (s' 1).c ≠ take hM (signal (s 1).c) := by
  let g : Sys ℝ := { exA with Bt := fun _ _ => 1 }
  obtain ⟨s, φ, h0, hr⟩ := C148_run (exC g g) (by norm_num) (fun _ => ⟨.step 0 1, rfl⟩) (fun _ l => ex_cont l)
    ⟨by simp, rfl, by simp, le_refl 2⟩ ⟨0, 0, fun n => -(1 / 16), State.init⟩
  have hM : total Sys.M ([] : List (Sys ℝ)) + exA.M ≤ 2 := by decide
  have hM' : 0 + g.M ≤ 2 := hM
  obtain ⟨s', φ', h0', hr'⟩ := C148_run (config (exC g g) g 0 hM') (by norm_num) (fun _ => ⟨.step 0 1, rfl⟩) (fun _ l => ex_cont (0 + l))
    ⟨by simp [g], rfl, by simp [g], le_refl 1⟩ (st 0 hM' (s 0))
  refine ⟨g, exC g g, s, φ, s', φ', hM', ex_stack g g, rfl, by norm_num, by simp [g], by simp [g], rfl, hr, hr', h0', fun he => ?_⟩
  have e := congrFun he 0
  have h1 : (s 1).c.s 0 = 0 := by
    have := C164_simulation (l1 := []) (l2 := [exA]) (g := exA) (exC g g) hM (ex_stack exA exA) rfl (by norm_num) (by simp) (by simp) (by simp) rfl (le_refl _) hr
    refine (ex_decision 0 _ (this 0)).trans (if_neg ?_)
    simp only [h0]
    norm_num
  have h2 : (s' 1).c.s 0 = 1 := by
    refine (ex_decision 1 _ (hr' 0)).trans (if_pos ?_)
    rw [h0', h0]
    norm_num
  have e' : (s' 1).c.s 0 = (s 1).c.s 0 := e
  rw [h1, h2] at e'
  exact one_ne_zero e'

end Cbadc.Parts
