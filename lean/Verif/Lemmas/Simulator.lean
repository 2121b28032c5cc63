import Verif.Lemmas.Linear
import Verif.Props.AnalogSystem
import Verif.Props.Topology

/-! # Lemmas on the simulators -/

namespace Cbadc.Simulate
open Cbadc.Analog Cbadc.Control Set Finset

/-- `φ` solves `x' = A x + v` on `[0, T]` -/
structure Sol (N : ℕ) (A : ℕ → ℕ → ℝ) (T : ℝ) (v φ : ℝ → ℕ → ℝ) : Prop where
  cont : ∀ n < N, ContinuousOn (fun τ => φ τ n) (Icc 0 T)
  ode : ∀ τ ∈ Ico 0 T, ∀ n < N, HasDerivWithinAt (fun τ => φ τ n) (dot N A (φ τ) n + v τ n) (Ici τ) τ

theorem Sol.add {N : ℕ} {A : ℕ → ℕ → ℝ} {T : ℝ} {v w φ ψ : ℝ → ℕ → ℝ} (h : Sol N A T v φ) (k : Sol N A T w ψ) :
    Sol N A T (fun τ n => v τ n + w τ n) (fun τ n => φ τ n + ψ τ n) where
  cont n hn := (h.cont n hn).add (k.cont n hn)
  ode τ hτ n hn := ((h.ode τ hτ n hn).add (k.ode τ hτ n hn)).congr_deriv (by
    unfold dot
    simp only [mul_add, Finset.sum_add_distrib]
    ring)

theorem Sol.smul {N : ℕ} {A : ℕ → ℕ → ℝ} {T : ℝ} {v φ : ℝ → ℕ → ℝ} (h : Sol N A T v φ) (a : ℝ) :
    Sol N A T (fun τ n => v τ n * a) (fun τ n => φ τ n * a) where
  cont n hn := (h.cont n hn).mul continuousOn_const
  ode τ hτ n hn := ((h.ode τ hτ n hn).mul_const a).congr_deriv (by
    unfold dot
    simp only [add_mul, Finset.sum_mul]
    congr 1
    exact Finset.sum_congr rfl fun c _ => by ring)

theorem Sol.zero (N : ℕ) (A : ℕ → ℕ → ℝ) (T : ℝ) : Sol N A T (fun _ _ => 0) (fun _ _ => 0) where
  cont n hn := continuousOn_const
  ode τ hτ n hn := (hasDerivWithinAt_const τ (Ici τ) (0 : ℝ)).congr_deriv (by simp [dot])

theorem Sol.sum {ι : Type} (s : Finset ι) {N : ℕ} {A : ℕ → ℕ → ℝ} {T : ℝ} {v φ : ι → ℝ → ℕ → ℝ}
    (h : ∀ i ∈ s, Sol N A T (v i) (φ i)) :
    Sol N A T (fun τ n => ∑ i ∈ s, v i τ n) (fun τ n => ∑ i ∈ s, φ i τ n) := by
  classical
  induction s using Finset.induction_on with
  | empty => simpa using Sol.zero N A T
  | insert a s ha ih =>
    have h1 := h a (Finset.mem_insert_self a s)
    have h2 := ih fun i hi => h i (Finset.mem_insert_of_mem hi)
    have := h1.add h2
    simpa only [Finset.sum_insert ha] using this

theorem Sol.congr {N : ℕ} {A : ℕ → ℕ → ℝ} {T : ℝ} {v w φ : ℝ → ℕ → ℝ} (h : Sol N A T v φ)
    (hv : ∀ τ ∈ Ico 0 T, ∀ n < N, v τ n = w τ n) : Sol N A T w φ where
  cont := h.cont
  ode τ hτ n hn := by rw [← hv τ hτ n hn]; exact h.ode τ hτ n hn

theorem Sol.unique {N : ℕ} {A : ℕ → ℕ → ℝ} {T : ℝ} {v φ ψ : ℝ → ℕ → ℝ} (h : Sol N A T v φ) (k : Sol N A T v ψ)
    (h0 : ∀ n < N, φ 0 n = ψ 0 n) : ∀ τ ∈ Icc 0 T, ∀ n < N, φ τ n = ψ τ n :=
  linear_unique N A T v φ ψ h0 h.cont k.cont h.ode k.ode

/-- the homogeneous solution -/
theorem Sol.exp (g : Sys ℝ) (T : ℝ) (x : ℕ → ℝ) :
    Sol g.N g.A T (fun _ _ => 0) (fun τ => matVec (expAT g τ) x) where
  cont n hn := fun τ _ => (exp_deriv g x τ n hn).continuousAt.continuousWithinAt
  ode τ _ n hn := by
    rw [add_zero]
    exact (exp_deriv g x τ n hn).hasDerivWithinAt

theorem matVec_sub {N : ℕ} (X : Matrix (Fin N) (Fin N) ℝ) (x y : ℕ → ℝ) (n : ℕ) :
    matVec X (fun i => x i - y i) n = matVec X x n - matVec X y n := by
  unfold matVec
  split_ifs
  · rw [← Finset.sum_sub_distrib]
    exact Finset.sum_congr rfl fun c _ => by ring
  · ring

/-- a successful control update -/
theorem decide_ok {M : ℕ} (cfg : Cfg M) (st : St M) (c : State ℝ M) :
    cfg.decide st = .ok c ↔ ∃ y, cfg.sys.controlObservation ⟨cfg.sys.N, st.x⟩ (some (cfg.u0 st))
      (some (asVec (contribution cfg.dc st.c 0))) = .ok y ∧ M ≤ y.len ∧
      c = update cfg.dc st.c 0 fun m => y.v m := by
  unfold Cfg.decide
  cases h : cfg.sys.controlObservation ⟨cfg.sys.N, st.x⟩ (some (cfg.u0 st))
      (some (asVec (contribution cfg.dc st.c 0))) with
  | error e => simp
  | ok y =>
    dsimp only
    by_cases hl : y.len < M
    · rw [if_pos hl]
      constructor
      · intro h; cases h
      · rintro ⟨y', h1, h2, -⟩
        cases h1
        omega
    · rw [if_neg hl]
      constructor
      · intro h
        cases h
        exact ⟨y, rfl, by omega, rfl⟩
      · rintro ⟨y', h1, h2, h3⟩
        cases h1
        rw [h3]

/-- the right-hand side with inputs -/
theorem rhs_input {M : ℕ} (cfg : Cfg M) (hin : cfg.hasInput = true) (st : St M) (c : State ℝ M) (τ : ℝ)
    (y : ℕ → ℝ) (d : Vec ℝ) :
    cfg.rhs st c τ y = .ok d → ∃ G, cfg.sys.Gamma = some G ∧ cfg.sys.M = M ∧ ∀ n, d.v n =
      dot cfg.sys.N cfg.sys.A y n + (dot cfg.sys.L cfg.sys.B (cfg.input (st.ticks + 1) (τ + st.t)) n +
        dot cfg.sys.M G (asVec (contribution cfg.dc c τ)).v n) := by
  intro h
  unfold Cfg.rhs at h
  rw [hin, if_pos rfl] at h
  cases hG : cfg.sys.Gamma with
  | none =>
    exfalso
    unfold Sys.derivative at h
    rw [hG, bind_ok] at h
    obtain ⟨a, -, h⟩ := h
    rw [bind_ok] at h
    obtain ⟨b, -, h⟩ := h
    cases h
  | some G =>
    obtain ⟨hok, herr⟩ := C21_derivative_partial cfg.sys G hG ⟨cfg.sys.N, y⟩
      ⟨cfg.sys.L, fun l => cfg.input (st.ticks + 1) (τ + st.t) l⟩ (asVec (contribution cfg.dc c τ))
    by_cases hd : cfg.sys.M = M
    · obtain ⟨d', h1, -, h3⟩ := hok ⟨rfl, rfl, hd.symm⟩
      rw [h1] at h
      cases h
      refine ⟨G, rfl, hd, fun n => ?_⟩
      rw [h3]
      unfold dot
      ring
    · rw [herr (fun ⟨_, _, h3⟩ => hd h3.symm)] at h
      cases h

theorem rhs_input_mk {M : ℕ} (cfg : Cfg M) (hin : cfg.hasInput = true) (G : ℕ → ℕ → ℝ)
    (hG : cfg.sys.Gamma = some G) (hM : cfg.sys.M = M) (st : St M) (c : State ℝ M) (τ : ℝ) (y : ℕ → ℝ) :
    ∃ d, cfg.rhs st c τ y = .ok d ∧ ∀ n, d.v n =
      dot cfg.sys.N cfg.sys.A y n + (dot cfg.sys.L cfg.sys.B (cfg.input (st.ticks + 1) (τ + st.t)) n +
        dot cfg.sys.M G (asVec (contribution cfg.dc c τ)).v n) := by
  obtain ⟨d, h1, -, h3⟩ := (C21_derivative_partial cfg.sys G hG ⟨cfg.sys.N, y⟩
      ⟨cfg.sys.L, fun l => cfg.input (st.ticks + 1) (τ + st.t) l⟩ (asVec (contribution cfg.dc c τ))).1
      ⟨rfl, rfl, hM.symm⟩
  refine ⟨d, ?_, fun n => ?_⟩
  · unfold Cfg.rhs
    rw [hin, if_pos rfl]
    exact h1
  · rw [h3]
    unfold dot
    ring

/-- a period with inputs is a solution of the switched linear system -/
theorem Period.sol {M : ℕ} {cfg : Cfg M} (hin : cfg.hasInput = true) {st st' : St M} {φ : ℝ → ℕ → ℝ}
    (h : Period cfg st φ st') (G : ℕ → ℕ → ℝ) (hG : cfg.sys.Gamma = some G) :
    Sol cfg.sys.N cfg.sys.A cfg.dc.T (fun τ n =>
      dot cfg.sys.L cfg.sys.B (cfg.input (st.ticks + 1) (τ + st.t)) n +
        dot cfg.sys.M G (asVec (contribution cfg.dc st'.c τ)).v n) φ where
  cont := h.cont
  ode τ hτ n hn := by
    obtain ⟨d, h1, h2⟩ := h.ode τ hτ
    obtain ⟨G', hG', -, h3⟩ := rhs_input cfg hin st st'.c τ (φ τ) d h1
    rw [hG] at hG'
    cases hG'
    exact (h2 n hn).congr_deriv (h3 n)

theorem Period.of_sol {M : ℕ} {cfg : Cfg M} (hin : cfg.hasInput = true) {st st' : St M} {φ : ℝ → ℕ → ℝ}
    (G : ℕ → ℕ → ℝ) (hG : cfg.sys.Gamma = some G) (hM : cfg.sys.M = M)
    (hdec : cfg.decide st = .ok st'.c) (hs : Sol cfg.sys.N cfg.sys.A cfg.dc.T (fun τ n =>
      dot cfg.sys.L cfg.sys.B (cfg.input (st.ticks + 1) (τ + st.t)) n +
        dot cfg.sys.M G (asVec (contribution cfg.dc st'.c τ)).v n) φ)
    (h0 : ∀ n < cfg.sys.N, φ 0 n = st.x n) (h1 : ∀ n < cfg.sys.N, st'.x n = φ cfg.dc.T n)
    (ht : st'.ticks = st.ticks + 1) (htime : st'.t = st.t + cfg.dc.T) : Period cfg st φ st' where
  dec := hdec
  start := h0
  cont := hs.cont
  ode τ hτ := by
    obtain ⟨d, e1, e2⟩ := rhs_input_mk cfg hin G hG hM st st'.c τ (φ τ)
    exact ⟨d, e1, fun n hn => by rw [e2]; exact hs.ode τ hτ n hn⟩
  stop := h1
  ticks := by rw [hin]; exact ht
  time := htime

/-- the transfer function of a system whose outputs are its states solves the frequency-domain equation -/
theorem tf_eq (g : Sys ℝ) (ω : ℝ) (l : ℕ) (hl : l < g.L) (hNt : g.Nt = g.N)
    (hC : ∀ r < g.N, ∀ c < g.N, g.CT r c = if r = c then 1 else 0) (hD : ∀ r < g.N, ∀ c < g.L, g.D r c = 0)
    (hreg : Spec.Regular g.N (fun r c => (g.A r c : ℂ)) (Complex.I * ω)) :
    ∀ n < g.N, Complex.I * ω * tfEntry g ω n l =
      (∑ c ∈ Finset.range g.N, (g.A n c : ℂ) * tfEntry g ω c l) + g.B n l := by
  have hdet := (regular_iff_det g.N (fun r c => (g.A r c : ℂ)) (Complex.I * ω)).mp hreg
  have hent : ∀ n (hn : n < g.N), tfEntry g ω n l = (cplx g).atf (Complex.I * ω) ⟨n, hn⟩ ⟨l, hl⟩ := by
    intro n hn
    unfold tfEntry
    rw [dif_pos ⟨by omega, hl⟩]
    unfold Sys.tfm
    rw [Matrix.add_apply, Matrix.mul_apply]
    have h1 : toM (cplx g).Nt (cplx g).L (cplx g).D ⟨n, by show n < g.Nt; omega⟩ ⟨l, hl⟩ = 0 := by
      show ((g.D n l : ℝ) : ℂ) = 0
      rw [hD n hn l hl, Complex.ofReal_zero]
    rw [h1, zero_add]
    rw [Finset.sum_eq_single (⟨n, hn⟩ : Fin (cplx g).N)]
    · show ((g.CT n n : ℝ) : ℂ) * _ = _
      rw [hC n hn n hn, if_pos rfl, Complex.ofReal_one, one_mul]
    · intro b _ hb
      show ((g.CT n b : ℝ) : ℂ) * _ = _
      rw [hC n hn b b.2, if_neg, Complex.ofReal_zero, zero_mul]
      intro h
      exact hb (Fin.ext h.symm)
    · intro h; exact absurd (Finset.mem_univ _) h
  have hkey : ((Complex.I * ω) • (1 : Matrix (Fin (cplx g).N) (Fin (cplx g).N) ℂ) -
      toM (cplx g).N (cplx g).N (cplx g).A) *
      (cplx g).atf (Complex.I * ω) = toM (cplx g).N (cplx g).L (cplx g).B := by
    unfold Sys.atf
    exact Matrix.mul_nonsing_inv_cancel_left _ _ (isUnit_iff_ne_zero.mpr hdet)
  intro n hn
  have h := congrFun (congrFun hkey ⟨n, hn⟩) ⟨l, hl⟩
  rw [Matrix.sub_mul, Matrix.sub_apply, Matrix.smul_mul, Matrix.smul_apply, Matrix.one_mul] at h
  rw [hent n hn, Finset.sum_range]
  have h2 : ∑ i : Fin g.N, (g.A n i : ℂ) * tfEntry g ω i l =
      (toM (cplx g).N (cplx g).N (cplx g).A * (cplx g).atf (Complex.I * ω)) ⟨n, hn⟩ ⟨l, hl⟩ := by
    rw [Matrix.mul_apply]
    exact Finset.sum_congr rfl fun i _ => by rw [hent i i.2]; rfl
  rw [h2]
  have h3 : toM (cplx g).N (cplx g).L (cplx g).B ⟨n, hn⟩ ⟨l, hl⟩ = (g.B n l : ℂ) := rfl
  rw [h3, smul_eq_mul] at h
  exact sub_eq_iff_eq_add'.mp h

end Cbadc.Simulate
