import Verif.Spec.Units
import Verif.Lemmas.Simulator

/-! # Lemmas: units of time (C150) -/

namespace Cbadc.Units

open Matrix Set Filter.Spec Cbadc.Analog Cbadc.Control Cbadc.Simulate Cbadc.Filter Cbadc.Estimator

theorem scaled_smul {ι : Type*} [Fintype ι] (r : ℝ) (u : ℝ → ι → ℝ) (d : ι → ℝ) (t : ℝ) (s : Set ℝ)
    (h : HasDerivWithinAt u d s (r * t)) (s' : Set ℝ) (hs : MapsTo (fun t => r * t) s' s) :
    HasDerivWithinAt (fun t => u (r * t)) (r • d) s' t := by
  have h1 : HasDerivWithinAt (fun t : ℝ => r * t) r s' t := by
    simpa using (hasDerivAt_id t).const_mul r |>.hasDerivWithinAt
  exact h.scomp t h1 hs

theorem maps_Icc {r : ℝ} (hr : 0 < r) (a b : ℝ) : MapsTo (fun t => r * t) (Icc (a / r) (b / r)) (Icc a b) := fun t ht =>
  ⟨by have := (div_le_iff₀ hr).1 ht.1; linarith, by have := (le_div_iff₀ hr).1 ht.2; linarith⟩

variable {N : ℕ} {X : Matrix (Fin N) (Fin N) ℝ} {v : ℝ → Fin N → ℝ} {x : ℝ → Fin N → ℝ} {a b r : ℝ}

theorem flow (hr : 0 < r) (h : Flow X v a b x) : Flow (r • X) (fun t => r • v (r * t)) (a / r) (b / r) fun t => x (r * t) where
  cont := h.cont.comp (continuous_const.mul continuous_id).continuousOn (maps_Icc hr a b)
  ode t ht := by
    have h1 := h.ode (r * t) ⟨by have := (div_le_iff₀ hr).1 ht.1; linarith, by have := (lt_div_iff₀ hr).1 ht.2; linarith⟩
    have := scaled_smul r x _ t _ h1 (Ici t) fun s hs => mul_le_mul_of_nonneg_left hs hr.le
    rwa [smul_add, ← smul_mulVec] at this

theorem flowLeft (hr : 0 < r) (h : FlowLeft X v a b x) :
    FlowLeft (r • X) (fun t => r • v (r * t)) (a / r) (b / r) fun t => x (r * t) where
  cont := h.cont.comp (continuous_const.mul continuous_id).continuousOn (maps_Icc hr a b)
  ode t ht := by
    have h1 := h.ode (r * t) ⟨by have := (div_lt_iff₀ hr).1 ht.1; linarith, by have := (le_div_iff₀ hr).1 ht.2; linarith⟩
    have := scaled_smul r x _ t _ h1 (Iic t) fun s hs => mul_le_mul_of_nonneg_left hs hr.le
    rwa [smul_add, ← smul_mulVec] at this

theorem impulse {M : ℕ} (hr : 0 < r) (d : DC ℝ M) (m : Fin M) (t : ℝ) : impulseResponse (dc r d) m t = impulseResponse d m (r * t) := by
  funext i
  have h0 : 0 ≤ r * t ↔ 0 ≤ t := mul_nonneg_iff_of_pos_left hr
  have h1 : r * t ≤ d.T ↔ t ≤ d.T / r := by rw [le_div_iff₀ hr, mul_comm]
  exact if_congr (by simp only [dc, h0, h1]) rfl rfl

theorem contrib {M : ℕ} (hr : 0 < r) (d : DC ℝ M) (s : State ℝ M) (t : ℝ) : contribution (dc r d) s t = contribution d s (r * t) := by
  funext m
  have h0 : t < (d.ir m).t0 / r ↔ r * t < (d.ir m).t0 := by rw [lt_div_iff₀ hr, mul_comm]
  have h1 : t < d.tDelay / r ↔ r * t < d.tDelay := by rw [lt_div_iff₀ hr, mul_comm]
  have h2 : r * (t + d.T / r) = r * t + d.T := by field_simp
  simp only [contribution, dc, ir, h0, h1, h2]

theorem close (hr : 0 < r) (t t0 tol : ℝ) : allclose t (t0 / r) (tol / r) ↔ allclose (r * t) t0 tol := by
  unfold allclose
  have h1 : t - t0 / r = (r * t - t0) / r := by field_simp
  rw [h1, abs_div, abs_div, abs_of_pos hr, div_le_iff₀ hr]
  have : (tol / r + 1 / 100000 * (|t0| / r)) * r = tol + 1 / 100000 * |t0| := by field_simp
  rw [this]

theorem upd {M : ℕ} (hr : 0 < r) (d : DC ℝ M) (s : State ℝ M) (t : ℝ) (y : Fin M → ℝ) :
    update (dc r d) s t y = update d s (r * t) y := by
  have h : ∀ m, allclose t ((d.ir m).t0 / r) (d.tt2 / r) ↔ allclose (r * t) (d.ir m).t0 d.tt2 := fun m => close hr _ _ _
  have e : ∀ (a b : ℝ) m, (if allclose t ((dc r d).ir m).t0 (dc r d).tt2 then a else b) =
      if allclose (r * t) (d.ir m).t0 d.tt2 then a else b := fun a b m => if_congr (h m) rfl rfl
  unfold update
  simp only [e]
  rfl

theorem obs (r : ℝ) (g : Sys ℝ) : (sys r g).controlObservation = g.controlObservation := rfl

theorem dot_mul (r : ℝ) (n : ℕ) (A : ℕ → ℕ → ℝ) (x : ℕ → ℝ) (i : ℕ) : dot n (fun i j => r * A i j) x i = r * dot n A x i := by
  simp only [dot, Finset.mul_sum, mul_assoc]

theorem decided {M : ℕ} (hr : 0 < r) (c : Cfg M) (s : St M) : (cfg r c).decide (st r s) = c.decide s := by
  have h1 : r * (0 + s.t / r) = 0 + s.t := by rw [zero_add, zero_add]; field_simp
  have hu : (cfg r c).u0 (st r s) = c.u0 s := by simp only [Cfg.u0, cfg, st, sys, h1]
  have hc : contribution (cfg r c).dc (st r s).c 0 = contribution c.dc s.c 0 := by
    show contribution (dc r c.dc) s.c 0 = _
    rw [contrib hr, mul_zero]
  have hup : ∀ y, update (cfg r c).dc (st r s).c 0 y = update c.dc s.c 0 y := fun y => by
    show update (dc r c.dc) s.c 0 y = _
    rw [upd hr, mul_zero]
  unfold Cfg.decide
  rw [hu, hc]
  simp only [hup]
  rfl

/-- an array times `r` -/
def vec (r : ℝ) (d : Vec ℝ) : Vec ℝ := ⟨d.len, fun n => r * d.v n⟩

theorem npDot_mul (r : ℝ) (m n : ℕ) (A : ℕ → ℕ → ℝ) (x : Vec ℝ) :
    npDot m n (fun i j => r * A i j) x = (npDot m n A x).map (vec r) := by
  unfold npDot
  by_cases h : x.len ≠ n
  · rw [if_pos h, if_pos h]; rfl
  · rw [if_neg h, if_neg h]
    show Except.ok _ = Except.ok _
    congr 2
    funext i
    exact dot_mul r n A x.v i

theorem npAdd_mul (r : ℝ) (a b : Vec ℝ) : npAdd (vec r a) (vec r b) = vec r (npAdd a b) := by
  simp only [npAdd, vec, mul_add]

theorem deriv (r : ℝ) (g : Sys ℝ) (x u s : Vec ℝ) : (sys r g).derivative x u s = (g.derivative x u s).map (vec r) := by
  unfold Sys.derivative sys
  dsimp only
  rw [npDot_mul, npDot_mul]
  cases npDot g.N g.N g.A x with
  | error _ => rfl
  | ok a =>
    cases npDot g.N g.L g.B u with
    | error _ => rfl
    | ok b =>
      cases g.Gamma with
      | none => rfl
      | some G =>
        show (do let d ← npDot g.N g.M (fun i j => r * G i j) s; Except.ok (npAdd (npAdd (vec r a) (vec r b)) d)) = _
        rw [npDot_mul]
        cases hd : npDot g.N g.M G s with
        | error _ => simp only [bind, Except.bind, Except.map, hd]
        | ok d => simp only [bind, Except.bind, Except.map, hd, npAdd_mul]

/-- the new right-hand side is `r` times the old one -/
theorem rhs {M : ℕ} (hr : 0 < r) (c : Cfg M) (s : St M) (e : State ℝ M) (τ : ℝ) (y : ℕ → ℝ) :
    (cfg r c).rhs (st r s) e τ y = (c.rhs s e (r * τ) y).map (vec r) := by
  have h1 : r * (τ + s.t / r) = r * τ + s.t := by field_simp
  have hc : contribution (cfg r c).dc e τ = contribution c.dc e (r * τ) := contrib hr _ _ _
  unfold Cfg.rhs
  rw [hc]
  cases hi : c.hasInput with
  | true =>
    have hi' : (cfg r c).hasInput = true := hi
    rw [if_pos hi', if_pos rfl]
    have hin : (fun l => (cfg r c).input ((st r s).ticks + 1) (τ + (st r s).t) l) = fun l => c.input (s.ticks + 1) (r * τ + s.t) l := by
      show (fun l => c.input (s.ticks + 1) (r * (τ + s.t / r)) l) = _
      rw [h1]
    rw [hin]
    exact deriv r c.sys _ _ _
  | false =>
    have hi' : (cfg r c).hasInput = false := hi
    rw [if_neg (by rw [hi']; exact Bool.false_ne_true), if_neg Bool.false_ne_true]
    show (do let a ← npDot c.sys.N c.sys.N (fun i j => r * c.sys.A i j) ⟨c.sys.N, s.x⟩; _) = _
    rw [npDot_mul]
    cases npDot c.sys.N c.sys.N c.sys.A ⟨c.sys.N, s.x⟩ with
    | error _ => rfl
    | ok a =>
      simp only [bind, Except.bind, Except.map, cfg, sys]
      cases c.sys.Gamma with
      | none => rfl
      | some G =>
        simp only [Option.map, npDot_mul]
        cases hd : npDot c.sys.N c.sys.M G (asVec (contribution c.dc e (r * τ))) with
        | error _ => simp only [Except.map]
        | ok d => simp only [Except.map, npAdd_mul]

theorem period {M : ℕ} (hr : 0 < r) {c : Cfg M} {s s' : St M} {φ : ℝ → ℕ → ℝ} (h : Period c s φ s') :
    Period (cfg r c) (st r s) (fun τ => φ (r * τ)) (st r s') where
  dec := (decided hr c s).trans h.dec
  start n hn := by
    show φ (r * 0) n = s.x n
    rw [mul_zero]; exact h.start n hn
  cont n hn := (h.cont n hn).comp (continuous_const.mul continuous_id).continuousOn (by
    have := maps_Icc hr 0 c.dc.T
    rwa [zero_div] at this)
  ode τ hτ := by
    have hτ' : τ < c.dc.T / r := hτ.2
    obtain ⟨d, h1, h2⟩ := h.ode (r * τ) ⟨mul_nonneg hr.le hτ.1, by rw [mul_comm]; exact (lt_div_iff₀ hr).1 hτ'⟩
    refine ⟨vec r d, ?_, fun n hn => ?_⟩
    · show (cfg r c).rhs (st r s) s'.c τ (φ (r * τ)) = _
      rw [rhs hr, h1]; rfl
    · have h3 : HasDerivWithinAt (fun t : ℝ => r * t) r (Ici τ) τ := by
        simpa using (hasDerivAt_id τ).const_mul r |>.hasDerivWithinAt
      exact (h2 n hn).scomp τ h3 fun t ht => mul_le_mul_of_nonneg_left ht hr.le
  stop n hn := by
    show s'.x n = φ (r * (c.dc.T / r)) n
    rw [mul_div_cancel₀ _ hr.ne']; exact h.stop n hn
  ticks := h.ticks
  time := by
    show s'.t / r = s.t / r + c.dc.T / r
    rw [h.time, add_div]

theorem sys_sys (a b : ℝ) (g : Sys ℝ) : sys a (sys b g) = sys (a * b) g := by
  obtain ⟨N, L, M, Mt, Nt, A, B, CT, Ga, GT, D, Bt, At⟩ := g
  cases Ga <;> simp only [sys, mul_assoc, Option.map]

theorem sys_one (g : Sys ℝ) : sys 1 g = g := by
  obtain ⟨N, L, M, Mt, Nt, A, B, CT, Ga, GT, D, Bt, At⟩ := g
  cases Ga <;> simp only [sys, one_mul, Option.map]

theorem dc_inv {M : ℕ} (hr : 0 < r) (d : DC ℝ M) : dc r⁻¹ (dc r d) = d := by
  obtain ⟨T, tt2, tD, h, o⟩ := d
  have e : ∀ a : ℝ, a / r / r⁻¹ = a := fun a => by field_simp
  have e' : ∀ a : ℝ, r * (r⁻¹ * a) = a := fun a => by field_simp
  simp only [dc, ir, e, e']

theorem cfg_inv {M : ℕ} (hr : 0 < r) (c : Cfg M) : cfg r⁻¹ (cfg r c) = c := by
  obtain ⟨g, d, i, b⟩ := c
  have e' : ∀ a : ℝ, r * (r⁻¹ * a) = a := fun a => by field_simp
  simp only [cfg, dc_inv hr, e', sys_sys, inv_mul_cancel₀ hr.ne', sys_one]

theorem st_inv {M : ℕ} (hr : 0 < r) (s : St M) : st r⁻¹ (st r s) = s := by
  obtain ⟨k, t, x, c⟩ := s
  have e : t / r / r⁻¹ = t := by field_simp
  simp only [st, e]

end Cbadc.Units
