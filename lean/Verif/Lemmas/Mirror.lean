import Verif.Spec.Mirror
import Verif.Spec.Estimator
import Verif.Lemmas.Simulator

/-! # Lemmas: mirror image of a converter (C163) -/

namespace Cbadc.Mirror

open Finset Set Cbadc.Analog Cbadc.Control Cbadc.Simulate

/-- the negative of an array -/
def neg (v : Vec ℝ) : Vec ℝ := ⟨v.len, fun i => -v.v i⟩

theorem dot_neg (n : ℕ) (X : ℕ → ℕ → ℝ) (v : ℕ → ℝ) (i : ℕ) : dot n X (fun j => -v j) i = -dot n X v i := by
  unfold dot
  rw [← Finset.sum_neg_distrib]
  exact Finset.sum_congr rfl fun j _ => by ring

theorem npDot_neg (r c : ℕ) (X : ℕ → ℕ → ℝ) (v : Vec ℝ) : npDot r c X (neg v) = (npDot r c X v).map neg := by
  unfold npDot
  show (if v.len ≠ c then _ else _) = _
  by_cases h : v.len ≠ c
  · rw [if_pos h, if_pos h]; rfl
  · rw [if_neg h, if_neg h]
    refine congrArg Except.ok ?_
    unfold neg
    congr 1
    funext i
    exact dot_neg c X v.v i

theorem npAdd_neg (a b : Vec ℝ) : npAdd (neg a) (neg b) = neg (npAdd a b) := by
  unfold npAdd neg
  congr 1
  funext i
  ring

theorem derivative_neg (g : Sys ℝ) (x u s : Vec ℝ) : g.derivative (neg x) (neg u) (neg s) = (g.derivative x u s).map neg := by
  unfold Sys.derivative
  rw [npDot_neg, npDot_neg]
  cases npDot g.N g.N g.A x with
  | error e => rfl
  | ok a =>
    cases npDot g.N g.L g.B u with
    | error e => rfl
    | ok b =>
      cases g.Gamma with
      | none => rfl
      | some G =>
        dsimp only [bind, Except.bind, Except.map]
        rw [npDot_neg]
        cases npDot g.N g.M G s with
        | error e => rfl
        | ok c =>
          dsimp only [bind, Except.bind, Except.map]
          rw [npAdd_neg, npAdd_neg]

theorem observation_neg (g : Sys ℝ) (x u s : Vec ℝ) :
    g.controlObservation (neg x) (some (neg u)) (some (neg s)) = (g.controlObservation x (some u) (some s)).map neg := by
  unfold Sys.controlObservation
  cases g.GammaT with
  | none => rfl
  | some G =>
    dsimp only
    rw [npDot_neg, npDot_neg]
    cases npDot g.Mt g.N G x with
    | error e => rfl
    | ok a =>
      cases npDot g.Mt g.L g.Bt u with
      | error e => rfl
      | ok b =>
        dsimp only [bind, Except.bind, Except.map]
        rw [npDot_neg]
        cases npDot g.Mt g.M g.At s with
        | error e => rfl
        | ok c =>
          dsimp only [bind, Except.bind, Except.map]
          rw [npAdd_neg, npAdd_neg]

variable {M : ℕ}

theorem asVec_neg (v : Fin M → ℝ) : asVec (fun m => -v m) = neg (asVec v) := by
  unfold asVec neg
  congr 1
  funext i
  dsimp only
  by_cases h : i < M
  · rw [dif_pos h, dif_pos h]
  · rw [dif_neg h, dif_neg h, neg_zero]

theorem contribution_neg (d : DC ℝ M) (c : State ℝ M) (o : Fin M → ℝ) (b : Fin M → ℝ) (t : ℝ) :
    contribution { d with offsets := o } ⟨b, fun m => -c.cur m, fun m => -c.old m⟩ t = fun m => -contribution d c t m := by
  funext m
  unfold contribution
  dsimp only
  by_cases h : t < d.tDelay
  · rw [if_pos h, if_pos h]; ring
  · rw [if_neg h, if_neg h]; ring

theorem u0_neg (c : Cfg M) (b : Bool) (s : St M) : (config c).u0 (st c b s) = neg (c.u0 s) := by
  unfold Cfg.u0 neg
  congr 1
  funext l
  dsimp only [st]
  by_cases h : c.hasInput = true
  · rw [if_pos h, if_pos h]
  · rw [if_neg h, if_neg h, neg_zero]

theorem rhs_neg (c : Cfg M) (b b' : Bool) (s s' : St M) (τ : ℝ) (y : ℕ → ℝ) :
    (config c).rhs (st c b s) (st c b' s').c τ (fun n => -y n) = (c.rhs s s'.c τ y).map neg := by
  have hc : asVec (contribution (config c).dc (st c b' s').c τ) = neg (asVec (contribution c.dc s'.c τ)) := by
    rw [← asVec_neg]
    exact congrArg asVec (contribution_neg c.dc s'.c _ _ τ)
  unfold Cfg.rhs
  rw [hc]
  by_cases hI : c.hasInput = true
  · rw [if_pos hI, if_pos hI]
    exact derivative_neg c.sys ⟨c.sys.N, y⟩ ⟨c.sys.L, fun l => c.input (s.ticks + 1) (τ + s.t) l⟩ _
  · rw [if_neg hI, if_neg hI]
    have h := npDot_neg c.sys.N c.sys.N c.sys.A ⟨c.sys.N, s.x⟩
    show (npDot c.sys.N c.sys.N c.sys.A (neg ⟨c.sys.N, s.x⟩) >>= _) = _
    rw [h]
    cases npDot c.sys.N c.sys.N c.sys.A ⟨c.sys.N, s.x⟩ with
    | error e => rfl
    | ok a =>
      cases hG : c.sys.Gamma with
      | none => rfl
      | some G =>
        dsimp only [bind, Except.bind, Except.map]
        rw [npDot_neg]
        cases npDot c.sys.N c.sys.M G (asVec (contribution c.dc s'.c τ)) with
        | error e => rfl
        | ok d =>
          dsimp only [bind, Except.bind, Except.map]
          rw [npAdd_neg]

theorem bit_neg {o y : ℝ} (h : y ≠ o) : (if -o ≤ -y then (1 : ℝ) else 0) = 1 - if o ≤ y then 1 else 0 := by
  rcases lt_or_gt_of_ne h with h | h
  · rw [if_pos (by linarith), if_neg (by linarith)]; norm_num
  · rw [if_neg (by linarith), if_pos (by linarith)]; norm_num

theorem decide_neg (c : Cfg M) (b : Bool) (s s' : St M) (hn : NoTie c s) (hd : c.decide s = .ok s'.c) :
    (config c).decide (st c b s) = .ok (st c false s').c := by
  have hc : asVec (contribution (config c).dc (st c b s).c 0) = neg (asVec (contribution c.dc s.c 0)) := by
    rw [← asVec_neg]
    exact congrArg asVec (contribution_neg c.dc s.c _ _ 0)
  have ho := observation_neg c.sys ⟨c.sys.N, s.x⟩ (c.u0 s) (asVec (contribution c.dc s.c 0))
  unfold Cfg.decide at hd ⊢
  rw [u0_neg, hc]
  show (match c.sys.controlObservation (neg ⟨c.sys.N, s.x⟩) _ _ with
    | .error e => _
    | .ok y => _) = _
  rw [ho]
  cases hy : c.sys.controlObservation ⟨c.sys.N, s.x⟩ (some (c.u0 s)) (some (asVec (contribution c.dc s.c 0))) with
  | error e => rw [hy] at hd; cases hd
  | ok y =>
    rw [hy] at hd
    dsimp only [Except.map] at hd ⊢
    show (if y.len < M then _ else _) = _
    by_cases hl : y.len < M
    · rw [if_pos hl] at hd; cases hd
    rw [if_neg hl] at hd ⊢
    have e := Except.ok.inj hd
    refine congrArg Except.ok ?_
    have hnt := hn y hy
    unfold st
    rw [← e]
    unfold update
    congr 1
    · funext m
      dsimp only [config]
      by_cases hm : allclose 0 (c.dc.ir m).t0 c.dc.tt2
      · rw [if_pos hm, if_pos hm]
        exact (bit_neg (hnt m hm)).trans (if_pos ⟨rfl, hm⟩).symm
      · have hm' : ¬ Decided c m := hm
        rw [if_neg hm, if_neg fun h => hm h.2, if_neg hm, if_neg fun h => hm' h.2]
    · funext m
      dsimp only [config]
      by_cases hm : allclose 0 (c.dc.ir m).t0 c.dc.tt2
      · rw [if_pos hm, if_pos hm]
        show 2 * (if -c.dc.offsets m ≤ -y.v m then (1 : ℝ) else 0) - 1 = _
        rw [bit_neg (hnt m hm)]
        ring
      · rw [if_neg hm, if_neg hm]
    · funext m
      dsimp only [config]
      by_cases hm : allclose 0 (c.dc.ir m).t0 c.dc.tt2
      · rw [if_pos hm, if_pos hm]
      · rw [if_neg hm, if_neg hm]

theorem period (c : Cfg M) (b : Bool) {s s' : St M} {φ : ℝ → ℕ → ℝ} (hn : NoTie c s) (hp : Period c s φ s') :
    Period (config c) (st c b s) (fun τ n => -φ τ n) (st c false s') where
  dec := decide_neg c b s s' hn hp.dec
  start n h := by
    show -φ 0 n = -s.x n
    rw [hp.start n h]
  cont n h := (hp.cont n h).neg
  ode τ hτ := by
    obtain ⟨d, h1, h2⟩ := hp.ode τ hτ
    refine ⟨neg d, ?_, fun n hn => (h2 n hn).neg⟩
    rw [rhs_neg, h1]
    rfl
  stop n h := by
    show -s'.x n = -φ c.dc.T n
    rw [hp.stop n h]
  ticks := hp.ticks
  time := hp.time

section estimates
open Cbadc.Spec Matrix
variable {K : Type*} [CommRing K] {N L : ℕ}

theorem ext_neg (s : ℕ → Fin M → K) : Cbadc.Spec.ext (fun k m => 1 - s k m) = fun j => -Cbadc.Spec.ext s j := by
  funext j m
  unfold Cbadc.Spec.ext
  by_cases h : 0 ≤ j
  · rw [if_pos h]
    show _ = (-(if 0 ≤ j then fun m => 2 * s j.toNat m - 1 else 0 : Fin M → K)) m
    rw [if_pos h]
    show 2 * (1 - s j.toNat m) - 1 = -(2 * s j.toNat m - 1)
    ring
  · rw [if_neg h]
    simp only [Pi.neg_apply, if_neg h, Pi.zero_apply, neg_zero]

theorem past_neg (WT : Matrix (Fin L) (Fin N) K) (A : Matrix (Fin N) (Fin N) K) (B : Matrix (Fin N) (Fin M) K) (x : ℤ → Fin M → K) (k : ℤ) (n : ℕ) :
    past WT A B (fun j => -x j) k n = -past WT A B x k n := by
  unfold past
  rw [← Finset.sum_neg_distrib]
  exact Finset.sum_congr rfl fun i _ => mulVec_neg _ _

theorem future_neg (WT : Matrix (Fin L) (Fin N) K) (A : Matrix (Fin N) (Fin N) K) (B : Matrix (Fin N) (Fin M) K) (x : ℤ → Fin M → K) (k : ℤ) (n : ℕ) :
    future WT A B (fun j => -x j) k n = -future WT A B x k n := by
  unfold future
  rw [← Finset.sum_neg_distrib]
  exact Finset.sum_congr rfl fun i _ => mulVec_neg _ _

end estimates

end Cbadc.Mirror
