import Verif.Lemmas.Modulator
import Verif.Model.Quadrature

/-! # Properties of modulated systems -/

namespace Cbadc.Modulator

open Matrix Analog Modulator.Spec Synthesis

variable {h : ℕ} {g : Sys ℝ} {f : ℝ} {m : SineMod}

theorem new_ok (hm : sineWaveModulator g f = .ok m) : m = ⟨g, 2 * Real.pi * f⟩ := by
  unfold sineWaveModulator at hm
  split at hm
  · cases hm
  split at hm
  · cases hm
  exact (Except.ok.inj hm).symm

theorem demodulated_eq (hN : g.N = 2 * h) (w t : ℝ) (x : ℕ → ℝ) : ∃ z : ℕ → ℝ,
    SineMod.demodulated ⟨g, w⟩ t ⟨g.N, x⟩ = .ok ⟨g.N, z⟩ ∧
    (fun i : Fin g.N => z i) = turn (pairs hN) (-w * t) *ᵥ fun i => x i := by
  refine ⟨fun k => dot g.N (rotation g.N (-w * t)) (fun k => x (shuffler g.N k)) (deShuffler g.N k), ?_, ?_⟩
  · simp [SineMod.demodulated, gather, npDot, bind, Except.bind]
  · funext k
    exact rotated_eq hN _ x k

theorem modulated_eq (hN : g.N = 2 * h) (hM : g.M = g.N) (w t : ℝ) (s : ℕ → ℝ) : ∃ z : ℕ → ℝ,
    SineMod.modulated ⟨g, w⟩ t ⟨g.N, s⟩ = .ok ⟨g.N, z⟩ ∧
    (fun i : Fin g.N => z i) = turn (pairs hN) (w * t) *ᵥ fun i => s i := by
  refine ⟨fun k => dot g.N (rotation g.N (w * t)) (fun k => s (shuffler g.N k)) (deShuffler g.N k), ?_, ?_⟩
  · simp [SineMod.modulated, gather, npDot, bind, Except.bind, hM]
  · funext k
    exact rotated_eq hN _ s k

theorem toM_mulVec (r c : ℕ) (A : ℕ → ℕ → ℝ) (x : ℕ → ℝ) (i : Fin r) : (toM r c A *ᵥ fun j : Fin c => x j) i = dot c A x i := by
  rw [Matrix.mulVec, dotProduct, dot, Finset.sum_range]
  rfl

theorem npDot_ok (r c : ℕ) (A : ℕ → ℕ → ℝ) (x : ℕ → ℝ) : npDot r c A ⟨c, x⟩ = .ok ⟨r, dot c A x⟩ := by simp [npDot]

/-- two states with the same entries have the same control observation -/
theorem observation_congr {x y : ℕ → ℝ} (hxy : (fun i : Fin g.N => x i) = fun i : Fin g.N => y i) (u s : Option (Vec ℝ)) :
    g.controlObservation ⟨g.N, x⟩ u s = g.controlObservation ⟨g.N, y⟩ u s := by
  have hd : ∀ A : ℕ → ℕ → ℝ, dot g.N A x = dot g.N A y := fun A => by
    funext r
    rw [dot, dot, Finset.sum_range, Finset.sum_range]
    exact Finset.sum_congr rfl fun i _ => congrArg _ (congrFun hxy i)
  simp only [Sys.controlObservation, npDot_ok, hd]

/-- **C108**: a modulated system with as many controls as states, whose matrices `A` and `Gamma` treat the quadrature pairs as
complex numbers, is seen from the frame that rotates with the modulation frequency as a system with constant coefficients:
along any trajectory, the state `z` in this frame moves as with the matrix `A` less the rotation, driven by the rotated
input and the controls as they are; the control observation is the one of the original system at `z`; and `z` is as long
as the state. -/
theorem C108_rotating (hm : sineWaveModulator g f = .ok m) (hN : g.N = 2 * h) (hM : g.M = g.N) {G : ℕ → ℕ → ℝ}
    (hG : g.Gamma = some G) (hA : Commute (toM g.N g.N g.A) (quarterTurn (pairs hN)))
    (hGc : Commute (toM g.N g.N G) (quarterTurn (pairs hN))) {x u s : ℝ → ℕ → ℝ}
    (hx : ∀ t, ∃ v, m.derivative ⟨g.N, x t⟩ t ⟨g.L, u t⟩ ⟨g.N, s t⟩ = .ok ⟨g.N, v⟩ ∧
      HasDerivAt (fun t (i : Fin g.N) => x t i) (fun i => v i) t) : ∃ z : ℝ → ℕ → ℝ,
    (∀ t, (fun i : Fin g.N => z t i) = turn (pairs hN) (-(2 * Real.pi * f) * t) *ᵥ fun i => x t i) ∧
    (∀ t U S, m.controlObservation t ⟨g.N, x t⟩ U S = g.controlObservation ⟨g.N, z t⟩ U S) ∧
    (∀ t, ∑ i : Fin g.N, z t i ^ 2 = ∑ i : Fin g.N, x t i ^ 2) ∧
    ∀ t, HasDerivAt (fun t (i : Fin g.N) => z t i)
      ((toM g.N g.N g.A - (2 * Real.pi * f) • quarterTurn (pairs hN)) *ᵥ (fun i => z t i) +
        turn (pairs hN) (-(2 * Real.pi * f) * t) *ᵥ (toM g.N g.L g.B *ᵥ fun l => u t l) +
        toM g.N g.N G *ᵥ fun i => s t i) t := by
  obtain rfl := new_ok hm
  choose z hz hz' using fun t => demodulated_eq hN (2 * Real.pi * f) t (x t)
  have hzf : (fun t (i : Fin g.N) => z t i) = fun t => turn (pairs hN) (-(2 * Real.pi * f) * t) *ᵥ fun i => x t i := funext hz'
  refine ⟨z, hz', fun t U S => ?_, fun t => ?_, fun t => ?_⟩
  · simp only [SineMod.controlObservation, hz, bind, Except.bind]
  · have e : ∀ v : Fin g.N → ℝ, ∑ i, v i ^ 2 = v ⬝ᵥ v := fun v => Finset.sum_congr rfl fun i _ => sq _
    have hzt := hz' t
    rw [e fun i => z t i, e fun i => x t i, hzt, Matrix.dotProduct_mulVec, Matrix.vecMul_mulVec, turn_transpose,
      turn_inv, Matrix.vecMul_one]
  · obtain ⟨v, hv, hd⟩ := hx t
    obtain ⟨y, hy, hy'⟩ := modulated_eq hN hM (2 * Real.pi * f) t (s t)
    have hve : (fun i : Fin g.N => v i) = (toM g.N g.N g.A *ᵥ fun i => x t i) + (toM g.N g.L g.B *ᵥ fun l => u t l) +
        toM g.N g.N G *ᵥ (turn (pairs hN) (2 * Real.pi * f * t) *ᵥ fun i => s t i) := by
      simp only [SineMod.derivative, npDot_ok, hy, hG, bind, Except.bind, hM, npAdd, Except.ok.injEq, Vec.mk.injEq, true_and] at hv
      rw [← hy', ← hv]
      funext i
      simp only [Pi.add_apply, toM_mulVec]
    rw [hzf]
    refine (turn_hasDerivAt (pairs hN) hd).congr_deriv ?_
    show _ = (toM g.N g.N g.A - (2 * Real.pi * f) • quarterTurn (pairs hN)) *ᵥ (fun i : Fin g.N => z t i) + _ + _
    rw [hz' t, hve, Matrix.sub_mulVec, Matrix.mulVec_add, Matrix.mulVec_add]
    have e1 : ∀ w : Fin g.N → ℝ, turn (pairs hN) (-(2 * Real.pi * f) * t) *ᵥ (toM g.N g.N g.A *ᵥ w) =
        toM g.N g.N g.A *ᵥ (turn (pairs hN) (-(2 * Real.pi * f) * t) *ᵥ w) := fun w => by
      rw [Matrix.mulVec_mulVec, turn_commute _ hA, Matrix.mulVec_mulVec]
    have e2 : ∀ w : Fin g.N → ℝ, turn (pairs hN) (-(2 * Real.pi * f) * t) *ᵥ (toM g.N g.N G *ᵥ
        (turn (pairs hN) (2 * Real.pi * f * t) *ᵥ w)) = toM g.N g.N G *ᵥ w := fun w => by
      rw [Matrix.mulVec_mulVec, turn_commute _ hGc, Matrix.mulVec_mulVec, Matrix.mul_assoc, neg_mul, turn_inv, Matrix.mul_one]
    rw [e1, e2]
    abel

/-- the quarter turn of neighbours -/
def neighbours (N : ℕ) : Matrix (Fin N) (Fin N) ℝ :=
  Matrix.of fun i j => if (j : ℕ) % 2 = 0 then (if (i : ℕ) = j + 1 then 1 else 0) else if (i : ℕ) + 1 = j then -1 else 0

theorem neighbours_mulVec {N : ℕ} (hN : N % 2 = 0) (x : ℕ → ℝ) (k : Fin N) :
    (neighbours N *ᵥ fun i => x i) k = if (k : ℕ) % 2 = 0 then -x (k + 1) else x (k - 1) := by
  have hk := k.2
  rw [Matrix.mulVec, dotProduct]
  by_cases h0 : (k : ℕ) % 2 = 0
  · rw [if_pos h0, Finset.sum_eq_single ⟨k + 1, by omega⟩]
    · rw [neighbours, Matrix.of_apply, if_neg (by show ¬((k : ℕ) + 1) % 2 = 0; omega), if_pos rfl, neg_one_mul]
    · intro j _ hj
      have hj' : (j : ℕ) ≠ k + 1 := fun h => hj (Fin.ext h)
      rw [neighbours, Matrix.of_apply]
      by_cases h1 : (j : ℕ) % 2 = 0
      · rw [if_pos h1, if_neg (by omega), zero_mul]
      · rw [if_neg h1, if_neg (by omega), zero_mul]
    · exact fun h => absurd (Finset.mem_univ _) h
  · rw [if_neg h0, Finset.sum_eq_single ⟨k - 1, by omega⟩]
    · rw [neighbours, Matrix.of_apply, if_pos (by show ((k : ℕ) - 1) % 2 = 0; omega), if_pos (by show (k : ℕ) = k - 1 + 1; omega), one_mul]
    · intro j _ hj
      have hj' : (j : ℕ) ≠ k - 1 := fun h => hj (Fin.ext h)
      rw [neighbours, Matrix.of_apply]
      by_cases h1 : (j : ℕ) % 2 = 0
      · rw [if_pos h1, if_neg (by omega), zero_mul]
      · rw [if_neg h1, if_neg (by omega), zero_mul]
    · exact fun h => absurd (Finset.mem_univ _) h

theorem quarterTurn_neighbours {N : ℕ} (hN : N = 2 * h) (hh : h = 1 ∨ h = 2) : quarterTurn (pairs hN) = neighbours N := by
  ext i j
  obtain ⟨p, rfl⟩ := (pairs hN).surjective i
  obtain ⟨q, rfl⟩ := (pairs hN).surjective j
  rw [quarterTurn, Matrix.reindex_apply, Matrix.submatrix_apply, Equiv.symm_apply_apply, Equiv.symm_apply_apply]
  rcases hh with rfl | rfl <;> rcases p with p | p <;> rcases q with q | q <;> fin_cases p <;> fin_cases q <;>
    simp [neighbours, pairs, position]

theorem turn_neighbours {N : ℕ} (hN : N = 2 * h) (hh : h = 1 ∨ h = 2) (phi : ℝ) (x : ℕ → ℝ) (k : Fin N) :
    (turn (pairs hN) phi *ᵥ fun i => x i) k = turnNeighbours phi x k := by
  rw [turn, quarterTurn_neighbours hN hh, Matrix.add_mulVec, Matrix.smul_mulVec, Matrix.smul_mulVec, Matrix.one_mulVec, Pi.add_apply,
    Pi.smul_apply, Pi.smul_apply, neighbours_mulVec (by omega), turnNeighbours]
  split
  · rw [smul_eq_mul, smul_eq_mul]
    ring
  · rw [smul_eq_mul, smul_eq_mul]
    ring

theorem commute_neighbours {N : ℕ} (hN : N % 2 = 0) {X : ℕ → ℕ → ℝ}
    (h00 : ∀ r c, r % 2 = 0 → c % 2 = 0 → X r c = X (r + 1) (c + 1))
    (h01 : ∀ r c, r % 2 = 0 → c % 2 = 0 → X (r + 1) c = -X r (c + 1)) : Commute (toM N N X) (neighbours N) := by
  refine Matrix.ext fun r c => ?_
  have hr := r.2
  have hc := c.2
  refine Eq.trans ?_ (neighbours_mulVec hN (fun k => X k c) r).symm
  refine (Matrix.mul_apply).trans ?_
  by_cases h1 : (c : ℕ) % 2 = 0
  · rw [Finset.sum_eq_single ⟨c + 1, by omega⟩]
    · rw [neighbours, Matrix.of_apply, if_pos h1, if_pos rfl, mul_one]
      show X r (c + 1) = _
      by_cases h2 : (r : ℕ) % 2 = 0
      · rw [if_pos h2, h01 r c h2 h1, neg_neg]
      · obtain ⟨q, hq⟩ : ∃ q, (r : ℕ) = q + 1 := ⟨r - 1, by omega⟩
        rw [if_neg h2, hq, Nat.add_sub_cancel, h00 q c (by omega) h1]
    · intro j _ hj
      have hj' : (j : ℕ) ≠ c + 1 := fun h => hj (Fin.ext h)
      rw [neighbours, Matrix.of_apply, if_pos h1, if_neg hj', mul_zero]
    · exact fun h => absurd (Finset.mem_univ _) h
  · obtain ⟨d, hd⟩ : ∃ d, (c : ℕ) = d + 1 := ⟨c - 1, by omega⟩
    rw [Finset.sum_eq_single ⟨d, by omega⟩]
    · rw [neighbours, Matrix.of_apply, if_neg h1, if_pos hd.symm, mul_neg_one]
      show -X r d = _
      by_cases h2 : (r : ℕ) % 2 = 0
      · rw [if_pos h2, hd, h00 r d h2 (by omega)]
      · obtain ⟨q, hq⟩ : ∃ q, (r : ℕ) = q + 1 := ⟨r - 1, by omega⟩
        rw [if_neg h2, hd, hq, Nat.add_sub_cancel, h01 q d (by omega) (by omega), neg_neg]
    · intro j _ hj
      have hj' : (j : ℕ) + 1 ≠ c := fun h => hj (Fin.ext (by show (j : ℕ) = d; omega))
      rw [neighbours, Matrix.of_apply, if_neg h1, if_neg hj', mul_zero]
    · exact fun h => absurd (Finset.mem_univ _) h

theorem oscA_shift (beta rho gamma omega w : ℝ) (r c : ℕ) : oscA beta rho gamma omega r c -
    w * (if c % 2 = 0 then (if r = c + 1 then 1 else 0) else if r + 1 = c then -1 else 0) = oscA beta rho gamma (omega - w) r c := by
  unfold oscA
  by_cases h1 : r / 2 = c / 2
  · by_cases h2 : r % 2 = c % 2
    · obtain rfl : r = c := by omega
      simp
    · by_cases h3 : c % 2 = 0
      · obtain rfl : r = c + 1 := by omega
        have e3 : (c + 1) % 2 = 1 := by omega
        simp [h1, h3, e3]
      · obtain rfl : c = r + 1 := by omega
        have e3 : r % 2 = 0 := by omega
        have e4 : (r + 1) % 2 = 1 := by omega
        simp [h1, e3, e4]
        ring
  · have h4 : (if c % 2 = 0 then (if r = c + 1 then 1 else 0) else if r + 1 = c then -1 else 0 : ℝ) = 0 := by
      by_cases h3 : c % 2 = 0
      · have : ¬r = c + 1 := by omega
        rw [if_pos h3, if_neg this]
      · have : ¬r + 1 = c := by omega
        rw [if_neg h3, if_neg this]
    rw [h4, mul_zero, sub_zero, if_neg h1, if_neg h1]

/-- **C108**: the chain of one or two oscillators at the angular frequency `omega`, modulated with the frequency `f`, is seen
from the frame that rotates with this frequency as the chain of oscillators at `omega - 2 π f`: with its derivative, driven by
the rotated inputs and the controls as they are, and with its control observation. -/
theorem C108_oscillators {n : ℕ} (hn : n = 1 ∨ n = 2) {beta rho kappa gamma omega f : ℝ} {m : SineMod} {g : Sys ℝ}
    (hg : oscSystem n beta rho kappa gamma omega = .ok g) (hm : sineWaveModulator g f = .ok m) {x u s : ℝ → ℕ → ℝ}
    (hx : ∀ t, ∃ v, m.derivative ⟨2 * n, x t⟩ t ⟨2, u t⟩ ⟨2 * n, s t⟩ = .ok ⟨2 * n, v⟩ ∧
      HasDerivAt (fun t (i : Fin (2 * n)) => x t i) (fun i => v i) t) :
    ∃ g', oscSystem n beta rho kappa gamma (omega - 2 * Real.pi * f) = .ok g' ∧
      (∀ t U S, m.controlObservation t ⟨2 * n, x t⟩ U S =
        g'.controlObservation ⟨2 * n, turnNeighbours (-(2 * Real.pi * f) * t) (x t)⟩ U S) ∧
      ∀ t, ∃ v, g'.derivative ⟨2 * n, turnNeighbours (-(2 * Real.pi * f) * t) (x t)⟩
          ⟨2, turnNeighbours (-(2 * Real.pi * f) * t) (u t)⟩ ⟨2 * n, s t⟩ = .ok ⟨2 * n, v⟩ ∧
        HasDerivAt (fun t (i : Fin (2 * n)) => turnNeighbours (-(2 * Real.pi * f) * t) (x t) i) (fun i => v i) t := by
  have hnew : ∀ w, oscSystem n beta rho kappa gamma w = .ok ⟨2 * n, 2, 2 * n, 2 * n, 2 * n, oscA beta rho gamma w,
      fun r c => if r < 2 ∧ r = c then beta else 0, fun r c => if r = c then 1 else 0,
      some fun r c => if r = c then kappa else 0, some fun r c => if r = c then -npSign kappa else 0, fun _ _ => 0,
      fun _ _ => 0, fun _ _ => 0⟩ := fun w => by
    simp [oscSystem, Sys.new, checkGamma, checkGammaT, checkB, checkCT, checkOpt, Arr.shape0, Arr.shape1, Arr.entries, bind,
      Except.bind, eye]
  refine ⟨_, hnew _, ?_⟩
  obtain rfl := Except.ok.inj ((hnew omega).symm.trans hg)
  have hA : Commute (toM (2 * n) (2 * n) (oscA beta rho gamma omega)) (neighbours (2 * n)) := by
    refine commute_neighbours (by omega) (fun r c hr hc => ?_) (fun r c hr hc => ?_)
    · have e1 : (r + 1) / 2 = r / 2 := by omega
      have e2 : (c + 1) / 2 = c / 2 := by omega
      have e3 : (r + 1) % 2 = 1 := by omega
      have e4 : (c + 1) % 2 = 1 := by omega
      simp [oscA, e1, e2, e3, e4, hr, hc]
    · have e1 : (r + 1) / 2 = r / 2 := by omega
      have e2 : (c + 1) / 2 = c / 2 := by omega
      have e3 : (r + 1) % 2 = 1 := by omega
      have e4 : (c + 1) % 2 = 1 := by omega
      simp [oscA, e1, e2, e3, e4, hr, hc]
      split <;> simp
  have hG : Commute (toM (2 * n) (2 * n) fun r c => if r = c then kappa else 0) (neighbours (2 * n)) := by
    refine commute_neighbours (by omega) (fun r c hr hc => by simp) (fun r c hr hc => ?_)
    rw [if_neg (by omega), if_neg (by omega), neg_zero]
  have hJ := quarterTurn_neighbours (N := 2 * n) rfl hn
  rw [← hJ] at hA hG
  obtain ⟨z, hz, hobs, -, hd⟩ := C108_rotating (h := n) hm rfl rfl rfl hA hG hx
  have hz' : ∀ t, (fun i : Fin (2 * n) => z t i) = fun i : Fin (2 * n) => turnNeighbours (-(2 * Real.pi * f) * t) (x t) i :=
    fun t => (hz t).trans (funext fun i => turn_neighbours rfl hn _ _ i)
  refine ⟨fun t U S => (hobs t U S).trans (observation_congr (hz' t) U S), fun t => ?_⟩
  refine ⟨fun k => dot (2 * n) (oscA beta rho gamma (omega - 2 * Real.pi * f)) (turnNeighbours (-(2 * Real.pi * f) * t) (x t)) k +
    dot 2 (fun r c => if r < 2 ∧ r = c then beta else 0) (turnNeighbours (-(2 * Real.pi * f) * t) (u t)) k +
    dot (2 * n) (fun r c => if r = c then kappa else 0) (s t) k, ?_, ?_⟩
  · simp only [Sys.derivative, npDot_ok, bind, Except.bind, npAdd]
  have h1 := hd t
  rw [funext hz'] at h1
  refine h1.congr_deriv ?_
  have eA : toM (2 * n) (2 * n) (oscA beta rho gamma omega) - (2 * Real.pi * f) • quarterTurn (pairs (N := 2 * n) rfl) =
      toM (2 * n) (2 * n) (oscA beta rho gamma (omega - 2 * Real.pi * f)) := by
    rw [hJ]
    refine Matrix.ext fun r c => ?_
    exact oscA_shift beta rho gamma omega (2 * Real.pi * f) r c
  have eB : (toM (2 * n) 2 (fun r c => if r < 2 ∧ r = c then beta else 0) *ᵥ fun l => u t l) =
      fun i : Fin (2 * n) => dot 2 (fun r c => if r < 2 ∧ r = c then beta else 0) (u t) i := funext fun i => toM_mulVec _ _ _ _ i
  funext i
  refine congrArg₂ (· + ·) (congrArg₂ (· + ·) ?_ ?_) (toM_mulVec _ _ _ _ i)
  · refine (congrFun (congrArg₂ Matrix.mulVec eA (hz' t)) i).trans ?_
    exact toM_mulVec _ _ _ _ i
  · refine (congrFun (congrArg (turn _ _ *ᵥ ·) eB) i).trans ?_
    refine (turn_neighbours rfl hn _ _ i).trans ?_
    simp only [turnNeighbours, dot, Finset.sum_range_succ, Finset.sum_range_zero, zero_add]
    obtain ⟨i, hi⟩ := i
    show (if i % 2 = 0 then _ else _) = _
    rcases i with _ | _ | i
    · simp
      ring
    · simp
      ring
    · by_cases h0 : (i + 1 + 1) % 2 = 0
      · simp [h0]
      · obtain ⟨j, rfl⟩ : ∃ j, i = j + 1 := ⟨i - 1, by omega⟩
        simp [h0]

theorem osc_ok (n : ℕ) (beta rho kappa gamma w : ℝ) : oscSystem n beta rho kappa gamma w = .ok ⟨2 * n, 2, 2 * n, 2 * n, 2 * n,
    oscA beta rho gamma w, fun r c => if r < 2 ∧ r = c then beta else 0, fun r c => if r = c then 1 else 0,
    some fun r c => if r = c then kappa else 0, some fun r c => if r = c then -npSign kappa else 0, fun _ _ => 0,
    fun _ _ => 0, fun _ _ => 0⟩ := by
  simp [oscSystem, Sys.new, checkGamma, checkGammaT, checkB, checkCT, checkOpt, Arr.shape0, Arr.shape1, Arr.entries, bind,
    Except.bind, eye]

/-- `C108_rotating`, `C109_neighbours_partial`:
the hypotheses are met: one oscillator at the modulation frequency with the constant control (1, 0); the state is
`t (cos t, sin t)`, in the rotating frame `(t, 0)` -/
example : ∃ (g : Sys ℝ) (m : SineMod), oscSystem 1 1 0 1 0 1 = .ok g ∧ sineWaveModulator g (1 / (2 * Real.pi)) = .ok m ∧
    ∀ t : ℝ, ∃ v, m.derivative ⟨2, fun k => if k = 0 then t * Real.cos t else t * Real.sin t⟩ t ⟨2, fun _ => 0⟩
        ⟨2, fun k => if k = 0 then 1 else 0⟩ = .ok ⟨2, v⟩ ∧
      HasDerivAt (fun t (i : Fin 2) => if (i : ℕ) = 0 then t * Real.cos t else t * Real.sin t) (fun i => v i) t := by
  refine ⟨_, _, osc_ok _ _ _ _ _ _, by rw [sineWaveModulator, if_neg (by simp), if_neg (by simp)], fun t => ?_⟩
  have hw : 2 * Real.pi * (1 / (2 * Real.pi)) * t = t := by
    field_simp
  obtain ⟨z, hz, hz'⟩ := modulated_eq (g := ⟨2 * 1, 2, 2 * 1, 2 * 1, 2 * 1,
    oscA 1 0 0 1, fun r c => if r < 2 ∧ r = c then 1 else 0, fun r c => if r = c then 1 else 0,
    some fun r c => if r = c then 1 else 0, some fun r c => if r = c then -npSign 1 else 0, fun _ _ => 0,
    fun _ _ => 0, fun _ _ => 0⟩) (h := 1) rfl rfl (2 * Real.pi * (1 / (2 * Real.pi))) t (fun k => if k = 0 then 1 else 0)
  have hz0 : z 0 = Real.cos t := by
    have := (congrFun hz' (0 : Fin 2)).trans
      (turn_neighbours (N := 2) rfl (Or.inl rfl) _ (fun k => if k = 0 then 1 else 0) 0)
    rw [hw] at this
    simpa [turnNeighbours] using this
  have hz1 : z 1 = Real.sin t := by
    have := (congrFun hz' (1 : Fin 2)).trans
      (turn_neighbours (N := 2) rfl (Or.inl rfl) _ (fun k => if k = 0 then 1 else 0) 1)
    rw [hw] at this
    simpa [turnNeighbours] using this
  refine ⟨fun k => dot 2 (oscA 1 0 0 1) (fun k => if k = 0 then t * Real.cos t else t * Real.sin t) k +
    dot 2 (fun r c => if r < 2 ∧ r = c then 1 else 0) (fun _ => 0) k + dot 2 (fun r c => if r = c then 1 else 0) z k, ?_, ?_⟩
  · have h2 : (2 : ℕ) = 2 * 1 := rfl
    simp only [SineMod.derivative, bind, Except.bind]
    rw [h2, hz]
    simp [npDot, npAdd]
  · refine hasDerivAt_pi.2 fun i => ?_
    fin_cases i
    · refine ((hasDerivAt_id t).mul (Real.hasDerivAt_cos t)).congr_deriv ?_
      simp [dot, Finset.sum_range_succ, oscA, hz0]
      ring
    · refine ((hasDerivAt_id t).mul (Real.hasDerivAt_sin t)).congr_deriv ?_
      simp [dot, Finset.sum_range_succ, oscA, hz1]
      ring

/-- **C108**: with fewer controls than states there is no rotation: for at most half as many controls as states the controls
are only multiplied by a cosine, and have no effect at all on the derivative where this is zero. -/
theorem C108_fewer_false (hm : sineWaveModulator g f = .ok m) (hM : 2 * g.M ≤ g.N) {t : ℝ}
    (ht : Real.cos (2 * Real.pi * f * t) = 0) (x u s s' : Vec ℝ) (hs : s.len = g.M) (hs' : s'.len = g.M) :
    m.derivative x t u s = m.derivative x t u s' := by
  obtain rfl := new_ok hm
  have key : ∀ s : Vec ℝ, s.len = g.M → ∃ z : ℕ → ℝ, SineMod.modulated ⟨g, 2 * Real.pi * f⟩ t s = .ok ⟨g.M, z⟩ ∧ ∀ k < g.M, z k = 0 := by
    intro s hs
    have hmin : min g.M g.N = g.M := by omega
    refine ⟨fun k => dot g.M (rotation g.N (2 * Real.pi * f * t)) (fun k => s.v (shuffler g.M k)) (deShuffler g.M k), ?_, fun k hk => ?_⟩
    · simp [SineMod.modulated, gather, npDot, bind, Except.bind, hs, hmin]
    · refine Finset.sum_eq_zero fun c hc => ?_
      have hc' := Finset.mem_range.1 hc
      have hd : deShuffler g.M k < g.M ∨ g.M % 2 = 1 := by
        unfold deShuffler
        split <;> omega
      have hpar : g.M % 2 = 0 := by
        unfold sineWaveModulator at hm
        split at hm
        · cases hm
        split at hm
        · cases hm
        omega
      have hd' : deShuffler g.M k < g.M := hd.resolve_right (by omega)
      have hz : rotation g.N (2 * Real.pi * f * t) (deShuffler g.M k) c = 0 := by
        rw [rotation, if_neg (by omega), if_neg (by omega), ht, ite_self]
      rw [hz, zero_mul]
  obtain ⟨z, hz, h0⟩ := key s hs
  obtain ⟨z', hz', h0'⟩ := key s' hs'
  have hdot : ∀ G : ℕ → ℕ → ℝ, dot g.M G z = dot g.M G z' := fun G => by
    funext r
    refine Finset.sum_congr rfl fun c hc => ?_
    rw [h0 c (Finset.mem_range.1 hc), h0' c (Finset.mem_range.1 hc)]
  simp only [SineMod.derivative, hz, hz', npDot_ok, hdot, bind, Except.bind]

/-- there is such a system and time: a pair of oscillators with controls for the first one only -/
example : ∃ (g : Sys ℝ) (m : SineMod), g.N = 4 ∧ g.M = 2 ∧ sineWaveModulator g 1 = .ok m ∧
    Real.cos (2 * Real.pi * 1 * (1 / 4)) = 0 := by
  refine ⟨⟨4, 2, 2, 2, 4, oscA 1 0 0 1, fun _ _ => 1, fun _ _ => 1, some fun _ _ => 1, some fun _ _ => 1, fun _ _ => 0,
    fun _ _ => 0, fun _ _ => 0⟩, _, rfl, rfl, by rw [sineWaveModulator, if_neg (by simp), if_neg (by simp)], ?_⟩
  rw [show 2 * Real.pi * 1 * (1 / 4) = Real.pi / 2 by ring, Real.cos_pi_div_two]

/-- **C109**: for two or four states the quadrature pairs are the neighbouring states: the control observation is that of the
original system at the state whose neighbouring entries `2i` and `2i + 1` are rotated back. -/
theorem C109_neighbours_partial (hm : sineWaveModulator g f = .ok m) (hN : g.N = 2 ∨ g.N = 4) (t : ℝ) (x : ℕ → ℝ)
    (U S : Option (Vec ℝ)) : m.controlObservation t ⟨g.N, x⟩ U S =
      g.controlObservation ⟨g.N, turnNeighbours (-(2 * Real.pi * f) * t) x⟩ U S := by
  obtain rfl := new_ok hm
  obtain ⟨h, hN', hh⟩ : ∃ h, g.N = 2 * h ∧ (h = 1 ∨ h = 2) := by
    rcases hN with h | h
    · exact ⟨1, h, Or.inl rfl⟩
    · exact ⟨2, h, Or.inr rfl⟩
  obtain ⟨z, hz, hz'⟩ := demodulated_eq hN' (2 * Real.pi * f) t x
  simp only [SineMod.controlObservation, hz, bind, Except.bind]
  refine observation_congr (hz'.trans (funext fun i => ?_)) U S
  exact turn_neighbours hN' hh _ _ i

/-- the control observation of the first state, if every state is observed -/
theorem first_state (hm : sineWaveModulator g f = .ok m) (hN : g.N = 2 * h) (hh : 0 < h) (hMt : g.Mt = g.N)
    (hGT : g.GammaT = some fun r c => if r = c then 1 else 0) (t : ℝ) :
    ∃ y, m.controlObservation t ⟨g.N, fun k => if k = 0 then 1 else 0⟩ none none = .ok y ∧ y.len = g.N ∧
      y.v (position h h) = -Real.sin (2 * Real.pi * f * t) := by
  obtain rfl := new_ok hm
  obtain ⟨z, hz, hz'⟩ := demodulated_eq hN (2 * Real.pi * f) t (fun k => if k = 0 then 1 else 0)
  refine ⟨⟨g.Mt, dot g.N (fun r c => if r = c then 1 else 0) z⟩, ?_, hMt, ?_⟩
  · simp only [SineMod.controlObservation, hz, bind, Except.bind, Sys.controlObservation, hGT, npDot_ok]
  · have hp : position h h < g.N := by
      unfold position
      split <;> omega
    have e : (⟨position h h, hp⟩ : Fin g.N) = pairs hN (Sum.inr ⟨0, hh⟩) := Fin.ext (by
      show position h h = position h (0 + h)
      rw [zero_add])
    have e0 : ((pairs hN (Sum.inl ⟨0, hh⟩) : Fin g.N) : ℕ) = 0 := by simp [pairs, position]
    show dot g.N (fun r c => if r = c then 1 else 0) z (position h h) = _
    rw [dot, Finset.sum_eq_single (position h h)]
    · rw [if_pos rfl, one_mul]
      refine (congrFun hz' ⟨position h h, hp⟩).trans ?_
      rw [e, Matrix.mulVec, dotProduct, Finset.sum_eq_single (pairs hN (Sum.inl ⟨0, hh⟩))]
      · rw [e0, if_pos rfl, mul_one]
        simp [turn, quarterTurn, EmbeddingLike.apply_eq_iff_eq]
      · intro j _ hj
        have : (j : ℕ) ≠ 0 := fun h => hj (Fin.ext (h.trans e0.symm))
        rw [if_neg this, mul_zero]
      · exact fun h => absurd (Finset.mem_univ _) h
    · intro c _ hc
      rw [if_neg (Ne.symm hc), zero_mul]
    · exact fun h => absurd (Finset.mem_range.2 hp) h

/-- **C109**: for six or more states neighbouring states are not the pairs: when the observation is the demodulated state, the
first state shows up in the observation of a state that is neither itself nor its neighbour, at all times but the multiples of
half a period. -/
theorem C109_neighbours_false (hm : sineWaveModulator g f = .ok m) (hN : g.N = 2 * h) (hh : 3 ≤ h) (hMt : g.Mt = g.N)
    (hGT : g.GammaT = some fun r c => if r = c then 1 else 0) {t : ℝ} (ht : Real.sin (2 * Real.pi * f * t) ≠ 0) :
    ∃ y, m.controlObservation t ⟨g.N, fun k => if k = 0 then 1 else 0⟩ none none = .ok y ∧
      ∃ k < y.len, k ≠ 0 ∧ k ≠ 1 ∧ y.v k ≠ 0 := by
  obtain ⟨y, hy, hl, h1⟩ := first_state hm hN (by omega) hMt hGT t
  refine ⟨y, hy, position h h, ?_, ?_, ?_, by rw [h1]; exact neg_ne_zero.2 ht⟩ <;> try rw [hl]
  all_goals unfold position; split <;> omega

/-- **C109**: for four or more states the pairs are not those of the bandpass frontends either, for which state `i` goes with
state `i + N / 2`: the first state shows up in the observation of a state that is neither itself nor state `N / 2`. -/
theorem C109_halves_false (hm : sineWaveModulator g f = .ok m) (hN : g.N = 2 * h) (hh : 2 ≤ h) (hMt : g.Mt = g.N)
    (hGT : g.GammaT = some fun r c => if r = c then 1 else 0) {t : ℝ} (ht : Real.sin (2 * Real.pi * f * t) ≠ 0) :
    ∃ y, m.controlObservation t ⟨g.N, fun k => if k = 0 then 1 else 0⟩ none none = .ok y ∧
      ∃ k < y.len, k ≠ 0 ∧ k ≠ h ∧ y.v k ≠ 0 := by
  obtain ⟨y, hy, hl, h1⟩ := first_state hm hN (by omega) hMt hGT t
  refine ⟨y, hy, position h h, ?_, ?_, ?_, by rw [h1]; exact neg_ne_zero.2 ht⟩ <;> try rw [hl]
  all_goals unfold position; split <;> omega

/-- there are such systems and times: chains of three oscillators that are observed with a negative feedback -/
example : ∃ (g : Sys ℝ) (m : SineMod), oscSystem 3 1 0 (-1) 0 1 = .ok g ∧ sineWaveModulator g 1 = .ok m ∧ g.N = 2 * 3 ∧
    g.Mt = g.N ∧ (g.GammaT = some fun r c => if r = c then 1 else 0) ∧ Real.sin (2 * Real.pi * 1 * (1 / 4)) ≠ 0 := by
  refine ⟨_, _, osc_ok _ _ _ _ _ _, by rw [sineWaveModulator, if_neg (by simp), if_neg (by simp)], rfl, rfl, ?_, ?_⟩
  · simp [npSign]
  · rw [show 2 * Real.pi * 1 * (1 / 4) = Real.pi / 2 by ring, Real.sin_pi_div_two]
    exact one_ne_zero

end Cbadc.Modulator
