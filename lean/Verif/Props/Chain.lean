import Verif.Lemmas.Chain
import Verif.Props.Topology

/-! # C79: trajectories of chained systems, controls included -/

namespace Cbadc.Analog
open Finset Spec

variable {K : Type*} [Field K]

/-- everything `chain` returns -/
theorem chain_all (l : List (Sys K)) (S : Sys K) (h : chain l = .ok S) :
    ∃ f t a, l = f :: t ∧ f.L = f.Nt ∧ chainLoop (total Sys.N l) f.L (chainInit f) l = .ok a ∧
      S = ⟨total Sys.N l, f.L, total Sys.M l, total Sys.Mt l, a.p, a.A, a.B, a.CT, some a.Gamma, some a.GammaT, a.D,
        fun _ _ => 0, a.At⟩ ∧ a.n = total Sys.N l := by
  obtain ⟨f, hf, hfL, -⟩ := (C22_accepts l).1.mp ⟨S, h⟩
  cases l with
  | nil => cases hf
  | cons f' t =>
    cases hf
    cases hl : chainLoop (total Sys.N (f :: t)) f.L (chainInit f) (f :: t) with
    | error e => rw [chain_err f t e hl] at h; cases h
    | ok a =>
      rw [chain_of_ok f t a hl] at h
      cases h
      refine ⟨f, t, a, rfl, hfL, hl, rfl, ?_⟩
      have := (loop_T _ _ _ _ _ f.N (by simp [chainInit]) (by simp [chainInit]) (chainInit_inv f _) hl 0).2.1
      simpa [chainInit] using this

theorem init_out (f : Sys K) (x u : ℕ → K) (k : ℕ) (hk : k < f.L) :
    accOut f.L (chainInit f) x u k = u k := by
  unfold accOut
  simp only [chainInit, range_zero, sum_empty, zero_add, ite_mul, one_mul, zero_mul, sum_ite_eq, mem_range]
  rw [if_pos hk]

theorem feed_init (f : Sys K) (t : List (Sys K)) (x u : ℕ → K) :
    feed (f :: t) x (accOut f.L (chainInit f) x u) = feed (f :: t) x u := by
  have e : outp f x (accOut f.L (chainInit f) x u) = outp f x u := by
    funext r
    unfold outp
    congr 1
    apply Finset.sum_congr rfl
    intro c hc
    rw [init_out f x u c (mem_range.mp hc)]
  rw [feed, feed, e]

/-- **C79** every part of a chain moves as it would alone, with its own states and controls, driven by the output of
the previous part: the right hand side of the chain's differential equation, restricted to the states of a part. -/
theorem C79_trajectory (l1 : List (Sys K)) (g : Sys K) (l2 : List (Sys K)) (S : Sys K)
    (h : chain (l1 ++ g :: l2) = .ok S) (x u s : Vec K) (hx : x.len = S.N) (hu : u.len = S.L) (hs : s.len = S.M) :
    ∃ d, S.derivative x u s = .ok d ∧ d.len = S.N ∧ ∀ i < g.N, d.v (total Sys.N l1 + i) =
      rhs g (shift (total Sys.N l1) x.v) (feed l1 x.v u.v) (shift (total Sys.M l1) s.v) i := by
  obtain ⟨f, t, a, hlt, hfL, hl, rfl, hn⟩ := chain_all _ S h
  obtain ⟨d, h1, h2, h3⟩ := (C21_derivative_partial _ _ rfl x u s).1 ⟨hx, hu, hs⟩
  refine ⟨d, h1, h2, fun i hi => ?_⟩
  rw [h3]
  simp only
  have hG : a.Gamma = stackMat Sys.N Sys.M (fun g => optBlock g.Gamma) (l1 ++ g :: l2) :=
    (loop_controls _ _ _ _ _ hl).1
  rw [hG, stackMat_sum _ _ _ _ _ _ _ hi]
  have hhead : ∀ q ∈ (l1 ++ [g]).head?, q = f := by
    intro q hq
    cases l1 with
    | nil => cases hq; cases hlt; rfl
    | cons f' l1 => cases hq; cases hlt; rfl
  have key := loop_rows _ _ l1 g l2 _ a f.N (fun q hq => by rw [hhead q hq]; simp [chainInit])
    (by simp [chainInit]) (chainInit_inv f _) hl x.v u.v i hi
  have e0 : (chainInit f).n = 0 := rfl
  have es : shift 0 x.v = x.v := by funext j; unfold shift; rw [zero_add]
  rw [e0, zero_add, es] at key
  unfold accRow at key
  rw [hn] at key
  rw [key]
  unfold rhs
  congr 1
  · congr 1
    apply Finset.sum_congr rfl
    intro c hc
    congr 1
    refine feed_congr l1 g _ _ _ (fun q hq k hk => ?_) c (mem_range.mp hc)
    rw [hhead q hq] at hk
    exact init_out f _ _ k hk
  · cases hG : g.Gamma with
    | none => simp [optBlock]
    | some G => simp [optBlock]

/-- **C79** the signal observation together with the direct path is what arrives behind the last part. -/
theorem C79_output (l : List (Sys K)) (S : Sys K) (h : chain l = .ok S) (x u : ℕ → K) (j : ℕ) (hj : j < S.Nt) :
    outp S x u j = feed l x u j := by
  obtain ⟨f, t, a, rfl, hfL, hl, rfl, hn⟩ := chain_all _ S h
  have key := loop_out _ _ _ _ a hl x u j hj
  have e0 : (chainInit f).n = 0 := rfl
  have es : shift 0 x = x := by funext j; unfold shift; rw [zero_add]
  rw [e0, es, feed_init f] at key
  rw [← key]
  unfold outp accOut
  rw [hn]

/-- **C79 (part that holds)** likewise the control observation, for parts without a direct path from the input to
the control observation. -/
theorem C79_control_observation_partial (l1 : List (Sys K)) (g : Sys K) (l2 : List (Sys K)) (S : Sys K)
    (h : chain (l1 ++ g :: l2) = .ok S) (hBt : ∀ r c, g.Bt r c = 0) (x u s : Vec K) (hx : x.len = S.N)
    (hu : u.len = S.L) (hs : s.len = S.M) :
    ∃ y, S.controlObservation x (some u) (some s) = .ok y ∧ y.len = S.Mt ∧
      ∀ i < g.Mt, y.v (total Sys.Mt l1 + i) =
        cObs g (shift (total Sys.N l1) x.v) (feed l1 x.v u.v) (shift (total Sys.M l1) s.v) i := by
  obtain ⟨f, t, a, hlt, hfL, hl, rfl, hn⟩ := chain_all _ S h
  obtain ⟨⟨y, h1, h2, h3⟩, -⟩ := C27_observation_partial _ _ rfl x u s hx hu hs
  refine ⟨y, h1, h2, fun i hi => ?_⟩
  rw [h3]
  simp only
  obtain ⟨-, hGT, hAt⟩ := loop_controls _ _ _ _ _ hl
  have hGT' : a.GammaT = stackMat Sys.Mt Sys.N (fun g => optBlock g.GammaT) (l1 ++ g :: l2) := hGT
  have hAt' : a.At = stackMat Sys.Mt Sys.M (fun g => g.At) (l1 ++ g :: l2) := hAt
  rw [hGT', hAt', stackMat_sum _ _ _ _ _ _ _ hi, stackMat_sum _ _ _ _ _ _ _ hi]
  unfold cObs
  simp only [hBt, zero_mul, sum_const_zero, add_zero]
  cases hG : g.GammaT with
  | none => simp [optBlock]
  | some G => simp [optBlock]

/-- a controlled integrator -/
def exInt : Sys ℚ := ⟨1, 1, 1, 1, 1, fun _ _ => -1, fun _ _ => 2, fun _ _ => 1, some fun _ _ => -2,
  some fun _ _ => 1, fun _ _ => 3, fun _ _ => 0, fun _ _ => 5⟩

/-- `C79_output`, `C79_trajectory`: a list the theorems apply to, and a part in its middle -/
example : ∃ S, chain ([exInt] ++ exInt :: [exInt]) = .ok S ∧ S.N = 3 ∧ S.M = 3 ∧ S.Mt = 3 := by
  obtain ⟨S, hS⟩ := (C22_accepts [exInt, exInt, exInt]).1.mpr ⟨exInt, rfl, rfl, by simp [exInt]⟩
  obtain ⟨f, t, a, -, -, -, rfl, -⟩ := chain_all _ S hS
  exact ⟨_, hS, rfl, rfl, rfl⟩

/-- **C79 is false for the control observation of a part with `B_tilde`**: the chain drops it. -/
theorem C79_control_observation_false :
    ∃ (g S : Sys ℚ), chain [g] = .ok S ∧ ∃ x u s : Vec ℚ, x.len = S.N ∧ u.len = S.L ∧ s.len = S.M ∧
      (∃ y, g.controlObservation x (some u) (some s) = .ok y ∧ y.v 0 = 1) ∧
      (∃ y, S.controlObservation x (some u) (some s) = .ok y ∧ y.v 0 = 0) := by
  let g : Sys ℚ := ⟨1, 1, 1, 1, 1, fun _ _ => 0, fun _ _ => 1, fun _ _ => 1, some fun _ _ => 1, some fun _ _ => 1,
    fun _ _ => 0, fun _ _ => 1, fun _ _ => 0⟩
  obtain ⟨S, hS⟩ := (C22_accepts [g]).1.mpr ⟨g, rfl, rfl, by simp⟩
  obtain ⟨f, t, a, -, -, hl, hSe, -⟩ := chain_all _ S hS
  refine ⟨g, S, hS, ⟨1, fun _ => 0⟩, ⟨1, fun _ => 1⟩, ⟨1, fun _ => 0⟩, ?_, ?_, ?_, ?_, ?_⟩
  · rw [hSe]; rfl
  · have := (C22_accepts [g]).1.mp ⟨S, hS⟩
    obtain ⟨f', h1, -⟩ := this
    obtain ⟨f2, t2, a2, h2, -, -, h3, -⟩ := chain_all _ S hS
    cases h2
    rw [h3]
  · rw [hSe]; rfl
  · refine ⟨_, rfl, ?_⟩
    simp [npAdd, dot, g]
  · obtain ⟨f2, t2, a2, h2, -, -, h3, -⟩ := chain_all _ S hS
    cases h2
    obtain ⟨⟨y, h1, h2, h4⟩, -⟩ := C27_observation_partial S a2.GammaT (by rw [h3]) ⟨1, fun _ => 0⟩ ⟨1, fun _ => 1⟩
      ⟨1, fun _ => 0⟩ (by rw [h3]; rfl) (by rw [h3]) (by rw [h3]; rfl)
    refine ⟨y, h1, ?_⟩
    rw [h4, h3]
    simp

end Cbadc.Analog
