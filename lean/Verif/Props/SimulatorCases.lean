import Verif.Props.RunExists
import Verif.Props.Simulator
import Verif.Props.Synthesis

/-!
# Cases for the theorems on the simulators (C16, C28, C48)

Simulations that meet the hypotheses of the theorems in `Verif/Props/Simulator.lean` and of `C48_bounded`.
-/

namespace Cbadc.Simulate

open Cbadc.Analog Cbadc.Analog.Spec Cbadc.Control Cbadc.Filter Cbadc.EndToEnd

/-- `C28_solution_partial`, `C28_deterministic`, `C16_phase_zero_partial` on the same simulation: its state is that of a
trajectory, any other simulation from the same start agrees with it, and every control is decided in every period. -/
example : ∃ (cfg : Cfg 1) (st : ℕ → St 1) (φ : ℕ → ℝ → ℕ → ℝ), Run cfg st φ ∧ (st 0).x 0 = -(3 / 4) ∧
    (∀ k : ℕ, (st k).t = (st 0).t + k * cfg.dc.T) ∧
    (∀ st' φ', Run cfg st' φ' → st' 0 = st 0 → ∀ k, (st k).c = (st' k).c) ∧
    ∀ k, ∃ y, cfg.sys.controlObservation ⟨cfg.sys.N, (st k).x⟩ (some (cfg.u0 (st k)))
      (some (asVec (contribution cfg.dc (st k).c 0))) = .ok y ∧
      signal (st (k + 1)).c 0 = if cfg.dc.offsets 0 ≤ y.v 0 then 1 else 0 := by
  obtain ⟨⟨sys, dc, input, hi⟩, st, φ, hs, hdc, hin, -, hr, -, h0⟩ := ex_simulation
  dsimp only at hdc hs hin
  have hG : sys.Gamma ≠ none := by
    have h := hs.symm.trans (chain_eq [1] [0] (by simp) rfl (fun _ _ => 1))
    rw [Except.ok.injEq] at h
    rw [h]
    simp
  obtain ⟨G, hG⟩ := Option.ne_none_iff_exists'.1 hG
  simp only [DC.new, initIR, initOffsets, lt_self_iff_false, if_false, Except.ok.injEq] at hdc
  have hT : 0 < dc.T := by rw [← hdc]; norm_num
  refine ⟨_, st, φ, hr, h0, (C28_solution_partial _ hin hT G hG st φ hr).1, fun st' φ' hr' he k => ?_, fun k => ?_⟩
  · exact (C28_deterministic _ hin hT st st' φ φ' hr hr' ⟨fun _ _ => by rw [he], by rw [he], by rw [he], by rw [he]⟩ k).2.1
  · refine C16_phase_zero_partial _ st φ hr 0 ?_ k
    show |(0 : ℝ) - (dc.ir 0).t0| ≤ dc.tt2 + 1 / 100000 * |(dc.ir 0).t0|
    rw [← hdc]
    simp [stepResponse]

/-- `C16_other_phase_frozen`: a control that is to be decided in the middle of the period keeps its first value. -/
example : ∃ (cfg : Cfg 1) (st : ℕ → St 1) (φ : ℕ → ℝ → ℕ → ℝ), Run cfg st φ ∧ ∀ k, signal (st k).c 0 = signal (st 0).c 0 := by
  obtain ⟨st, φ, -, hr⟩ := C148_run (M := 1) ⟨exSys 0, exDC 0 (.step (1 / 2) 1), fun _ t _ => Real.sin t, true⟩ zero_le_one
    (fun _ => ⟨.step (1 / 2) 1, rfl⟩) (fun _ _ => Real.continuous_sin) ⟨by simp, rfl, by simp, le_refl _⟩ ⟨0, 0, fun _ => 1, State.init⟩
  exact ⟨_, st, φ, hr, C16_other_phase_frozen _ st φ hr 0 (by norm_num [Dac.ir, Dac.t0, abs_of_pos])⟩

end Cbadc.Simulate

namespace Cbadc.Synthesis

open Cbadc.Analog Cbadc.Analog.Spec Cbadc.Control Cbadc.Filter Cbadc.Simulate Cbadc.EndToEnd

/-- `C48_bounded` on a chain of four integrators for an oversampling ratio of 32: a simulation with a sine of full scale
exists and stays within the bounds. -/
example : ∃ (cfg : Cfg 4) (st : ℕ → St 4) (φ : ℕ → ℝ → ℕ → ℝ), Run cfg st φ ∧
    (∃ k : Kw, chainSynthesis k = .ok ⟨4, cfg.sys, cfg.dc⟩) ∧ ∀ j, InBox 4 (st j).x := by
  have hk := (C48_osr { N := some 4, OSR := some 32, BW := some 1000000 } 4 (by norm_num) 1000000 32 (by norm_num) (by norm_num)
    rfl rfl rfl rfl rfl).1 (by norm_num)
  obtain ⟨g, dc, beta, T, he, hn, hdc, hT, hp, -, -⟩ := hk
  have hs : ∀ m, (dc.ir m).f = (Dac.step 0 1).eval := by
    simp only [DC.new, initIR, initOffsets, lt_self_iff_false, if_false, Except.ok.injEq] at hdc
    intro m
    rw [← hdc]
    funext t
    simp [stepResponse, Dac.eval]
  have hG : g.Gamma ≠ none := by
    intro h0
    obtain ⟨d, hd, -⟩ := hn.deriv 0 0 0
    simp [Sys.derivative, h0, npDot, hn.n, hn.l] at hd
    cases hd
  have hGT : g.GammaT ≠ none := by
    intro h0
    obtain ⟨d, hd, -⟩ := hn.obs 0 0 0
    simp [Sys.controlObservation, h0] at hd
  obtain ⟨st, φ, h0, hr⟩ := C148_run (M := 4) ⟨g, dc, fun _ t _ => Real.sin t, true⟩ (by rw [hT]; exact hp.le)
    (fun m => ⟨_, hs m⟩) (fun _ _ => Real.continuous_sin) ⟨hG, hn.m, hGT, hn.mt.ge⟩ ⟨0, 0, fun _ => 0, State.init⟩
  refine ⟨_, st, φ, hr, ⟨_, he⟩, fun j => (C48_bounded _ 4 (by norm_num) g dc rfl ?_ ?_ ?_ ?_ ?_ rfl ?_ he _ rfl rfl rfl ?_ st φ hr ?_ j).1⟩
  · rintro b ⟨⟩; norm_num
  · rintro b ⟨⟩; norm_num
  · rintro b ⟨⟩
  · norm_num
  · norm_num
  · norm_num
  · exact fun _ t => Real.abs_sin_le_one t
  · intro n _
    rw [h0]
    norm_num

end Cbadc.Synthesis
