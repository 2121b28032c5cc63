import Verif.Lemmas.Existence
import Verif.Lemmas.Simulator
import Verif.Lemmas.EndToEnd

/-! # Simulations do not get stuck (C148) -/

namespace Cbadc.Filter

open Set Filter.Spec Matrix

variable {T : ℝ} {w w' : ℝ → ℝ}

theorem Spec.Waveform.const (T a : ℝ) : Waveform T fun _ => a :=
  ⟨measurable_const, ⟨|a|, fun _ _ => le_refl _⟩, fun _ _ => continuousWithinAt_const⟩

theorem Spec.Waveform.of_continuous (hw : Continuous w) : Waveform T w := by
  obtain ⟨C, hC⟩ := isCompact_Icc.exists_bound_of_continuousOn (s := Icc 0 T) hw.continuousOn
  exact ⟨hw.measurable, ⟨C, hC⟩, fun _ _ => hw.continuousWithinAt⟩

theorem Spec.Waveform.mul (h : Waveform T w) (h' : Waveform T w') : Waveform T fun t => w t * w' t := by
  obtain ⟨C, hC⟩ := h.bounded
  obtain ⟨D, hD⟩ := h'.bounded
  refine ⟨h.meas.mul h'.meas, ⟨C * D, fun t ht => ?_⟩, fun t ht => (h.right t ht).mul (h'.right t ht)⟩
  rw [abs_mul]
  exact mul_le_mul (hC t ht) (hD t ht) (abs_nonneg _) ((abs_nonneg _).trans (hC t ht))

theorem Spec.Waveform.add (h : Waveform T w) (h' : Waveform T w') : Waveform T fun t => w t + w' t := by
  obtain ⟨C, hC⟩ := h.bounded
  obtain ⟨D, hD⟩ := h'.bounded
  exact ⟨h.meas.add h'.meas, ⟨C + D, fun t ht => (abs_add_le _ _).trans (add_le_add (hC t ht) (hD t ht))⟩,
    fun t ht => (h.right t ht).add (h'.right t ht)⟩

theorem Spec.Waveform.sum {ι : Type} (s : Finset ι) {f : ι → ℝ → ℝ} (h : ∀ i ∈ s, Waveform T (f i)) :
    Waveform T fun t => ∑ i ∈ s, f i t := by
  classical
  induction s using Finset.induction_on with
  | empty => simpa using Waveform.const T 0
  | insert a s ha ih =>
    have := (h a (Finset.mem_insert_self a s)).add (ih fun i hi => h i (Finset.mem_insert_of_mem hi))
    simpa only [Finset.sum_insert ha] using this

theorem Spec.Waveform.before (h : Waveform T w) (h' : Waveform T w') (a : ℝ) : Waveform T fun t => if t < a then w t else w' t := by
  obtain ⟨C, hC⟩ := h.bounded
  obtain ⟨D, hD⟩ := h'.bounded
  refine ⟨Measurable.ite measurableSet_Iio h.meas h'.meas, ⟨max C D, fun t ht => ?_⟩, fun t ht => ?_⟩
  · by_cases c : t < a
    · rw [if_pos c]; exact (hC t ht).trans (le_max_left _ _)
    · rw [if_neg c]; exact (hD t ht).trans (le_max_right _ _)
  · by_cases c : t < a
    · refine (h.right t ht).congr_of_eventuallyEq ?_ (if_pos c)
      filter_upwards [mem_nhdsWithin_of_mem_nhds (Iio_mem_nhds c)] with s hs
      exact if_pos hs
    · exact (h'.right t ht).congr (fun s hs => if_neg (not_lt.2 ((not_lt.1 c).trans hs))) (if_neg c)

/-- a waveform one period later -/
theorem Spec.Waveform.later (h : ∀ T, Waveform T w) (a : ℝ) (ha : 0 ≤ a) : Waveform T fun t => w (t + a) := by
  obtain ⟨C, hC⟩ := (h (T + a)).bounded
  refine ⟨(h T).meas.comp (measurable_id.add_const a), ⟨C, fun t ht => hC _ ⟨by linarith [ht.1], by linarith [ht.2]⟩⟩, fun t ht => ?_⟩
  have h1 := (h (T + a)).right (t + a) ⟨by linarith [ht.1], by linarith [ht.2]⟩
  refine ContinuousWithinAt.comp (g := w) (f := fun t => t + a) h1 (continuous_id.add continuous_const).continuousWithinAt fun s hs => ?_
  show t + a ≤ s + a
  have : t ≤ s := hs
  linarith

/-- a solution from every start -/
theorem flow_exists {N : ℕ} (A : Matrix (Fin N) (Fin N) ℝ) {v : ℝ → Fin N → ℝ} (hv : ∀ n, Waveform T fun t => v t n) (x0 : Fin N → ℝ) :
    ∃ x, Flow A v 0 T x ∧ x 0 = x0 := by
  choose π hπ hπ0 using fun n => duhamel_right A (hv n) (Pi.single n 1)
  have h1 := (flow_exp A x0 0 T).add (flow_sum Finset.univ _ π fun n _ => hπ n)
  refine ⟨_, h1.congr fun t _ => ?_, ?_⟩
  · rw [zero_add]
    funext i
    simp [Finset.sum_apply, Pi.single_apply]
  · show NormedSpace.exp ((0 : ℝ) • A) *ᵥ x0 + ∑ n, π n 0 = x0
    rw [exp_zero_smul, Matrix.one_mulVec, Finset.sum_eq_zero fun n _ => hπ0 n, add_zero]

end Cbadc.Filter

namespace Cbadc.Simulate

open Set Cbadc.Analog Cbadc.Control Cbadc.Filter Cbadc.Filter.Spec

/-- the same in the form used by the simulators -/
theorem sol_exists (N : ℕ) (A : ℕ → ℕ → ℝ) {T : ℝ} {v : ℝ → ℕ → ℝ} (hv : ∀ n < N, Waveform T fun t => v t n) (x0 : ℕ → ℝ) :
    ∃ φ, Sol N A T v φ ∧ ∀ n < N, φ 0 n = x0 n := by
  obtain ⟨x, hx, h0⟩ := flow_exists (toM N N A) (v := fun t n => v t n) (fun n => hv n n.2) fun n => x0 n
  have e : ∀ (n : ℕ) (hn : n < N), (fun τ => (if h : n < N then x τ ⟨n, h⟩ else 0)) = fun τ => x τ ⟨n, hn⟩ := fun n hn =>
    funext fun τ => dif_pos hn
  refine ⟨fun τ n => if h : n < N then x τ ⟨n, h⟩ else 0, ⟨fun n hn => ?_, fun τ hτ n hn => ?_⟩, fun n hn => ?_⟩
  · rw [e n hn]
    exact continuousOn_pi.1 hx.cont ⟨n, hn⟩
  · rw [e n hn]
    refine (hasDerivWithinAt_pi.1 (hx.ode τ hτ) ⟨n, hn⟩).congr_deriv ?_
    rw [Pi.add_apply]
    congr 1
    have := EndToEnd.toM_mulVec (r := N) (c := N) A (fun n => if h : n < N then x τ ⟨n, h⟩ else 0) ⟨n, hn⟩
    rw [← this]
    refine congrFun (congrArg _ (funext fun m => ?_)) _
    rw [dif_pos m.2]
  · show (if h : n < N then x 0 ⟨n, h⟩ else 0) = x0 n
    rw [dif_pos hn, h0]

variable {M : ℕ}

theorem contribution_waveform (dc : DC ℝ M) (hT : 0 ≤ dc.T) (hw : ∀ m T, Waveform T (dc.ir m).f) (c : State ℝ M) (T : ℝ) (m : Fin M) :
    Waveform T fun t => contribution dc c t m :=
  ((Waveform.later (hw m) dc.T hT).before (hw m T) _).mul ((Waveform.const T _).before (Waveform.const T _) _)

/-- what a successful simulation needs -/
theorem observation_ok (g : Sys ℝ) (x u s : Vec ℝ) (hx : x.len = g.N) (hu : u.len = g.L) (hs : s.len = g.M) :
    (∃ y, g.controlObservation x (some u) (some s) = .ok y) ↔ g.GammaT ≠ none := by
  unfold Sys.controlObservation
  cases g.GammaT with
  | none => simp
  | some GT => simp [npDot, hx, hu, hs, bind, Except.bind]

end Cbadc.Simulate
