import Mathlib.Analysis.SpecialFunctions.Trigonometric.Bounds
import Verif.Lemmas.SignalTree

/-! # Combinations of signals: properties -/

namespace Cbadc.Signal

open Classical Spec

/-! ## C58: sums and products -/

/-- C58, the part that holds: a sum of any number of signals, of any classes and nesting, evaluates its parts one
after the other and returns the sum of their values; no part may be a held sample at the moment it is reached.
Missing: held samples as terms, see `C58_held_false`. -/
theorem C58_sum_partial (l : List Sig) (t : ℝ) (h : ℕ → Heap) (v : ℕ → ℝ)
    (hz : ∀ k (hk : k < l.length), ∀ i z, l[k] = .obj i → h k i ≠ .zoh z)
    (hv : ∀ k (hk : k < l.length), (l[k]).evaluate t (h k) = (.ok (v k), h (k + 1))) :
    (Sig.add l).evaluate t (h 0) = (.ok (∑ k ∈ Finset.range l.length, v k), h l.length) := by
  rw [Sig.evaluate, Sig.sumLoop_eq l t h v hz hv, zero_add]

/-- C58, the part that holds, for products. -/
theorem C58_product_partial (l : List Sig) (t : ℝ) (h : ℕ → Heap) (v : ℕ → ℝ)
    (hz : ∀ k (hk : k < l.length), ∀ i z, l[k] = .obj i → h k i ≠ .zoh z)
    (hv : ∀ k (hk : k < l.length), (l[k]).evaluate t (h k) = (.ok (v k), h (k + 1))) :
    (Sig.mul l).evaluate t (h 0) = (.ok (∏ k ∈ Finset.range l.length, v k), h l.length) := by
  rw [Sig.evaluate, Sig.mulLoop_eq l t h v hz hv, one_mul]

example (h : Heap) : (Sig.add [.constant 2, .mul [.constant 3, .step 1 5]]).evaluate 4 h = (.ok 17, h) := by
  have h1 : (Sig.mul [.constant 3, .step 1 5]).evaluate 4 h = (.ok 15, h) := by
    have := C58_product_partial [.constant 3, .step 1 5] 4 (fun _ => h) (fun k => if k = 0 then 3 else 5)
      (fun k hk i z hi => by
        have : k = 0 ∨ k = 1 := by simp at hk; omega
        rcases this with rfl | rfl <;> simp at hi)
      (fun k hk => by
        have : k = 0 ∨ k = 1 := by simp at hk; omega
        rcases this with rfl | rfl <;> simp [Sig.evaluate, stepEval])
    rw [this]
    simp [Finset.prod_range_succ]
    norm_num
  have := C58_sum_partial [.constant 2, .mul [.constant 3, .step 1 5]] 4 (fun _ => h)
    (fun k => if k = 0 then 2 else 15)
    (fun k hk i z hi => by
      have : k = 0 ∨ k = 1 := by simp at hk; omega
      rcases this with rfl | rfl <;> simp at hi)
    (fun k hk => by
      have : k = 0 ∨ k = 1 := by simp at hk; omega
      rcases this with rfl | rfl
      · simp [Sig.evaluate]
      · exact h1)
  rw [this]
  simp [Finset.sum_range_succ]
  norm_num

/-- C58: an expression without random signals and held samples is a function of time: evaluating it changes
nothing, and its value does not depend on the state of any object. -/
theorem C58_function_of_time (s : Sig) (hs : Stateless s) (t : ℝ) (h h' : Heap) :
    (s.evaluate t h).2 = h ∧ (s.evaluate t h).1 = (s.evaluate t h').1 :=
  Sig.stateless_evaluate s hs t h h'

example : Stateless (.add [.constant 2, .mul [.sinusoidal 1 50 0 0, .quad 1 2 true (.constant 1) (.step 0 1)]]) := by
  simp [Stateless, StatelessAll]

/-- C58 is false for held samples: adding any signal to a `ZeroOrderHold` gives a signal whose evaluation raises
`TypeError`, and afterwards the held samples themselves are lost. -/
theorem C58_held_false (data : List ℝ) (hd : data ≠ []) (T : ℝ) (hT : T ≠ 0) (c t : ℝ) (h : Heap)
    (h0 : h 0 = .zoh ⟨some data, T⟩) :
    (∃ v, ((Sig.obj 0).evaluate t h).1 = .ok v) ∧
    ((Sig.add [.constant c, .obj 0]).evaluate t h).1 = .error .typeError ∧
    ((Sig.obj 0).evaluate t ((Sig.add [.constant c, .obj 0]).evaluate t h).2).1 = .error .attributeError := by
  have hl : data.length ≠ 0 := fun h => hd (List.length_eq_zero_iff.1 h)
  refine ⟨?_, ?_, ?_⟩
  · rw [Sig.evaluate, h0]
    simp [Obj.evaluate, ZOH.evaluate, pyDiv, hT, bind, Except.bind, hl, pure, Except.pure]
  · rw [Sig.evaluate, Sig.sumLoop_cons (fun i z hi => by cases hi), Sig.evaluate]
    dsimp only
    rw [Sig.sumLoop, h0]
    rfl
  · have : ((Sig.add [.constant c, .obj 0]).evaluate t h).2 = h.set 0 (.zoh ⟨none, T⟩) := by
      rw [Sig.evaluate, Sig.sumLoop_cons (fun i z hi => by cases hi), Sig.evaluate]
      dsimp only
      rw [Sig.sumLoop, h0]
      rfl
    rw [this, Sig.evaluate]
    simp [Heap.set, Obj.evaluate, ZOH.evaluate, pyDiv, hT, bind, Except.bind]

example : ∃ h : Heap, h 0 = .zoh ⟨some [1, 2], 1⟩ := ⟨fun _ => .zoh ⟨some [1, 2], 1⟩, rfl⟩

/-! ## C71: piecewise constant signals -/

/-- C71: a sum or product is declared piecewise constant exactly if all of its parts are. -/
theorem C71_combined (l : List Sig) (h : Heap) :
    ((Sig.add l).construct h = .ok (some true) ↔ ∀ s ∈ l, s.construct h = .ok (some true)) ∧
    ((Sig.mul l).construct h = .ok (some true) ↔ ∀ s ∈ l, s.construct h = .ok (some true)) := by
  constructor
  · rw [Sig.construct, Sig.flagLoop_true]; simp
  · rw [Sig.construct, Sig.flagLoop_true]; simp

example (h : Heap) : (Sig.add [.constant 1, .step 0 1]).construct h = .ok (some true) ∧
    (Sig.add [.constant 1, .sinusoidal 1 1 0 0]).construct h = .ok (some false) := by
  constructor <;> simp [Sig.construct, Sig.flagLoop]

/-- C71, the part that holds: a signal that is declared piecewise constant takes finitely many values, if it has no
RC response and no object with state among its parts.  Missing: RC responses, see `C71_rc_false`; signals with
state are covered by C56 and C70. -/
theorem C71_finite_partial (s : Sig) (hs : Stateless s) (hn : NoRC s) (h : Heap)
    (hf : s.construct h = .ok (some true)) : {r | ∃ t, (s.evaluate t h).1 = r}.Finite :=
  Sig.finite_values s hs hn h hf

example (h : Heap) : Stateless (.mul [.constant 2, .step 0 1]) ∧ NoRC (.mul [.constant 2, .step 0 1]) ∧
    (Sig.mul [.constant 2, .step 0 1]).construct h = .ok (some true) := by
  refine ⟨?_, ?_, ?_⟩
  · simp [Stateless, StatelessAll]
  · simp [NoRC, NoRCAll]
  · simp [Sig.construct, Sig.flagLoop]

/-- C71 is false for RC responses: declared piecewise constant, the response decays strictly. -/
theorem C71_rc_false (tau t0 a : ℝ) (htau : 0 < tau) (ha : 0 < a) (h : Heap) :
    (Sig.rc tau t0 a).construct h = .ok (some true) ∧
    ∀ t t', t0 ≤ t → t < t' → ∃ v v', ((Sig.rc tau t0 a).evaluate t h).1 = .ok v ∧
      ((Sig.rc tau t0 a).evaluate t' h).1 = .ok v' ∧ v' < v := by
  refine ⟨by simp [Sig.construct], ?_⟩
  intro t t' h0 h1
  refine ⟨_, _, by rw [Sig.evaluate], by rw [Sig.evaluate], ?_⟩
  unfold rcEval
  rw [if_neg (not_lt.2 h0), if_neg (not_lt.2 (h0.trans h1.le))]
  refine mul_lt_mul_of_pos_left (Real.exp_lt_exp.2 ?_) ha
  exact (div_lt_div_iff_of_pos_right htau).2 (by linarith)

example : (0 : ℝ) < 1 / 2 ∧ (0 : ℝ) < 3 := by norm_num

/-- C71 is false for Gaussian reference signals: they cannot be combined with other signals at all. -/
theorem C71_gaussian_false (r : Rand ℝ) (s : Sig) (h : Heap) (h0 : h 0 = .gaussian r)
    (hs : ∃ b, s.construct h = .ok (some b)) :
    (Sig.add [s, .obj 0]).construct h = .error .attributeError := by
  obtain ⟨b, hb⟩ := hs
  rw [Sig.construct, Sig.flagLoop, hb]
  dsimp only
  rw [Sig.flagLoop, Sig.construct, h0]

example (h : Heap) : ∃ b, (Sig.constant 3).construct h = .ok (some b) := ⟨true, by simp [Sig.construct]⟩

/-! ## C57: quadrature signals -/

/-- C57, the part that holds: the energy of a quadrature pair is that of its baseband signals times the squared
amplitude, for baseband signals that are functions of time.  Missing: random baseband signals, see
`C57_random_false`. -/
theorem C57_energy_partial (a w phase offset : ℝ) (i q : Sig) (hi : Stateless i) (hq : Stateless q) (t : ℝ)
    (h : Heap) (vi vq : ℝ) (hvi : (i.evaluate t h).1 = .ok vi) (hvq : (q.evaluate t h).1 = .ok vq) :
    ∃ x y, ((quadraturePair a w i q phase offset).1.evaluate t h).1 = .ok x ∧
      ((quadraturePair a w i q phase offset).2.evaluate t
        ((quadraturePair a w i q phase offset).1.evaluate t h).2).1 = .ok y ∧
      x ^ 2 + y ^ 2 = a ^ 2 * (vi ^ 2 + vq ^ 2) := by
  have ei : i.evaluate t h = (.ok vi, h) :=
    Prod.ext hvi (Sig.stateless_evaluate i hi t h h).1
  have eq : q.evaluate t h = (.ok vq, h) :=
    Prod.ext hvq (Sig.stateless_evaluate q hq t h h).1
  have e1 : ∀ p, (Sig.quad a w p i q).evaluate t h = (.ok (a * rotated p (w * t) vi vq), h) := by
    intro p
    rw [Sig.evaluate, ei]
    dsimp only
    rw [eq]
  refine ⟨a * rotated true (w * t) vi vq, a * rotated false (w * t) vi vq, ?_, ?_, ?_⟩
  · unfold quadraturePair
    rw [e1]
  · unfold quadraturePair
    dsimp only
    rw [e1]
    dsimp only
    rw [e1]
  · unfold rotated
    simp only [if_true]
    rw [if_neg (by simp)]
    have := Real.sin_sq_add_cos_sq (w * t)
    linear_combination (a ^ 2 * (vi ^ 2 + vq ^ 2)) * this

example (h : Heap) : Stateless (.sinusoidal 1 50 0 0) ∧ Stateless (.constant 2) ∧
    ∃ v, ((Sig.sinusoidal 1 50 0 0).evaluate 1 h).1 = .ok v := by
  refine ⟨?_, ?_, ?_⟩
  · simp [Stateless]
  · simp [Stateless]
  · exact ⟨_, by rw [Sig.evaluate]⟩

/-- C57: the modulated carrier never exceeds the root of half the baseband energy. -/
theorem C57_modulator (f : ℝ) (i q : Sig) (hi : Stateless i) (hq : Stateless q) (t : ℝ) (h : Heap) (vi vq : ℝ)
    (hvi : (i.evaluate t h).1 = .ok vi) (hvq : (q.evaluate t h).1 = .ok vq) :
    ∃ x, ((Sig.modulator i q f).evaluate t h).1 = .ok x ∧ x ^ 2 ≤ (vi ^ 2 + vq ^ 2) / 2 := by
  have ei : i.evaluate t h = (.ok vi, h) :=
    Prod.ext hvi (Sig.stateless_evaluate i hi t h h).1
  have eq : q.evaluate t h = (.ok vq, h) :=
    Prod.ext hvq (Sig.stateless_evaluate q hq t h h).1
  rw [Sig.evaluate, ei]
  dsimp only
  rw [eq]
  refine ⟨_, rfl, ?_⟩
  set c := Real.cos (2 * Real.pi * f * t) with hc
  set s := Real.sin (2 * Real.pi * f * t) with hs
  have hcs : s ^ 2 + c ^ 2 = 1 := Real.sin_sq_add_cos_sq _
  have h2 : (1 / Real.sqrt 2) ^ 2 = (1 : ℝ) / 2 := by
    rw [div_pow, one_pow, Real.sq_sqrt (by norm_num)]
  have : (1 / Real.sqrt 2 * (c * vi + s * vq)) ^ 2 = 1 / 2 * (c * vi + s * vq) ^ 2 := by
    rw [mul_pow, h2]
  rw [this]
  have h3 : (c * vi + s * vq) ^ 2 = (s ^ 2 + c ^ 2) * (vi ^ 2 + vq ^ 2) - (c * vq - s * vi) ^ 2 := by ring
  rw [h3, hcs]
  nlinarith [sq_nonneg (c * vq - s * vi)]

example (h : Heap) : ((Sig.constant 3).evaluate 7 h).1 = .ok 3 ∧ Stateless (.constant 3) := by
  simp [Sig.evaluate, Stateless]

/-- C57 is false for uniform random baseband signals: the two members of the pair see different draws at the same
time, and the energy of the pair is not the square of any value the baseband signal can take. -/
theorem C57_random_false : ∃ (r : Rand ℝ) (h : Heap) (x y : ℝ), h 0 = .uniform r ∧
    ((quadraturePair 1 (Real.pi / 40) (.obj 0) (.constant 0) 0 0).1.evaluate 10 h).1 = .ok x ∧
    ((quadraturePair 1 (Real.pi / 40) (.obj 0) (.constant 0) 0 0).2.evaluate 10
      ((quadraturePair 1 (Real.pi / 40) (.obj 0) (.constant 0) 0 0).1.evaluate 10 h).2).1 = .ok y ∧
    ∀ b i, x ^ 2 + y ^ 2 ≠ (r.draws b i) ^ 2 := by
  let r : Rand ℝ := ⟨fun _ i => i, 0, 0, 0, 1⟩
  have hr : r.uniformStep 10 = ⟨fun _ i => i, 0, 1, 1, 1⟩ := by
    unfold Rand.uniformStep
    rw [if_pos (by show (10 : ℝ) - 0 > 1; norm_num)]
    unfold Rand.advance
    dsimp only
    rw [if_neg (by show ¬ 0 + 1 = bufferSize; decide)]
    show Rand.mk _ _ (0 + 1) (0 + 1) _ = _
    norm_num [r]
  have hr' : (⟨fun _ i => i, 0, 1, 1, 1⟩ : Rand ℝ).uniformStep 10 = ⟨fun _ i => i, 0, 2, 2, 1⟩ := by
    unfold Rand.uniformStep
    rw [if_pos (by show (10 : ℝ) - 1 > 1; norm_num)]
    unfold Rand.advance
    dsimp only
    rw [if_neg (by show ¬ 1 + 1 = bufferSize; decide)]
    norm_num
  have hc : ∀ c : ℝ, ∀ h : Heap, (Sig.constant c).evaluate 10 h = (.ok c, h) := fun c h => by rw [Sig.evaluate]
  have e1 : ∀ p, (Sig.quad 1 (Real.pi / 40) p (.obj 0) (.constant 0)).evaluate 10 (fun _ => .uniform r) =
      (.ok (1 * rotated p (Real.pi / 40 * 10) 1 0),
        Heap.set (fun _ => .uniform r) 0 (.uniform ⟨fun _ i => i, 0, 1, 1, 1⟩)) := by
    intro p
    rw [Sig.evaluate, Sig.evaluate]
    simp only [Obj.evaluate, hr, Rand.value, hc]
    norm_num
  have e2 : ∀ p, ((Sig.quad 1 (Real.pi / 40) p (.obj 0) (.constant 0)).evaluate 10
      (Heap.set (fun _ => .uniform r) 0 (.uniform ⟨fun _ i => i, 0, 1, 1, 1⟩))).1 =
      .ok (1 * rotated p (Real.pi / 40 * 10) 2 0) := by
    intro p
    rw [Sig.evaluate, Sig.evaluate]
    simp only [Heap.set, Function.update_self, Obj.evaluate, hr', Rand.value, hc]
    norm_num
  have hang : Real.pi / 40 * 10 = Real.pi / 4 := by ring
  refine ⟨r, fun _ => .uniform r, 1 * rotated true (Real.pi / 40 * 10) 1 0,
    1 * rotated false (Real.pi / 40 * 10) 2 0, rfl, ?_, ?_, ?_⟩
  · unfold quadraturePair
    rw [e1]
  · unfold quadraturePair
    dsimp only
    rw [e1]
    exact e2 false
  · intro b i
    have hd : r.draws b i = (i : ℝ) := rfl
    rw [hd, hang]
    unfold rotated
    simp only [if_true]
    rw [if_neg (by simp), Real.cos_pi_div_four, Real.sin_pi_div_four]
    intro h
    have h2 : Real.sqrt 2 ^ 2 = 2 := Real.sq_sqrt (by norm_num)
    have h3 : (5 : ℝ) = 2 * (i : ℝ) ^ 2 := by linear_combination 2 * h - (5 / 2) * h2
    have h4 : 5 = 2 * i ^ 2 := by exact_mod_cast h3
    omega

/-- C74, the part that holds: without phase and offset, and with the default baseband signals, the pair is a cosine
and a sine. -/
theorem C74_default_partial (a w t : ℝ) (h : Heap) :
    ((quadraturePair a w (.constant 1) (.constant 0) 0 0).1.evaluate t h).1 = .ok (a * Real.cos (w * t)) ∧
    ((quadraturePair a w (.constant 1) (.constant 0) 0 0).2.evaluate t h).1 = .ok (a * Real.sin (w * t)) := by
  constructor <;>
  · unfold quadraturePair
    dsimp only
    rw [Sig.evaluate, Sig.evaluate]
    dsimp only
    rw [Sig.evaluate]
    dsimp only
    simp [rotated]

/-- C74 is false: with phase `pi` or with offset 1 the pair still starts from the amplitude, instead of minus the
amplitude and the amplitude plus 1. -/
theorem C74_phase_offset_false (a w : ℝ) (h : Heap) :
    ((quadraturePair a w (.constant 1) (.constant 0) Real.pi 0).1.evaluate 0 h).1 = .ok a ∧
    a * Real.cos (w * 0 + Real.pi) = -a ∧
    ((quadraturePair a w (.constant 1) (.constant 0) 0 1).1.evaluate 0 h).1 = .ok a := by
  have h1 := (C74_default_partial a w 0 h).1
  rw [mul_zero, Real.cos_zero, mul_one] at h1
  refine ⟨h1, ?_, h1⟩
  rw [mul_zero, zero_add, Real.cos_pi, mul_neg_one]

/-! ## C69: amplitude and offset of sinusoids and pulses -/

/-- C69: a sinusoid stays within its amplitude of its offset, and repeats after one over its frequency. -/
theorem C69_sinusoidal (a f p o : ℝ) (h : Heap) :
    (∀ t, ∃ v, ((Sig.sinusoidal a f p o).evaluate t h).1 = .ok v ∧ |v - o| ≤ |a|) ∧
    (f ≠ 0 → ∀ t, ((Sig.sinusoidal a f p o).evaluate (t + 1 / f) h).1 =
      ((Sig.sinusoidal a f p o).evaluate t h).1) := by
  constructor
  · intro t
    refine ⟨_, by rw [Sig.evaluate], ?_⟩
    unfold sinusoidal
    rw [add_sub_cancel_right, abs_mul]
    exact mul_le_of_le_one_right (abs_nonneg _) (Real.abs_sin_le_one _)
  · intro hf t
    rw [Sig.evaluate, Sig.evaluate]
    unfold sinusoidal
    have : 2 * Real.pi * f * (t + 1 / f) + p = 2 * Real.pi * f * t + p + 2 * Real.pi := by field_simp; ring
    rw [this, Real.sin_add_two_pi]

example : (50 : ℝ) ≠ 0 := by norm_num

theorem npSinc_eq (x : ℝ) : npSinc x = Real.sinc (Real.pi * x) := by
  unfold npSinc
  by_cases h : x = 0
  · rw [if_pos h, h, mul_zero, Real.sinc_zero]
  · rw [if_neg h, Real.sinc_of_ne_zero (mul_ne_zero Real.pi_ne_zero h)]

/-- C69: a sinc pulse stays within its amplitude of its offset, has its peak at `t0`, and is back at its offset at
all other multiples of half the inverse bandwidth. -/
theorem C69_sinc (a b t0 o : ℝ) (h : Heap) :
    (∀ t, ∃ v, ((Sig.sinc a b t0 o).evaluate t h).1 = .ok v ∧ |v - o| ≤ |a|) ∧
    ((Sig.sinc a b t0 o).evaluate t0 h).1 = .ok (a + o) ∧
    (b ≠ 0 → ∀ k : ℤ, k ≠ 0 → ((Sig.sinc a b t0 o).evaluate (t0 + k / (2 * b)) h).1 = .ok o) := by
  refine ⟨?_, ?_, ?_⟩
  · intro t
    refine ⟨_, by rw [Sig.evaluate], ?_⟩
    unfold sincPulse
    rw [add_sub_cancel_right, abs_mul, npSinc_eq]
    exact mul_le_of_le_one_right (abs_nonneg _) (Real.abs_sinc_le_one _)
  · rw [Sig.evaluate]
    unfold sincPulse npSinc
    rw [sub_self, mul_zero, if_pos rfl, mul_one]
  · intro hb k hk
    rw [Sig.evaluate]
    unfold sincPulse
    have h1 : 2 * b * (t0 + k / (2 * b) - t0) = k := by field_simp; ring
    have hk' : (k : ℝ) ≠ 0 := by exact_mod_cast hk
    rw [h1]
    unfold npSinc
    rw [if_neg hk', mul_comm Real.pi, Real.sin_int_mul_pi, zero_div, mul_zero, zero_add]

example : (3 : ℝ) ≠ 0 ∧ (2 : ℤ) ≠ 0 := by norm_num

/-! ## C72: the numerical, multi-precision and symbolic forms of a signal -/

/-- C72, the part that holds: the multi-precision form equals the numerical form for constants, sinusoids, ramps
and clocks at all times, and for step and RC responses after their start, and the symbolic form does so where it
exists.  Missing: sinc pulses, return-to-zero pulses, and times before the start
(`C72_before_start_false`, `C72_pulse_false`, `C72_sinc_false`). -/
theorem C72_forms_partial (t : ℝ) (h : Heap) :
    (∀ c, (Sig.constant c).mpmath t h = ((Sig.constant c).evaluate t h).1 ∧
      ∃ f, (Sig.constant c).symbolic = some f ∧ ∀ φ, f φ t = ((Sig.constant c).evaluate t h).1) ∧
    (∀ a f p o, (Sig.sinusoidal a f p o).mpmath t h = ((Sig.sinusoidal a f p o).evaluate t h).1 ∧
      ∃ g, (Sig.sinusoidal a f p o).symbolic = some g ∧
        g 0 t = ((Sig.sinusoidal a f p o).evaluate t h).1) ∧
    (∀ r, (Sig.ramp r).mpmath t h = ((Sig.ramp r).evaluate t h).1 ∧
      ∃ f, (Sig.ramp r).symbolic = some f ∧ ∀ φ, f φ t = ((Sig.ramp r).evaluate t h).1) ∧
    (∀ c, (Sig.clock c).mpmath t h = ((Sig.clock c).evaluate t h).1) ∧
    (∀ t0 a, t0 ≤ t → (Sig.step t0 a).mpmath t h = ((Sig.step t0 a).evaluate t h).1 ∧
      ∃ f, (Sig.step t0 a).symbolic = some f ∧ ∀ φ, f φ t = ((Sig.step t0 a).evaluate t h).1) ∧
    (∀ tau t0 a, tau ≠ 0 → t0 ≤ t → (Sig.rc tau t0 a).mpmath t h = ((Sig.rc tau t0 a).evaluate t h).1 ∧
      ∃ f, (Sig.rc tau t0 a).symbolic = some f ∧ ∀ φ, f φ t = ((Sig.rc tau t0 a).evaluate t h).1) := by
  refine ⟨fun c => ⟨?_, _, rfl, fun φ => ?_⟩, fun a f p o => ⟨?_, _, rfl, ?_⟩, fun r => ⟨?_, _, rfl, fun φ => ?_⟩,
    fun c => ?_, fun t0 a h0 => ⟨?_, _, rfl, fun φ => ?_⟩, fun tau t0 a _ h0 => ⟨?_, _, rfl, fun φ => ?_⟩⟩
  · rw [Sig.mpmath] <;> simp
  · rw [Sig.evaluate]
  · rw [Sig.mpmath, Sig.evaluate]; rfl
  · rw [Sig.evaluate]; simp [sinusoidal]
  · rw [Sig.mpmath] <;> simp
  · rw [Sig.evaluate]
  · rw [Sig.mpmath] <;> simp
  · rw [Sig.mpmath, Sig.evaluate]; unfold stepEval; rw [if_pos h0]
  · rw [Sig.evaluate]; unfold stepEval; rw [if_pos h0]
  · rw [Sig.mpmath, Sig.evaluate]; unfold rcEval; rw [if_neg (not_lt.2 h0)]
  · rw [Sig.evaluate]; unfold rcEval; rw [if_neg (not_lt.2 h0)]

example : (1 : ℝ) ≤ 2 ∧ (1 / 2 : ℝ) ≠ 0 := by norm_num

/-- C72 is false before the start of a delayed response: the numerical form is 0, the other forms are not. -/
theorem C72_before_start_false (t t0 tau a : ℝ) (ht : t < t0) (ha : a ≠ 0) (h : Heap) :
    ((Sig.step t0 a).evaluate t h).1 = .ok 0 ∧ (Sig.step t0 a).mpmath t h ≠ .ok 0 ∧
    ((Sig.rc tau t0 a).evaluate t h).1 = .ok 0 ∧ (Sig.rc tau t0 a).mpmath t h ≠ .ok 0 := by
  refine ⟨?_, ?_, ?_, ?_⟩
  · rw [Sig.evaluate]; unfold stepEval; rw [if_neg (not_le.2 ht)]
  · rw [Sig.mpmath]
    intro h; exact ha (Except.ok.inj h)
  · rw [Sig.evaluate]; unfold rcEval; rw [if_pos ht]
  · rw [Sig.mpmath]
    intro h
    exact mul_ne_zero ha (Real.exp_ne_zero _) (Except.ok.inj h)

example : (0 : ℝ) < 1 ∧ (2 : ℝ) ≠ 0 := by norm_num

/-- C72 is false for pulses: after its end the numerical form of a return-to-zero pulse is 0, the other forms keep
its amplitude for ever. -/
theorem C72_pulse_false (t t0 t1 a : ℝ) (ht : t1 ≤ t) (h : Heap) :
    ((Sig.nrz t0 t1 a).evaluate t h).1 = .ok 0 ∧ (Sig.nrz t0 t1 a).mpmath t h = .ok a ∧
    ∃ f, (Sig.nrz t0 t1 a).symbolic = some f ∧ ∀ φ, f φ t = .ok a := by
  refine ⟨?_, ?_, _, rfl, fun φ => rfl⟩
  · rw [Sig.evaluate]; unfold nrzEval; rw [if_neg (not_lt.2 ht)]
  · rw [Sig.mpmath]

example : (1 : ℝ) ≤ 2 := by norm_num

/-- C72 is false for sinc pulses: the multi-precision form raises at the peak and drops the offset elsewhere; the
symbolic form has its zeros in other places. -/
theorem C72_sinc_false (h : Heap) :
    (∀ a b t0 o, (Sig.sinc a b t0 o).mpmath t0 h = .error .zeroDivision) ∧
    (∀ a b t0 o t, b ≠ 0 → t ≠ t0 → ∃ v, ((Sig.sinc a b t0 o).evaluate t h).1 = .ok v ∧
      (Sig.sinc a b t0 o).mpmath t h = .ok (v - o)) ∧
    ∃ f, (Sig.sinc 1 1 0 0).symbolic = some f ∧ ((Sig.sinc 1 1 0 0).evaluate (1 / 2) h).1 = .ok 0 ∧
      f 0 (1 / 2) ≠ .ok 0 := by
  refine ⟨?_, ?_, _, rfl, ?_, ?_⟩
  · intro a b t0 o
    rw [Sig.mpmath, if_pos (by ring)]
  · intro a b t0 o t hb ht
    refine ⟨_, by rw [Sig.evaluate], ?_⟩
    have hne : 2 * b * (t - t0) ≠ 0 := mul_ne_zero (mul_ne_zero two_ne_zero hb) (sub_ne_zero.2 ht)
    have hne' : 2 * Real.pi * b * (t - t0) ≠ 0 := by
      have := mul_ne_zero Real.pi_ne_zero hne
      intro h; apply this; rw [← h]; ring
    rw [Sig.mpmath, if_neg hne']
    unfold sincPulse npSinc
    rw [if_neg hne, add_sub_cancel_right]
    have : Real.pi * (2 * b * (t - t0)) = 2 * Real.pi * b * (t - t0) := by ring
    rw [this, mul_div_assoc]
  · rw [Sig.evaluate]
    unfold sincPulse npSinc
    norm_num
  · have h1 : (2 * 1 * ((1 : ℝ) / 2 - 0)) = 1 := by norm_num
    rw [h1, Real.sinc_of_ne_zero one_ne_zero]
    intro h
    have := Except.ok.inj h
    have hp := Real.sin_pos_of_pos_of_lt_pi (x := 1) one_pos (by have := Real.two_le_pi; linarith)
    linarith

example : (1 : ℝ) ≠ 0 ∧ (2 : ℝ) ≠ 1 := by norm_num

end Cbadc.Signal
