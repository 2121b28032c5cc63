import Verif.Lemmas.LCNet
import Verif.Lemmas.LCGains
import Mathlib.Tactic.NormNum

/-!
# C119: what the LC frontend's models and netlist describe; C120: its control gains
-/

namespace Cbadc.Circuit

open Spec Analog

variable {ids : String → ℕ → String}

section

variable {K : Type*} [Field K] [LinearOrder K] (solve : ℕ → K → (K → (ℕ → K) → ℕ → K) → ℕ → K)
  (glob : Sys K → (ℕ → ℕ → K) × (ℕ → ℕ → K) × (ℕ → ℕ → K)) (M : ℕ) (L C gm fc Rin : K)

/-- **C119**, which arguments the constructor accepts. -/
theorem C119_accepts :
    (∃ f, lcFrontend ids solve glob M L C gm fc Rin = .ok f) ↔ M ≠ 0 ∧ Rin * C ≠ 0 ∧ fc ≠ 0 := by
  constructor
  · rintro ⟨f, hf⟩
    unfold lcFrontend at hf
    refine ⟨?_, ?_, ?_⟩
    · intro h
      rw [if_pos h] at hf
      cases hf
    · intro h
      by_cases hM : M = 0
      · rw [if_pos hM] at hf
        cases hf
      · rw [if_neg hM, if_pos h] at hf
        cases hf
    · intro h
      by_cases hM : M = 0
      · rw [if_pos hM] at hf
        cases hf
      · by_cases hR : Rin * C = 0
        · rw [if_neg hM, if_pos hR] at hf
          cases hf
        · rw [if_neg hM, if_neg hR, if_pos h] at hf
          cases hf
  · rintro ⟨h1, h2, h3⟩
    obtain ⟨s, h, _⟩ := lcFrontend_eq (ids := ids) solve glob M L C gm fc Rin h1 h2 h3
    exact ⟨_, h⟩

/-- **C120**, the argument `gm` has no effect. -/
theorem C120_gm (gm' : K) :
    lcFrontend ids solve glob M L C gm fc Rin = lcFrontend ids solve glob M L C gm' fc Rin := by
  by_cases hM : M = 0
  · simp [lcFrontend, hM]
  by_cases hR : Rin * C = 0
  · simp [lcFrontend, hM, hR]
  by_cases hf : fc = 0
  · simp [lcFrontend, hM, hR, hf]
  obtain ⟨s, h, hs, _⟩ := lcFrontend_eq (ids := ids) solve glob M L C gm fc Rin hM hR hf
  obtain ⟨s', h', hs', _⟩ := lcFrontend_eq (ids := ids) solve glob M L C gm' fc Rin hM hR hf
  rw [hs, Except.ok.injEq] at hs'
  rw [h, h', hs']

end

variable (solve : ℕ → ℝ → (ℝ → (ℕ → ℝ) → ℕ → ℝ) → ℕ → ℝ)
  (glob : Sys ℝ → (ℕ → ℕ → ℝ) × (ℕ → ℕ → ℝ) × (ℕ → ℕ → ℝ)) (M : ℕ) (L C gm fc Rin : ℝ)

/-- A behaviour of the netlist: the devices obey their laws, the control draws no current from the states, and Kirchhoff's
law holds at both nodes of every capacitor. -/
structure Behaves (M : ℕ) (net : List (Line ℝ)) (law : Law) (sol : Sol) : Prop where
  senses : ∀ v i, law "digital_control" v i → Senses M 1 M i
  obeys : ∀ l ∈ net, Obeys law sol l
  kirchhoff : ∀ m < M, ∀ p, Kirchhoff sol net (fmt "X" m (sfx p))

/-- **C119**, the extended model: it has the sizes of a ladder with `M` capacitors and `M - 1` inductors, and its state
equation is that of the ladder with the input resistance `Rin`, the inductances `2 L` and its own gains. -/
theorem C119_model (hM : M ≠ 0) (hRC : Rin * C ≠ 0) (hfc : fc ≠ 0) :
    ∃ f, lcFrontend ids solve glob M L C gm fc Rin = .ok f ∧
      f.extended.N = 2 * M - 1 ∧ f.extended.L = 1 ∧ f.extended.M = M ∧
      ∃ G, f.extended.Gamma = some G ∧ ∀ x u s,
        StateEquation f.extended.N f.extended.L f.extended.M f.extended.A f.extended.B G x (fun _ => u) s ↔
        Ladder M (2 * L) C Rin (fun m => G m m) x (fun k => x (M + k)) u s := by
  obtain ⟨c, h, _⟩ := lcFrontend_eq (ids := ids) solve glob M L C gm fc Rin hM hRC hfc
  refine ⟨_, h, rfl, rfl, rfl, _, rfl, fun x u s => ?_⟩
  have e : (fun m => lcGamma (lcGain solve M L C fc Rin) m m) = lcGain solve M L C fc Rin := by
    funext m
    exact if_pos rfl
  rw [e]
  exact lcExt_ladder glob M L C Rin _ (left_ne_zero_of_mul hRC) (right_ne_zero_of_mul hRC) x u s

/-- **C119**, the netlist: its behaviours, seen between the nodes of each capacitor and in the upper inductors, are those of
the ladder with *twice* the input resistance and *half* the magnitudes of the model's gains.  Missing: the netlist does not
realise the model (`C119_false`, `C119_reduced_false`). -/
theorem C119_circuit_partial (hL : L ≠ 0) (hC : 0 < C) (f : LCFrontend ℝ)
    (hf : lcFrontend ids solve glob M L C gm fc Rin = .ok f) (v i : ℕ → ℝ → ℝ) (u : ℝ → ℝ) (s : ℕ → ℝ → ℝ) :
    ∃ G, f.extended.Gamma = some G ∧
      (Ladder M (2 * L) C (2 * Rin) (fun m => |G m m| / 2) v i u s ↔
      ∃ law sol, Behaves M (f.circuit.netlist (Obj.name ids)) law sol ∧
        (∀ m < M, diff sol (fmt "X" m "_P") (fmt "X" m "_N") = v m) ∧
        (∀ k, k + 1 < M → sol.i (fmt "Lp_" k "") 0 = i k) ∧
        diff sol (fmt "IN" 0 "_P") (fmt "IN" 0 "_N") = u ∧
        ∀ m < M, diff sol (fmt "OUT" m "_P") (fmt "OUT" m "_N") = s m) := by
  obtain ⟨hM, hRC, hfc⟩ := (C119_accepts solve glob M L C gm fc Rin).mp ⟨f, hf⟩
  have hR := left_ne_zero_of_mul hRC
  obtain ⟨c, h, _, hn, hnd⟩ := lcFrontend_eq (ids := ids) solve glob M L C gm fc Rin hM hRC hfc
  rw [h, Except.ok.injEq] at hf
  subst hf
  refine ⟨_, rfl, ?_⟩
  dsimp only
  rw [← netlist_insts (Obj.name ids), hn] at hnd
  have e : (fun m => |lcGamma (lcGain solve M L C fc Rin) m m| / 2) = fun m => |lcGain solve M L C fc Rin m| / 2 := by
    funext m
    rw [lcGamma, if_pos rfl]
  rw [e, hn]
  constructor
  · intro hl
    obtain ⟨law, sol, h1, h2, h3, h4, h5, h6, h7⟩ := lcNet_realisable M L C Rin _ hL hC hR hnd v i u s hl
    exact ⟨law, sol, ⟨h1, h2, h3⟩, fun m _ => h4 m, fun k _ => h5 k, h6, fun m _ => h7 m⟩
  · rintro ⟨law, sol, ⟨h1, h2, h3⟩, h4, h5, h6, h7⟩
    obtain ⟨g1, g2⟩ := lcNet_ladder M L C Rin _ hL hC hR law sol h1 h2 h3
    refine ⟨fun m hm t => ?_, fun k hk t => ?_⟩
    · have := g1 m hm t
      dsimp only at this
      rw [h4 m hm, h4 0 (by omega), h6, h7 m hm] at this
      refine this.congr_deriv ?_
      congr 3
      · by_cases h0 : m = 0
        · rw [if_pos h0, if_pos h0]
        · rw [if_neg h0, if_neg h0, h5 (m - 1) (by omega)]
      · by_cases h0 : m + 1 < M
        · rw [if_pos h0, if_pos h0, h5 m h0]
        · rw [if_neg h0, if_neg h0]
    · have := g2 k hk t
      dsimp only at this
      rw [h4 k (by omega), h4 (k + 1) hk, h5 k hk] at this
      exact this

/-- A ramp of all the voltages of a ladder. -/
theorem ladder_ramp (R : ℝ) (hR : R ≠ 0) (hC : C ≠ 0) (H : ℝ) (g : ℕ → ℝ) :
    Ladder M H C R g (fun _ t => t) (fun k _ => C * ((M : ℝ) - 1 - k)) (fun t => t + R * C * M) (fun _ _ => 0) := by
  refine ⟨fun m hm t => ?_, fun k _ t => ?_⟩
  · refine (hasDerivAt_id t).congr_deriv ?_
    have hl : ¬ m + 1 < M → (M : ℝ) = m + 1 := by
      intro h
      have : M = m + 1 := by omega
      rw [this]
      push_cast
      ring
    by_cases h0 : m = 0
    · subst h0
      by_cases h1 : 0 + 1 < M
      · rw [if_pos rfl, if_pos h1]
        push_cast
        field_simp
        ring
      · rw [if_pos rfl, if_neg h1, hl h1]
        push_cast
        field_simp
        ring
    · dsimp only
      rw [if_neg h0, Nat.cast_sub (show 1 ≤ m by omega)]
      by_cases h1 : m + 1 < M
      · rw [if_pos h1]
        push_cast
        field_simp
        ring
      · rw [if_neg h1, hl h1]
        push_cast
        field_simp
        ring
  · refine (hasDerivAt_const t _).congr_deriv ?_
    simp

/-- **C119 is false** of the netlist: for no accepted parameters do its behaviours satisfy the state equation of the
extended model.  (The input sees two resistors `Rin`, the model one.) -/
theorem C119_false (hL : L ≠ 0) (hC : 0 < C) (f : LCFrontend ℝ)
    (hf : lcFrontend ids solve glob M L C gm fc Rin = .ok f) :
    ∃ law sol G, Behaves M (f.circuit.netlist (Obj.name ids)) law sol ∧ f.extended.Gamma = some G ∧
      ¬ StateEquation f.extended.N f.extended.L f.extended.M f.extended.A f.extended.B G
        (fun n => if n < M then diff sol (fmt "X" n "_P") (fmt "X" n "_N") else sol.i (fmt "Lp_" (n - M) "") 0)
        (fun _ => diff sol (fmt "IN" 0 "_P") (fmt "IN" 0 "_N"))
        (fun m => diff sol (fmt "OUT" m "_P") (fmt "OUT" m "_N")) := by
  obtain ⟨hM, hRC, hfc⟩ := (C119_accepts solve glob M L C gm fc Rin).mp ⟨f, hf⟩
  have hR := left_ne_zero_of_mul hRC
  obtain ⟨G, hG, hiff⟩ := C119_circuit_partial (ids := ids) solve glob M L C gm fc Rin hL hC f hf (fun _ t => t)
    (fun k _ => C * ((M : ℝ) - 1 - k)) (fun t => t + 2 * Rin * C * M) (fun _ _ => 0)
  obtain ⟨law, sol, hb, hv, hi, hu, hs⟩ := hiff.mp (ladder_ramp M C (2 * Rin) (mul_ne_zero two_ne_zero hR) hC.ne' _ _)
  refine ⟨law, sol, G, hb, hG, ?_⟩
  obtain ⟨f', hf', _, _, _, G', hG', hm⟩ := C119_model (ids := ids) solve glob M L C gm fc Rin hM hRC hfc
  rw [hf, Except.ok.injEq] at hf'
  subst hf'
  rw [hG, Option.some.injEq] at hG'
  subst hG'
  rw [hm]
  rintro ⟨h1, _⟩
  have h := h1 0 (by omega) 0
  simp only [if_pos (Nat.pos_of_ne_zero hM), if_true] at h
  rw [hv 0 (by omega), hu, hs 0 (by omega)] at h
  have h2 := h.unique (hasDerivAt_id 0)
  have hM1 : (1 : ℝ) ≤ M := by exact_mod_cast Nat.pos_of_ne_zero hM
  by_cases h3 : 0 + 1 < M
  · rw [if_pos h3, if_neg (by omega), show M + 0 - M = 0 by omega, hi 0 h3] at h2
    have h4 : ((0 + 2 * Rin * C * M - 0) / Rin - C * ((M : ℝ) - 1 - (0 : ℕ))) / C + G 0 0 * 0 = 1 := h2
    have h5 : ((0 + 2 * Rin * C * M - 0) / Rin - C * ((M : ℝ) - 1 - (0 : ℕ))) / C + G 0 0 * 0 = M + 1 := by
      push_cast
      have hC' := hC.ne'
      field_simp
      ring
    linarith
  · rw [if_neg h3] at h2
    have h4 : ((0 + 2 * Rin * C * M - 0) / Rin - 0) / C + G 0 0 * 0 = 1 := h2
    have h5 : ((0 + 2 * Rin * C * M - 0) / Rin - 0) / C + G 0 0 * 0 = 2 * M := by
      have hC' := hC.ne'
      field_simp
      ring
    linarith

/-- **C119 is false** of the exposed model as well: it drops the inductor currents, so for `M ≥ 2` not even the solutions of
the extended model satisfy its state equation. -/
theorem C119_reduced_false (hM : 2 ≤ M) (hC : C ≠ 0) (f : LCFrontend ℝ)
    (hf : lcFrontend ids solve glob M L C gm fc Rin = .ok f) :
    ∃ x u s G G', f.extended.Gamma = some G ∧ f.reduced.Gamma = some G' ∧
      StateEquation f.extended.N f.extended.L f.extended.M f.extended.A f.extended.B G x u s ∧
      f.reduced.N = M ∧
      ¬ StateEquation f.reduced.N f.reduced.L f.reduced.M f.reduced.A f.reduced.B G' x u s := by
  obtain ⟨hM', hRC, hfc⟩ := (C119_accepts solve glob M L C gm fc Rin).mp ⟨f, hf⟩
  have hR := left_ne_zero_of_mul hRC
  obtain ⟨c, h, _⟩ := lcFrontend_eq (ids := ids) solve glob M L C gm fc Rin hM' hRC hfc
  rw [h, Except.ok.injEq] at hf
  subst hf
  refine ⟨fun n t => if n < M then t else C * ((M : ℝ) - 1 - (n - M : ℕ)), fun _ t => t + Rin * C * M, fun _ _ => 0,
    _, _, rfl, rfl, ?_, rfl, ?_⟩
  · refine (lcExt_ladder glob M L C Rin _ hR hC _ _ _).mpr ?_
    have hl := ladder_ramp M C Rin hR hC (2 * L) (lcGain solve M L C fc Rin)
    refine ⟨fun m hm t => ?_, fun k hk t => ?_⟩
    · have := hl.1 m hm t
      simp only [if_pos hm, if_pos (show 0 < M by omega), show ∀ k, ¬ M + k < M from fun k => by omega, if_false,
        Nat.add_sub_cancel_left]
      exact this
    · have := hl.2 k hk t
      simp only [if_pos (show k < M by omega), if_pos hk, show ∀ k, ¬ M + k < M from fun k => by omega, if_false,
        Nat.add_sub_cancel_left]
      exact this
  · intro hs
    have h1 := hs 1 (show 1 < M by omega) 0
    simp only [if_pos (show 1 < M by omega)] at h1
    have h2 := h1.unique (hasDerivAt_id 0)
    have z1 : ∑ j ∈ Finset.range M, lcA M L C Rin 1 j * (if j < M then (0 : ℝ) else C * ((M : ℝ) - 1 - (j - M : ℕ))) = 0 :=
      Finset.sum_eq_zero fun j hj => by rw [if_pos (Finset.mem_range.mp hj), mul_zero]
    have z2 : ∑ l ∈ Finset.range 1, lcB C Rin 1 l * (0 + Rin * C * M) = 0 := by
      rw [Finset.sum_range_one, lcB, if_neg (by omega), zero_mul]
    change ∑ j ∈ Finset.range M, lcA M L C Rin 1 j * _ + ∑ l ∈ Finset.range 1, lcB C Rin 1 l * _ +
      ∑ m ∈ Finset.range M, _ * (0 : ℝ) = 1 at h2
    simp only [mul_zero, Finset.sum_const_zero, add_zero] at h2
    rw [z1] at h2
    simp [lcB] at h2

/-- The least-squares fit of one response by another. -/
theorem least_squares (N : ℕ) (y a : ℕ → ℝ) {g : ℝ}
    (hg : g = (∑ n ∈ Finset.range N, y n * a n) / ∑ n ∈ Finset.range N, a n * a n)
    (ha : 0 < ∑ n ∈ Finset.range N, a n * a n) {γ : ℝ} (hγ : γ ≠ g) :
    ∑ n ∈ Finset.range N, (y n - g * a n) ^ 2 < ∑ n ∈ Finset.range N, (y n - γ * a n) ^ 2 := by
  have key : ∀ c : ℝ, ∑ n ∈ Finset.range N, (y n - c * a n) ^ 2 = ∑ n ∈ Finset.range N, y n ^ 2
      - 2 * c * ∑ n ∈ Finset.range N, y n * a n + c ^ 2 * ∑ n ∈ Finset.range N, a n * a n := by
    intro c
    rw [Finset.mul_sum, Finset.mul_sum, ← Finset.sum_sub_distrib, ← Finset.sum_add_distrib]
    exact Finset.sum_congr rfl fun n _ => by ring
  have hg' : ∑ n ∈ Finset.range N, y n * a n = g * ∑ n ∈ Finset.range N, a n * a n := by
    rw [hg, div_mul_cancel₀ _ ha.ne']
  rw [key, key, hg']
  have : 0 < (γ - g) ^ 2 * ∑ n ∈ Finset.range N, a n * a n :=
    mul_pos (by have := sub_ne_zero.mpr hγ; positivity) ha
  nlinarith

/-- **C120**, the gains: with an exact solver, control `m` gets the gain with which the response to a drive of capacitor `m`
comes closest, in the sense of least squares and at the end of a period, to the response to a unit step at the input; the
gain of the first control is the input gain. -/
theorem C120_gains (hs : ExactSolver solve) (hM : M ≠ 0) (hL : 0 < L) (hC : 0 < C) (hR : 0 < Rin) (hfc : 0 < fc) :
    ∃ f, lcFrontend ids solve glob M L C gm fc Rin = .ok f ∧ ∃ G, f.extended.Gamma = some G ∧
      ∃ y, EndState f.extended.N (1 / fc)
        (fun _ x n => ∑ j ∈ Finset.range f.extended.N, f.extended.A n j * x j + f.extended.B n 0) y ∧
      ∀ m < M, ∃ a, EndState f.extended.N (1 / fc)
        (fun _ x n => ∑ j ∈ Finset.range f.extended.N, f.extended.A n j * x j + if n = m then 1 else 0) a ∧
        (∀ γ, γ ≠ G m m → ∑ n ∈ Finset.range f.extended.N, (y n - G m m * a n) ^ 2 <
          ∑ n ∈ Finset.range f.extended.N, (y n - γ * a n) ^ 2) ∧
        (m = 0 → G m m = f.extended.B 0 0 ∧ ∀ n < f.extended.N, y n = G m m * a n) := by
  have hRC : Rin * C ≠ 0 := (mul_pos hR hC).ne'
  have hT : 0 < 1 / fc := one_div_pos.mpr hfc
  obtain ⟨c, h, _⟩ := lcFrontend_eq (ids := ids) solve glob M L C gm fc Rin hM hRC hfc.ne'
  have fin : ∀ t, 0 < t → ∀ x n, inputDerivative (lcBase M L C 0 Rin) t x n =
      dot (2 * M - 1) (lcA M L C Rin) x n + lcB C Rin n 0 := by
    intro t ht x n
    change dot (2 * M - 1) (lcA M L C Rin) x n + lcB C Rin n 0 * lcStep t = _
    rw [lcStep, if_pos ht, mul_one]
  have hin : ∃ e, EndState (2 * M - 1) (1 / fc) (inputDerivative (lcBase M L C 0 Rin)) e :=
    endState_exists _ (lcA M L C Rin) (fun n => lcB C Rin n 0) _ _ fun t ht x n _ => fin t ht.1 x n
  have hct : ∀ m, ∃ e, EndState (2 * M - 1) (1 / fc) (controlDerivative (lcBase M L C 0 Rin) m) e := fun m =>
    endState_exists _ (lcA M L C Rin) (fun n => if n = m then 1 else 0) _ _ fun t ht x n _ => rfl
  let y := solve (2 * M - 1) (1 / fc) (inputDerivative (lcBase M L C 0 Rin))
  let a := fun m => solve (2 * M - 1) (1 / fc) (controlDerivative (lcBase M L C 0 Rin) m)
  have hG : ∀ m, lcGamma (lcGain solve M L C fc Rin) m m =
      (∑ n ∈ Finset.range (2 * M - 1), y n * a m n) / ∑ n ∈ Finset.range (2 * M - 1), a m n * a m n :=
    fun m => if_pos rfl
  have hpos : ∀ m < M, 0 < ∑ n ∈ Finset.range (2 * M - 1), a m n * a m n := by
    intro m hm
    obtain ⟨n, hn, hne⟩ := lc_response_ne M L C Rin (1 / fc) hL hC hR hT m hm _ (fun _ _ _ => rfl) (hs _ _ _ (hct m))
    exact Finset.sum_pos' (fun k _ => mul_self_nonneg _) ⟨n, Finset.mem_range.mpr hn, mul_self_pos.mpr hne⟩
  refine ⟨_, h, _, rfl, y, ?_, ?_⟩
  · obtain ⟨x, hx, he⟩ := hs _ _ _ hin
    refine ⟨x, fun n hn => ⟨(hx n hn).1, (hx n hn).2.1, fun t ht => ?_⟩, he⟩
    refine ((hx n hn).2.2 t ht).congr_deriv ?_
    rw [fin t ht.1]
    rfl
  · intro m hm
    have ha := hs _ _ _ (hct m)
    refine ⟨a m, ha, ?_, ?_⟩
    · intro γ hγ
      exact least_squares (2 * M - 1) y (a m) (hG m) (hpos m hm) hγ
    · rintro rfl
      have hy : ∀ n < 2 * M - 1, y n = 1 / (Rin * C) * a 0 n := by
        refine endState_unique _ (lcA M L C Rin) (fun n => if n = 0 then 1 else 0) _ hT.le _ _ _ ?_ ?_ (hs _ _ _ hin) ha
        · intro t ht x n _
          rw [fin t ht.1, lcB]
          by_cases h0 : n = 0 <;> simp [h0]
        · exact fun _ _ _ _ _ => rfl
      have hg : lcGamma (lcGain solve M L C fc Rin) 0 0 = 1 / (Rin * C) := by
        rw [hG, div_eq_iff (hpos 0 hm).ne', Finset.mul_sum]
        refine Finset.sum_congr rfl fun n hn => ?_
        rw [hy n (Finset.mem_range.mp hn)]
        ring
      refine ⟨hg.trans ?_, fun n hn => ?_⟩
      · exact (if_pos ⟨rfl, rfl⟩ : lcB C Rin 0 0 = _).symm
      · rw [hg]
        exact hy n hn

/-- `C119_model`: A frontend with three capacitors: the parameters are accepted, so it has both models and the netlist. -/
example : ∃ f, lcFrontend ids (fun _ _ _ _ => (0 : ℝ)) (fun _ => (fun _ _ => 0, fun _ _ => 0, fun _ _ => 0)) 3 1 1 1 1 1 = .ok f :=
  (C119_accepts _ _ 3 1 1 1 1 1).mpr ⟨by norm_num, by norm_num, by norm_num⟩

/-- `C119_circuit_partial`: Its netlist has a behaviour, which is not one of the model. -/
example (f : LCFrontend ℝ) (hf : lcFrontend ids (fun _ _ _ _ => (0 : ℝ))
    (fun _ => (fun _ _ => 0, fun _ _ => 0, fun _ _ => 0)) 3 1 1 1 1 1 = .ok f) :
    ∃ law sol, Behaves 3 (f.circuit.netlist (Obj.name ids)) law sol := by
  obtain ⟨law, sol, _, h, _⟩ := C119_false _ _ 3 1 1 1 1 1 one_ne_zero one_pos f hf
  exact ⟨law, sol, h⟩

/-- There are exact solvers, and the gains of that frontend are then determined. -/
example : ∃ solve, ExactSolver solve ∧ ∃ f, lcFrontend ids solve (fun _ => (fun _ _ => 0, fun _ _ => 0, fun _ _ => 0))
    3 1 1 1 1 (1 / 2) = .ok f ∧ ∃ G, f.extended.Gamma = some G ∧ G 0 0 = 2 := by
  obtain ⟨solve, hs⟩ := exactSolver_exists
  obtain ⟨f, hf, G, hG, y, _, h⟩ := C120_gains (ids := ids) solve (fun _ => (fun _ _ => 0, fun _ _ => 0, fun _ _ => 0))
    3 1 1 1 1 (1 / 2) hs (by norm_num) one_pos one_pos (by norm_num) one_pos
  refine ⟨solve, hs, f, hf, G, hG, ?_⟩
  obtain ⟨a, _, _, h0⟩ := h 0 (by norm_num)
  rw [(h0 rfl).1]
  obtain ⟨c, h, _⟩ := lcFrontend_eq (ids := ids) solve (fun _ => (fun _ _ => 0, fun _ _ => 0, fun _ _ => 0))
    3 1 1 1 1 (1 / 2 : ℝ) (by norm_num) (by norm_num) (by norm_num)
  rw [h, Except.ok.injEq] at hf
  subst hf
  change lcB 1 (1 / 2) 0 0 = _
  norm_num [lcB]

end Cbadc.Circuit
