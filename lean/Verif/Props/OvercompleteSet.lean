import Mathlib.Algebra.BigOperators.Field
import Mathlib.LinearAlgebra.FiniteDimensional.Lemmas
import Mathlib.LinearAlgebra.Dimension.Constructions
import Mathlib.LinearAlgebra.Matrix.ToLin
import Mathlib.Tactic.Linarith
import Mathlib.Tactic.NormNum
import Mathlib.Tactic.FieldSimp
import Verif.Model.OvercompleteSet

/-! # Properties of overcomplete sets -/

namespace Cbadc.Overcomplete

variable {N M : ℕ} {Opt : List (Fin N → ℝ) → (Fin N → ℝ) → (Fin N → ℝ) → Prop} {Gamma R : List (Fin N → ℝ)}

theorem sq_pos {v : Fin N → ℝ} (hv : v ≠ 0) : 0 < ∑ i, v i ^ 2 := by
  obtain ⟨i, hi⟩ : ∃ i, v i ≠ 0 := by
    by_contra h
    exact hv (funext fun i => by_contra fun hi => h ⟨i, hi⟩)
  exact Finset.sum_pos' (fun i _ => sq_nonneg _) ⟨i, Finset.mem_univ _, by positivity⟩

theorem norm2_pos {v : Fin N → ℝ} (hv : v ≠ 0) : 0 < norm2 v := Real.sqrt_pos.2 (sq_pos hv)

theorem normalise_unit {v : Fin N → ℝ} (hv : v ≠ 0) : ∑ i, normalise v i ^ 2 = 1 := by
  have h : ∀ i, normalise v i ^ 2 = v i ^ 2 / ∑ i, v i ^ 2 := fun i => by
    rw [normalise, div_pow, norm2, Real.sq_sqrt (sq_pos hv).le]
  rw [Finset.sum_congr rfl fun i _ => h i, ← Finset.sum_div, div_self (sq_pos hv).ne']

/-- the columns that are there stay, and those that are added are normalised solutions -/
theorem Append.spec {n : ℕ} {T : List (Fin N → ℝ)} (h : Append Opt n T R) : ∃ xs : List (Fin N → ℝ), xs.length = n ∧
    R = T ++ xs.map normalise ∧ ∀ j (hj : j < xs.length), ∃ x0, Opt (R.take (T.length + j)) x0 xs[j] := by
  induction h with
  | done T => exact ⟨[], rfl, by simp, fun j hj => absurd hj (Nat.not_lt_zero _)⟩
  | @next n T R x0 x i hopt hmax hfirst hrest ih =>
    obtain ⟨xs, hl, rfl, h⟩ := ih
    refine ⟨x i :: xs, by rw [List.length_cons, hl], by simp, fun j hj => ?_⟩
    rcases j with _ | j
    · refine ⟨x0 i, ?_⟩
      have e : (T ++ [normalise (x i)] ++ xs.map normalise).take (T.length + 0) = T := by
        rw [Nat.add_zero, List.append_assoc, List.take_left]
      rw [e]
      exact hopt i
    · obtain ⟨y, hy⟩ := h j (by simpa using hj)
      refine ⟨y, ?_⟩
      rw [List.length_append, List.length_singleton, Nat.add_assoc, Nat.add_comm 1 j] at hy
      exact hy

/-- **C107**: the result has the requested number of columns, or that of the given ones if these are more, all of length
one, and begins with the given columns in their direction: for any behaviour of the optimiser and of the random numbers
as long as no solution is zero. -/
theorem C107_normalised (h : OvercompleteSet Opt Gamma M R) (hG : ∀ v ∈ Gamma, v ≠ 0)
    (hopt : ∀ T x0 x, Opt T x0 x → x ≠ 0) :
    R.length = max M Gamma.length ∧ (∀ v ∈ R, ∑ i, v i ^ 2 = 1) ∧
    ∀ j (hj : j < Gamma.length) (hj' : j < R.length), ∃ c : ℝ, 0 < c ∧ Gamma[j] = fun i => c * R[j] i := by
  obtain ⟨xs, hl, rfl, hx⟩ := Append.spec h
  refine ⟨?_, fun v hv => ?_, fun j hj hj' => ?_⟩
  · rw [List.length_append, List.length_map, List.length_map, hl]
    omega
  · rcases List.mem_append.1 hv with hv | hv
    · obtain ⟨w, hw, rfl⟩ := List.mem_map.1 hv
      exact normalise_unit (hG w hw)
    · obtain ⟨w, hw, rfl⟩ := List.mem_map.1 hv
      obtain ⟨j, hj, rfl⟩ := List.mem_iff_getElem.1 hw
      obtain ⟨x0, h0⟩ := hx j hj
      exact normalise_unit (hopt _ _ _ h0)
  · have hp := norm2_pos (hG _ (List.getElem_mem hj))
    refine ⟨norm2 Gamma[j], hp, funext fun i => ?_⟩
    rw [List.getElem_append_left (by simpa using hj), List.getElem_map, normalise]
    field_simp

/-- the optimiser finds a smallest value, at a point other than zero, whatever the start -/
def Exact (Opt : List (Fin N → ℝ) → (Fin N → ℝ) → (Fin N → ℝ) → Prop) : Prop :=
  ∀ T x0 x, Opt T x0 x → x ≠ 0 ∧ ∀ y, y ≠ 0 → cost T x ≤ cost T y

/-- fewer vectors than entries leave a direction that is orthogonal to all of them -/
theorem exists_orthogonal (T : List (Fin N → ℝ)) (h : T.length < N) : ∃ y : Fin N → ℝ, y ≠ 0 ∧ ∀ w ∈ T, ∑ i, w i * y i = 0 := by
  let f : (Fin N → ℝ) →ₗ[ℝ] (Fin T.length → ℝ) := Matrix.mulVecLin (Matrix.of fun k i => T[k] i)
  have hlt : Module.finrank ℝ (Fin T.length → ℝ) < Module.finrank ℝ (Fin N → ℝ) := by simpa using h
  obtain ⟨y, hy, h0⟩ := (Submodule.ne_bot_iff _).1 (LinearMap.ker_ne_bot_of_finrank_lt (f := f) hlt)
  refine ⟨y, h0, fun w hw => ?_⟩
  obtain ⟨j, hj, rfl⟩ := List.mem_iff_getElem.1 hw
  exact congrFun (LinearMap.mem_ker.1 hy) ⟨j, hj⟩

/-- **C107**: with an optimiser that finds a smallest value, each column that is added while there are fewer columns than
entries is orthogonal to all columns before. -/
theorem C107_orthogonal (h : OvercompleteSet Opt Gamma M R) (hE : Exact Opt) {j : ℕ} (hj : j < R.length)
    (hG : Gamma.length ≤ j) (hN : j < N) : ∀ w ∈ R.take j, ∑ i, w i * R[j] i = 0 := by
  obtain ⟨xs, hl, hR, hx⟩ := Append.spec h
  obtain ⟨k, rfl⟩ := Nat.exists_eq_add_of_le hG
  have hk : k < xs.length := by
    rw [hR, List.length_append, List.length_map, List.length_map] at hj
    omega
  obtain ⟨x0, h0⟩ := hx k hk
  rw [List.length_map] at h0
  obtain ⟨hne, hmin⟩ := hE _ _ _ h0
  obtain ⟨y, hy, hyo⟩ := exists_orthogonal (R.take (Gamma.length + k)) (by rw [List.length_take]; omega)
  have hcy : cost (R.take (Gamma.length + k)) y = 0 := by
    rw [cost, List.map_congr_left (fun w hw => by rw [hyo w hw] : ∀ w ∈ R.take (Gamma.length + k), _ = (0 : ℝ) ^ 2)]
    simp
  have hc := (hmin y hy).trans hcy.le
  have hs : (List.map (fun w => (∑ i, w i * xs[k] i) ^ 2) (R.take (Gamma.length + k))).sum ≤ 0 := by
    rw [cost, div_le_iff₀ (norm2_pos hne), zero_mul] at hc
    exact Real.sqrt_eq_zero'.1 (le_antisymm hc (Real.sqrt_nonneg _))
  intro w hw
  have hz : (∑ i, w i * xs[k] i) ^ 2 = 0 := by
    refine le_antisymm (le_trans ?_ hs) (sq_nonneg _)
    refine List.single_le_sum (fun x hx => ?_) _ (List.mem_map.2 ⟨w, hw, rfl⟩)
    obtain ⟨z, -, rfl⟩ := List.mem_map.1 hx
    exact sq_nonneg _
  have e : R[Gamma.length + k] = normalise xs[k] := by
    subst hR
    rw [List.getElem_append_right (by simp)]
    simp
  rw [e]
  have : ∀ i, w i * normalise xs[k] i = w i * xs[k] i / norm2 xs[k] := fun i => by rw [normalise, mul_div_assoc]
  rw [Finset.sum_congr rfl fun i _ => this i, ← Finset.sum_div, pow_eq_zero_iff two_ne_zero |>.1 hz, zero_div]

/-- `C107_normalised`: the hypotheses are met: for the vector (2, 0) an exact optimiser leads to the result (1, 0), (0, 1) -/
example : ∃ Opt : List (Fin 2 → ℝ) → (Fin 2 → ℝ) → (Fin 2 → ℝ) → Prop, Exact Opt ∧
    OvercompleteSet Opt [![2, 0]] 2 [![1, 0], ![0, 1]] := by
  refine ⟨fun T _ x => x ≠ 0 ∧ ∀ y, y ≠ 0 → cost T x ≤ cost T y, fun T x0 x h => h, ?_⟩
  have e1 : normalise ![(2 : ℝ), 0] = ![1, 0] := by
    have : norm2 ![(2 : ℝ), 0] = 2 := by
      rw [norm2, Fin.sum_univ_two, show ![(2 : ℝ), 0] 0 ^ 2 + ![(2 : ℝ), 0] 1 ^ 2 = 2 ^ 2 by norm_num]
      exact Real.sqrt_sq zero_le_two
    funext i
    fin_cases i <;> simp [normalise, this]
  have e2 : normalise ![(0 : ℝ), 1] = ![0, 1] := by
    have : norm2 ![(0 : ℝ), 1] = 1 := by
      rw [norm2, Fin.sum_univ_two]
      norm_num
    funext i
    fin_cases i <;> simp [normalise, this]
  have hc : ∀ y : Fin 2 → ℝ, 0 ≤ cost [![1, 0]] y := fun y => div_nonneg (Real.sqrt_nonneg _) (Real.sqrt_nonneg _)
  have h0 : cost [![1, 0]] ![(0 : ℝ), 1] = 0 := by
    rw [cost]
    simp
  rw [OvercompleteSet, List.map_singleton, e1]
  refine Append.next (fun _ => ![0, 1]) (fun _ => ![0, 1]) 0 (fun _ => ⟨fun h => ?_, fun y _ => h0.le.trans (hc y)⟩)
    (fun _ => le_rfl) (fun k hk => absurd hk (Fin.not_lt_zero k)) ?_
  · exact one_ne_zero (congrFun h 1)
  · rw [e2]
    exact Append.done _

end Cbadc.Overcomplete
