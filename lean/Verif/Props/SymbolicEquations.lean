import Verif.Lemmas.SymbolicEquations

/-! # C162: the symbolic state equations and their solutions

`AnalogSystem.symbolic_differential_equations` gives the state equations for one input, or one control, alone;
`homogenius_solution` the matrix exponential.  Together they determine every trajectory of the system. -/

namespace Cbadc.Analog
open Spec Set Finset Cbadc.Simulate

/-- C162: for an input number `l < L` the returned equations are those of the system with only input `l` at work:
functions `x_1, ..., x_N` solve them if and only if `x' = A x + B[:, l] u`. -/
theorem C162_input (g : Sys ℝ) (l : ℕ) (h0 : 0 < g.N) (hl : l < g.L) :
    ∃ eqs f, g.symbolicEquations l true = .ok (eqs, f) ∧ eqs.map (·.of) = (List.range g.N).map (· + 1) ∧
      ∀ T x u, SolvesSym T eqs x u ↔ Driven g.N g.A (fun n => g.B n l) T (fun n => x (n + 1)) u := by
  refine ⟨_, _, equations_ok g l true (fun n => g.B n l) h0 fun n _ => ?_, ?_, fun T x u => solves_iff _ _ _ _ _ _⟩
  · unfold Sys.symbolicInput
    rw [if_pos rfl, symCol_nat _ _ hl]
  · rw [List.map_map]
    rfl

/-- C162: for a control number `m < M` likewise, with column `m` of `Gamma`. -/
theorem C162_control (g : Sys ℝ) (G : ℕ → ℕ → ℝ) (m : ℕ) (h0 : 0 < g.N) (hG : g.Gamma = some G) (hm : m < g.M) :
    ∃ eqs f, g.symbolicEquations m false = .ok (eqs, f) ∧ eqs.map (·.of) = (List.range g.N).map (· + 1) ∧
      ∀ T x u, SolvesSym T eqs x u ↔ Driven g.N g.A (fun n => G n m) T (fun n => x (n + 1)) u := by
  refine ⟨_, _, equations_ok g m false (fun n => G n m) h0 fun n _ => ?_, ?_, fun T x u => solves_iff _ _ _ _ _ _⟩
  · unfold Sys.symbolicInput
    rw [if_neg (by simp), hG]
    dsimp only
    rw [symCol_nat _ _ hm]
  · rw [List.map_map]
    rfl

/-- C162: numbers counted from the end name the same columns; anything else is rejected with an `IndexError`,
unless a control is asked of a system without `Gamma`: then every number is accepted and the equations are the
homogeneous ones. -/
theorem C162_numbers (g : Sys ℝ) (h0 : 0 < g.N) :
    (∀ l < g.L, g.symbolicEquations ((l : ℤ) - g.L) true = g.symbolicEquations l true) ∧
    (∀ d : ℤ, (d < -g.L ∨ (g.L : ℤ) ≤ d) → g.symbolicEquations d true = .error .indexError) ∧
    (∀ G, g.Gamma = some G → (∀ m < g.M, g.symbolicEquations ((m : ℤ) - g.M) false = g.symbolicEquations m false) ∧
      ∀ d : ℤ, (d < -g.M ∨ (g.M : ℤ) ≤ d) → g.symbolicEquations d false = .error .indexError) ∧
    (g.Gamma = none → ∀ d : ℤ, ∃ eqs f, g.symbolicEquations d false = .ok (eqs, f) ∧
      ∀ T x u, SolvesSym T eqs x u ↔ Driven g.N g.A 0 T (fun n => x (n + 1)) 0) := by
  have hneg : ∀ c l : ℕ, l < c → symCol c ((l : ℤ) - c) = symCol c l := by
    intro c l h
    rw [symCol_nat _ _ h]
    unfold symCol
    rw [if_neg (by omega), if_pos ⟨by omega, by omega⟩]
    congr 1
    omega
  have hbad : ∀ (c : ℕ) (d : ℤ), (d < -c ∨ (c : ℤ) ≤ d) → symCol c d = .error .indexError := by
    intro c d h
    unfold symCol
    rw [if_neg (by omega), if_neg (by omega)]
  have hcong : ∀ d d' i, (∀ n, g.symbolicInput d i n = g.symbolicInput d' i n) →
      g.symbolicEquations d i = g.symbolicEquations d' i := by
    intro d d' i h
    unfold Sys.symbolicEquations
    rw [show g.symbolicRow d i = g.symbolicRow d' i from by
      funext n; unfold Sys.symbolicRow; rw [h n]]
  refine ⟨fun l hl => hcong _ _ _ fun n => ?_, fun d hd => equations_error _ _ _ _ h0 fun n => ?_,
    fun G hG => ⟨fun m hm => hcong _ _ _ fun n => ?_, fun d hd => equations_error _ _ _ _ h0 fun n => ?_⟩, fun hG d => ?_⟩
  · unfold Sys.symbolicInput
    rw [if_pos rfl, if_pos rfl, hneg _ _ hl]
  · unfold Sys.symbolicInput
    rw [if_pos rfl, hbad _ _ hd]
  · unfold Sys.symbolicInput
    rw [if_neg (by simp), if_neg (by simp), hG]
    dsimp only
    rw [hneg _ _ hm]
  · unfold Sys.symbolicInput
    rw [if_neg (by simp), hG]
    dsimp only
    rw [hbad _ _ hd]
  · refine ⟨_, _, equations_ok g d false 0 h0 fun n _ => ?_, fun T x u => ?_⟩
    · unfold Sys.symbolicInput
      rw [if_neg (by simp), hG]
      rfl
    · refine (solves_iff g.N g.A 0 T x u).trans ?_
      unfold Driven
      simp

/-- C162: superposition.  Let `p l` solve the equations returned for input `l` and `q m` those returned for control
`m`, all from zero.  Then the homogeneous solution from `x0` (`homogenius_solution` applied to `x0`) plus all of them
is a trajectory of the system from `x0` with all inputs and controls at work, and it is the only one. -/
theorem C162_superposition (g : Sys ℝ) (G : ℕ → ℕ → ℝ) (T : ℝ) (h0 : 0 < g.N) (hG : g.Gamma = some G)
    (u s : ℕ → ℝ → ℝ) (x0 : ℕ → ℝ) (p q : ℕ → ℕ → ℝ → ℝ)
    (hp : ∀ l < g.L, ∀ eqs f, g.symbolicEquations l true = .ok (eqs, f) → SolvesSym T eqs (p l) (u l) ∧ ∀ n < g.N, p l (n + 1) 0 = 0)
    (hq : ∀ m < g.M, ∀ eqs f, g.symbolicEquations m false = .ok (eqs, f) → SolvesSym T eqs (q m) (s m) ∧ ∀ n < g.N, q m (n + 1) 0 = 0) :
    let x : ℕ → ℝ → ℝ := fun n t => matVec (NormedSpace.exp (t • toM g.N g.N g.A)) x0 n + ((∑ l ∈ range g.L, p l (n + 1) t) + ∑ m ∈ range g.M, q m (n + 1) t)
    Trajectory g T u s x ∧ (∀ n < g.N, x n 0 = x0 n) ∧
      ∀ y, Trajectory g T u s y → (∀ n < g.N, y n 0 = x0 n) → ∀ t ∈ Icc 0 T, ∀ n < g.N, y n t = x n t := by
  intro x
  have hp' : ∀ l < g.L, Driven g.N g.A (fun n => g.B n l) T (fun n => p l (n + 1)) (u l) ∧ ∀ n < g.N, p l (n + 1) 0 = 0 := by
    intro l hl
    obtain ⟨eqs, f, h1, -, h2⟩ := C162_input g l h0 hl
    obtain ⟨h3, h4⟩ := hp l hl eqs f h1
    exact ⟨(h2 T _ _).mp h3, h4⟩
  have hq' : ∀ m < g.M, Driven g.N g.A (fun n => G n m) T (fun n => q m (n + 1)) (s m) ∧ ∀ n < g.N, q m (n + 1) 0 = 0 := by
    intro m hm
    obtain ⟨eqs, f, h1, -, h2⟩ := C162_control g G m h0 hG hm
    obtain ⟨h3, h4⟩ := hq m hm eqs f h1
    exact ⟨(h2 T _ _).mp h3, h4⟩
  have hder : ∀ (z : ℕ → ℝ → ℝ) t, g.derivative ⟨g.N, fun n => z n t⟩ ⟨g.L, fun l => u l t⟩ ⟨g.M, fun m => s m t⟩ =
      .ok ⟨g.N, fun n => dot g.N g.A (fun c => z c t) n + dot g.L g.B (fun l => u l t) n + dot g.M G (fun m => s m t) n⟩ := by
    intro z t
    unfold Sys.derivative npDot
    rw [if_neg (by simp), if_neg (by simp), hG]
    dsimp only
    rw [if_neg (by simp)]
    rfl
  have hx0 : ∀ n < g.N, x n 0 = x0 n := by
    intro n hn
    show matVec (expAT g 0) x0 n + _ = _
    rw [exp_zero g x0 n hn, Finset.sum_eq_zero fun l hl => (hp' l (Finset.mem_range.mp hl)).2 n hn,
      Finset.sum_eq_zero fun m hm => (hq' m (Finset.mem_range.mp hm)).2 n hn]
    simp
  have hxd : ∀ n < g.N, ∀ t ∈ Ico 0 T, HasDerivWithinAt (x n)
      (dot g.N g.A (fun c => x c t) n + dot g.L g.B (fun l => u l t) n + dot g.M G (fun m => s m t) n) (Ici t) t := by
    intro n hn t ht
    have h1 : HasDerivWithinAt (fun t => matVec (expAT g t) x0 n) _ (Ici t) t := (exp_deriv g x0 t n hn).hasDerivWithinAt
    have h2 := HasDerivWithinAt.fun_sum (u := range g.L) fun l hl => ((hp' l (Finset.mem_range.mp hl)).1 n hn).2 t ht
    have h3 := HasDerivWithinAt.fun_sum (u := range g.M) fun m hm => ((hq' m (Finset.mem_range.mp hm)).1 n hn).2 t ht
    refine (h1.add (h2.add h3)).congr_deriv ?_
    unfold dot
    simp only [Finset.sum_add_distrib]
    have e : ∑ c ∈ range g.N, g.A n c * x c t = (∑ c ∈ range g.N, g.A n c * matVec (expAT g t) x0 c) +
        ((∑ l ∈ range g.L, ∑ c ∈ range g.N, g.A n c * p l (c + 1) t) + ∑ m ∈ range g.M, ∑ c ∈ range g.N, g.A n c * q m (c + 1) t) := by
      rw [Finset.sum_comm (s := range g.L), Finset.sum_comm (s := range g.M), ← Finset.sum_add_distrib, ← Finset.sum_add_distrib]
      refine Finset.sum_congr rfl fun c _ => ?_
      rw [← Finset.mul_sum, ← Finset.mul_sum, ← mul_add, ← mul_add]
      rfl
    rw [e]
    ring
  have hxc : ∀ n < g.N, ContinuousOn (x n) (Icc 0 T) := by
    intro n hn
    have h1 : ContinuousOn (fun t => matVec (expAT g t) x0 n) (Icc 0 T) := fun t _ =>
      (exp_deriv g x0 t n hn).continuousAt.continuousWithinAt
    have h2 : ContinuousOn (fun t => ∑ l ∈ range g.L, p l (n + 1) t) (Icc 0 T) :=
      continuousOn_finsetSum _ fun l hl => ((hp' l (Finset.mem_range.mp hl)).1 n hn).1
    have h3 : ContinuousOn (fun t => ∑ m ∈ range g.M, q m (n + 1) t) (Icc 0 T) :=
      continuousOn_finsetSum _ fun m hm => ((hq' m (Finset.mem_range.mp hm)).1 n hn).1
    exact h1.add (h2.add h3)
  refine ⟨⟨hxc, fun t ht => ⟨_, hder x t, fun n hn => hxd n hn t ht⟩⟩, hx0, ?_⟩
  intro y hy hy0 t ht n hn
  refine linear_unique g.N g.A T (fun t n => dot g.L g.B (fun l => u l t) n + dot g.M G (fun m => s m t) n)
    (fun t n => y n t) (fun t n => x n t) (fun n hn => by rw [hy0 n hn, hx0 n hn]) hy.1 hxc ?_ ?_ t ht n hn
  · intro t ht n hn
    obtain ⟨d, hd, h⟩ := hy.2 t ht
    rw [hder y t] at hd
    have := Except.ok.inj hd
    subst this
    have h' := h n hn
    dsimp only at h'
    rwa [add_assoc] at h'
  · intro t ht n hn
    have := hxd n hn t ht
    rwa [add_assoc] at this

/-- Example: two integrators, one input, one control acting on the first (`x_1' = u - s`, `x_2' = x_1`). -/
noncomputable abbrev symEx : Sys ℝ := ⟨2, 1, 1, 1, 1, fun r c => if r = 1 ∧ c = 0 then 1 else 0, fun r _ => if r = 0 then 1 else 0,
  fun _ c => if c = 1 then 1 else 0, some fun r _ => if r = 0 then -1 else 0, some fun _ c => if c = 0 then 1 else 0, 0, 0, 0⟩

/-- `C162_numbers`: the hypotheses of `C162_input` and `C162_control` are met: numbers 0 of input and control exist -/
example : 0 < symEx.N ∧ 0 < symEx.L ∧ (∃ G, symEx.Gamma = some G) ∧ 0 < symEx.M := ⟨by decide, by decide, ⟨_, rfl⟩, by decide⟩

/-- a constant input `1` and control `1/2` from the start `(3, 4)`: the hypotheses of `C162_superposition` are met
by ramps and parabolas -/
example :
    (∀ l < symEx.L, ∀ eqs f, symEx.symbolicEquations l true = .ok (eqs, f) →
      SolvesSym 1 eqs (fun n t => if n = 1 then t else t ^ 2 / 2) (fun _ => 1) ∧
        ∀ n < symEx.N, (fun n t => if n = 1 then t else t ^ 2 / 2 : ℕ → ℝ → ℝ) (n + 1) 0 = 0) ∧
    (∀ m < symEx.M, ∀ eqs f, symEx.symbolicEquations m false = .ok (eqs, f) →
      SolvesSym 1 eqs (fun n t => if n = 1 then -(t / 2) else -(t ^ 2 / 4)) (fun _ => 1 / 2) ∧
        ∀ n < symEx.N, (fun n t => if n = 1 then -(t / 2) else -(t ^ 2 / 4) : ℕ → ℝ → ℝ) (n + 1) 0 = 0) := by
  constructor
  · intro l hl eqs f h
    obtain ⟨eqs', f', h1, -, h2⟩ := C162_input symEx l (by decide) hl
    rw [h] at h1
    obtain ⟨rfl, rfl⟩ := Prod.mk.inj (Except.ok.inj h1)
    refine ⟨(h2 _ _ _).mpr fun n hn => ?_, fun n hn => ?_⟩
    · have hn : n = 0 ∨ n = 1 := by change n < 2 at hn; omega
      rcases hn with rfl | rfl
      · refine ⟨by simpa using (continuous_id' : Continuous fun t : ℝ => t).continuousOn, fun t _ => ?_⟩
        simpa [Finset.sum_range_succ] using (hasDerivAt_id' t).hasDerivWithinAt
      · refine ⟨by simpa using (by fun_prop : Continuous fun t : ℝ => t ^ 2 / 2).continuousOn, fun t _ => ?_⟩
        have := (((hasDerivAt_id t).pow 2).div_const 2).hasDerivWithinAt (s := Ici t)
        simpa [Finset.sum_range_succ] using this
    · have hn : n = 0 ∨ n = 1 := by change n < 2 at hn; omega
      rcases hn with rfl | rfl <;> simp
  · intro m hm eqs f h
    obtain ⟨eqs', f', h1, -, h2⟩ := C162_control symEx _ m (by decide) rfl hm
    rw [h] at h1
    obtain ⟨rfl, rfl⟩ := Prod.mk.inj (Except.ok.inj h1)
    refine ⟨(h2 _ _ _).mpr fun n hn => ?_, fun n hn => ?_⟩
    · have hn : n = 0 ∨ n = 1 := by change n < 2 at hn; omega
      rcases hn with rfl | rfl
      · refine ⟨by simpa using (by fun_prop : Continuous fun t : ℝ => -(t / 2)).continuousOn, fun t _ => ?_⟩
        have := ((hasDerivAt_id t).div_const 2).neg.hasDerivWithinAt (s := Ici t)
        refine HasDerivWithinAt.congr_deriv (this.congr_of_mem (fun t _ => by simp) (by simp)) ?_
        simp
      · refine ⟨by simpa using (by fun_prop : Continuous fun t : ℝ => -(t ^ 2 / 4)).continuousOn, fun t _ => ?_⟩
        have := (((hasDerivAt_id t).pow 2).div_const 4).neg.hasDerivWithinAt (s := Ici t)
        refine HasDerivWithinAt.congr_deriv (this.congr_of_mem (fun t _ => by simp) (by simp)) ?_
        simp [Finset.sum_range_succ]
        ring
    · have hn : n = 0 ∨ n = 1 := by change n < 2 at hn; omega
      rcases hn with rfl | rfl <;> simp

/-- C162: the second returned value is documented as the functions the equations relate; it is one function only,
the last, so that from two states on functions the equations do relate are missing. -/
theorem C162_functions_false (g : Sys ℝ) (dim : ℤ) (i : Bool) (eqs : List (SymEq ℝ)) (f : ℕ)
    (h : g.symbolicEquations dim i = .ok (eqs, f)) : f = g.N ∧ (2 ≤ g.N → ∃ e ∈ eqs, e.of ≠ f) := by
  unfold Sys.symbolicEquations at h
  by_cases h0 : g.N = 0
  · rw [h0] at h
    exact absurd h (by intro h; cases h)
  obtain ⟨m, hm⟩ : ∃ m, g.N = m + 1 := ⟨g.N - 1, by omega⟩
  have hr : List.range g.N = 0 :: (List.range m).map Nat.succ := by rw [hm, List.range_succ_eq_map]
  rw [hr, List.mapM_cons] at h
  unfold Sys.symbolicRow at h
  rcases hi : g.symbolicInput dim i 0 with e | b
  · rw [hi] at h
    exact absurd h (by intro h; cases h)
  rcases hl : ((List.range m).map Nat.succ).mapM (g.symbolicRow dim i) with e | l
  · unfold Sys.symbolicRow at hl
    rw [hi, hl] at h
    exact absurd h (by intro h; cases h)
  unfold Sys.symbolicRow at hl
  rw [hi, hl, hm] at h
  have h' := Except.ok.inj h
  have h1 := congrArg Prod.fst h'
  have h2 := congrArg Prod.snd h'
  dsimp only at h1 h2
  refine ⟨by rw [← h2, hm], fun h2' => ?_⟩
  rw [← h1, ← h2]
  refine ⟨_, List.mem_cons_self, ?_⟩
  show 0 + 1 ≠ m + 1
  omega

/-- two states, and the equations exist -/
example : 2 ≤ symEx.N ∧ ∃ eqs f, symEx.symbolicEquations 0 true = .ok (eqs, f) :=
  ⟨le_refl _, (C162_input symEx 0 (by decide) (by decide)).imp fun _ h => h.imp fun _ h => h.1⟩

end Cbadc.Analog
