import Mathlib.Tactic.NormNum
import Mathlib.Tactic.Ring
import Mathlib.LinearAlgebra.Matrix.ToLinearEquiv
import Verif.Spec.AnalogSystem

/-! # C21, C27: analog systems -/

namespace Cbadc.Analog
universe u
open Finset Spec

variable {K : Type*} [Field K]

/-! ### helper lemmas -/

theorem bind_ok {α β : Type u} (x : Res α) (f : α → Res β) (b : β) :
    (x >>= f) = .ok b ↔ ∃ a, x = .ok a ∧ f a = .ok b := by
  cases x with
  | error e => simp [bind, Except.bind]
  | ok a => simp [bind, Except.bind]

theorem shape1_ok (a : Arr K) (c : ℕ) : a.shape1 = .ok c ↔ ∃ r f, a = .mat r c f := by
  cases a with
  | vec n f => simp [Arr.shape1]
  | mat r c' f =>
    simp only [Arr.shape1, Except.ok.injEq, Arr.mat.injEq]
    exact ⟨fun h => ⟨r, f, rfl, h, rfl⟩, fun ⟨_, _, _, h, _⟩ => h⟩

theorem checkGamma_ok (N : ℕ) (G : Option (Arr K)) (p : Option (ℕ → ℕ → K) × ℕ) :
    checkGamma N G = .ok p ↔
      (G = none ∧ p = (none, 0)) ∨ ∃ f, G = some (.mat N p.2 f) ∧ p.1 = some f := by
  cases G with
  | none => simp [checkGamma, eq_comm]
  | some g =>
    obtain ⟨p1, p2⟩ := p
    cases g with
    | vec n f => simp only [checkGamma, Arr.shape1]; split_ifs <;> simp
    | mat r c f =>
      simp only [checkGamma, Arr.shape0, Arr.shape1, Arr.entries]
      by_cases h : r = N
      · subst h; simp [eq_comm, and_comm]
      · simp [h]

theorem checkGammaT_ok (N : ℕ) (G : Option (Arr K)) (p : Option (ℕ → ℕ → K) × ℕ) :
    checkGammaT N G = .ok p ↔
      (G = none ∧ p = (none, 0)) ∨ ∃ f, G = some (.mat p.2 N f) ∧ p.1 = some f := by
  cases G with
  | none => simp [checkGammaT, eq_comm]
  | some g =>
    obtain ⟨p1, p2⟩ := p
    cases g with
    | vec n f => simp [checkGammaT, Arr.shape1]
    | mat r c f =>
      simp only [checkGammaT, Arr.shape0, Arr.shape1, Arr.entries]
      by_cases h : c = N
      · subst h; simp [eq_comm, and_comm]
      · simp [h]

theorem checkB_ok (N : ℕ) (B : Arr K) (p : (ℕ → ℕ → K) × ℕ) :
    checkB N B = .ok p ↔ B = .mat N p.2 p.1 ∨ (p.2 = 1 ∧ ∃ f, B = .vec N f ∧ p.1 = fun r _ => f r) := by
  obtain ⟨p1, p2⟩ := p
  cases B with
  | vec n f =>
    simp only [checkB]
    by_cases h : n = N
    · subst h; simp [eq_comm, and_comm]
    · simp [h]
  | mat r c f =>
    simp only [checkB]
    by_cases h : r = N
    · subst h; simp [eq_comm, and_comm]
    · simp [h]

theorem checkCT_ok (N : ℕ) (B : Arr K) (p : (ℕ → ℕ → K) × ℕ) :
    checkCT N B = .ok p ↔ B = .mat p.2 N p.1 ∨ (p.2 = 1 ∧ ∃ f, B = .vec N f ∧ p.1 = fun _ c => f c) := by
  obtain ⟨p1, p2⟩ := p
  cases B with
  | vec n f =>
    simp only [checkCT]
    by_cases h : n = N
    · subst h; simp [eq_comm, and_comm]
    · simp [h]
  | mat r c f =>
    simp only [checkCT]
    by_cases h : c = N
    · subst h; simp [eq_comm, and_comm]
    · simp [h]

theorem checkOpt_ok (r c : ℕ) (o : Option (Arr K)) (f : ℕ → ℕ → K) :
    checkOpt r c o = .ok f ↔ (o = none ∧ f = fun _ _ => 0) ∨ o = some (.mat r c f) := by
  cases o with
  | none => simp [checkOpt, eq_comm]
  | some a =>
    cases a with
    | vec n g => simp only [checkOpt, Arr.shape1]; split_ifs <;> simp
    | mat r' c' g =>
      simp only [checkOpt, Arr.shape0, Arr.shape1, Arr.entries]
      by_cases h : r' = r
      · by_cases h2 : c' = c
        · subst h; subst h2; simp
        · simp [h, h2]
      · simp [h]

/-- acceptance, decomposed: which attributes an accepted system has -/
theorem new_ok (A B CT : Arr K) (Gamma GammaT D Bt At : Option (Arr K)) (g : Sys K) :
    Sys.new A B CT Gamma GammaT D Bt At = .ok g ↔
      A = .mat g.N g.N g.A ∧ checkGamma g.N Gamma = .ok (g.Gamma, g.M) ∧
      checkGammaT g.N GammaT = .ok (g.GammaT, g.Mt) ∧ checkB g.N B = .ok (g.B, g.L) ∧
      checkCT g.N CT = .ok (g.CT, g.Nt) ∧ checkOpt g.Nt g.L D = .ok g.D ∧
      checkOpt g.Mt g.L Bt = .ok g.Bt ∧ checkOpt g.Mt g.M At = .ok g.At := by
  unfold Sys.new
  cases A with
  | vec n f =>
    simp only [bind_ok]
    simp
  | mat r c f =>
    simp only [Arr.shape0, bind_ok]
    constructor
    · rintro ⟨⟨G, M⟩, h1, ⟨GT, Mt⟩, h2, h3⟩
      split_ifs at h3 with hrc
      simp only [bind_ok] at h3
      obtain ⟨⟨B', L⟩, h4, ⟨C', Nt⟩, h5, D', h6, Bt', h7, At', h8, h9⟩ := h3
      simp only [Except.ok.injEq] at h9
      subst h9
      exact ⟨by simp only [not_not] at hrc; subst hrc; rfl, h1, h2, h4, h5, h6, h7, h8⟩
    · rintro ⟨h0, h1, h2, h4, h5, h6, h7, h8⟩
      simp only [Arr.mat.injEq] at h0
      obtain ⟨rfl, rfl, rfl⟩ := h0
      refine ⟨_, h1, _, h2, ?_⟩
      rw [if_neg (by simp)]
      simp only [bind_ok]
      exact ⟨_, h4, _, h5, _, h6, _, h7, _, h8, rfl⟩

/-! ### C21 -/

/-- **C21** the dimensions of an accepted system are those of all its arguments -/
theorem C21_accepted_consistent (A B CT : Arr K) (Gamma GammaT D Bt At : Option (Arr K)) (g : Sys K)
    (h : Sys.new A B CT Gamma GammaT D Bt At = .ok g) :
    Consistent A B CT Gamma GammaT D Bt At g.N g.L g.M g.Mt g.Nt := by
  rw [new_ok] at h
  obtain ⟨h0, h1, h2, h4, h5, h6, h7, h8⟩ := h
  rw [checkGamma_ok] at h1
  rw [checkGammaT_ok] at h2
  rw [checkB_ok] at h4
  rw [checkCT_ok] at h5
  rw [checkOpt_ok] at h6 h7 h8
  refine ⟨⟨_, h0⟩, ?_, ?_, ?_, ?_, ?_, ?_, ?_⟩
  · rcases h4 with h | ⟨h, f, hf, _⟩
    · exact Or.inl ⟨_, h⟩
    · exact Or.inr ⟨h, f, hf⟩
  · rcases h5 with h | ⟨h, f, hf, _⟩
    · exact Or.inl ⟨_, h⟩
    · exact Or.inr ⟨h, f, hf⟩
  · rcases h1 with ⟨h, h'⟩ | ⟨f, hf, _⟩
    · exact Or.inl ⟨h, congrArg Prod.snd h'⟩
    · exact Or.inr ⟨_, hf, _, rfl⟩
  · rcases h2 with ⟨h, h'⟩ | ⟨f, hf, _⟩
    · exact Or.inl ⟨h, congrArg Prod.snd h'⟩
    · exact Or.inr ⟨_, hf, _, rfl⟩
  · rcases h6 with ⟨h, _⟩ | h <;> intro a ha
    · rw [h] at ha; cases ha
    · rw [h] at ha; cases ha; exact ⟨_, rfl⟩
  · rcases h7 with ⟨h, _⟩ | h <;> intro a ha
    · rw [h] at ha; cases ha
    · rw [h] at ha; cases ha; exact ⟨_, rfl⟩
  · rcases h8 with ⟨h, _⟩ | h <;> intro a ha
    · rw [h] at ha; cases ha
    · rw [h] at ha; cases ha; exact ⟨_, rfl⟩

/-- **C21** consistent arguments are accepted, with these dimensions -/
theorem C21_consistent_accepted (A B CT : Arr K) (Gamma GammaT D Bt At : Option (Arr K))
    (N L M Mt Nt : ℕ) (h : Consistent A B CT Gamma GammaT D Bt At N L M Mt Nt) :
    ∃ g, Sys.new A B CT Gamma GammaT D Bt At = .ok g ∧ g.N = N ∧ g.L = L ∧ g.M = M ∧ g.Mt = Mt ∧
      g.Nt = Nt := by
  obtain ⟨⟨fA, hA⟩, hB, hC, hG, hGT, hD, hBt, hAt⟩ := h
  obtain ⟨B', hB'⟩ : ∃ B', checkB N B = .ok (B', L) := by
    rcases hB with ⟨f, hf⟩ | ⟨hl, f, hf⟩
    · exact ⟨f, (checkB_ok _ _ _).mpr (Or.inl hf)⟩
    · exact ⟨_, (checkB_ok _ _ _).mpr (Or.inr ⟨hl, f, hf, rfl⟩)⟩
  obtain ⟨C', hC'⟩ : ∃ C', checkCT N CT = .ok (C', Nt) := by
    rcases hC with ⟨f, hf⟩ | ⟨hl, f, hf⟩
    · exact ⟨f, (checkCT_ok _ _ _).mpr (Or.inl hf)⟩
    · exact ⟨_, (checkCT_ok _ _ _).mpr (Or.inr ⟨hl, f, hf, rfl⟩)⟩
  obtain ⟨G', hG'⟩ : ∃ G', checkGamma N Gamma = .ok (G', M) := by
    rcases hG with ⟨h1, h2⟩ | ⟨a, ha, f, hf⟩
    · exact ⟨none, (checkGamma_ok _ _ _).mpr (Or.inl ⟨h1, by rw [h2]⟩)⟩
    · exact ⟨some f, (checkGamma_ok _ _ _).mpr (Or.inr ⟨f, by rw [ha, hf], rfl⟩)⟩
  obtain ⟨GT', hGT'⟩ : ∃ G', checkGammaT N GammaT = .ok (G', Mt) := by
    rcases hGT with ⟨h1, h2⟩ | ⟨a, ha, f, hf⟩
    · exact ⟨none, (checkGammaT_ok _ _ _).mpr (Or.inl ⟨h1, by rw [h2]⟩)⟩
    · exact ⟨some f, (checkGammaT_ok _ _ _).mpr (Or.inr ⟨f, by rw [ha, hf], rfl⟩)⟩
  have opt : ∀ (r c : ℕ) (o : Option (Arr K)), OptShape o r c → ∃ f, checkOpt r c o = .ok f := by
    intro r c o ho
    cases o with
    | none => exact ⟨_, (checkOpt_ok _ _ _ _).mpr (Or.inl ⟨rfl, rfl⟩)⟩
    | some a =>
      obtain ⟨f, hf⟩ := ho a rfl
      exact ⟨f, (checkOpt_ok _ _ _ _).mpr (Or.inr (by rw [hf]))⟩
  obtain ⟨D', hD'⟩ := opt _ _ _ hD
  obtain ⟨Bt', hBt'⟩ := opt _ _ _ hBt
  obtain ⟨At', hAt'⟩ := opt _ _ _ hAt
  exact ⟨⟨N, L, M, Mt, Nt, fA, B', C', G', GT', D', Bt', At'⟩,
    (new_ok _ _ _ _ _ _ _ _ _).mpr ⟨hA, hG', hGT', hB', hC', hD', hBt', hAt'⟩, rfl, rfl, rfl, rfl, rfl⟩

/-- **C21** the entries are stored unchanged; omitted optional matrices are zero -/
theorem C21_entries (N L M Mt Nt : ℕ) (A B CT Gamma GammaT D Bt At : ℕ → ℕ → K) :
    Sys.new (.mat N N A) (.mat N L B) (.mat Nt N CT) (some (.mat N M Gamma)) (some (.mat Mt N GammaT))
        (some (.mat Nt L D)) (some (.mat Mt L Bt)) (some (.mat Mt M At)) =
      .ok ⟨N, L, M, Mt, Nt, A, B, CT, some Gamma, some GammaT, D, Bt, At⟩ ∧
    Sys.new (.mat N N A) (.mat N L B) (.mat Nt N CT) (some (.mat N M Gamma)) (some (.mat Mt N GammaT))
        none none none =
      .ok ⟨N, L, M, Mt, Nt, A, B, CT, some Gamma, some GammaT, fun _ _ => 0, fun _ _ => 0, fun _ _ => 0⟩ := by
  constructor <;>
  · rw [new_ok]
    simp [checkGamma_ok, checkGammaT_ok, checkB_ok, checkCT_ok, checkOpt_ok]

/-- **C21 (part that holds)** on vectors of the documented lengths the derivative of an accepted system with a
`Gamma` is defined, has length `N` and is `A x + B u + Gamma s`; other lengths raise. -/
theorem C21_derivative_partial (g : Sys K) (G : ℕ → ℕ → K) (hG : g.Gamma = some G) (x u s : Vec K) :
    (x.len = g.N ∧ u.len = g.L ∧ s.len = g.M →
      ∃ d, g.derivative x u s = .ok d ∧ d.len = g.N ∧ ∀ r, d.v r =
        (∑ c ∈ range g.N, g.A r c * x.v c) + (∑ c ∈ range g.L, g.B r c * u.v c) +
          ∑ c ∈ range g.M, G r c * s.v c) ∧
    (¬ (x.len = g.N ∧ u.len = g.L ∧ s.len = g.M) → g.derivative x u s = .error .valueError) := by
  unfold Sys.derivative npDot
  rw [hG]
  by_cases h1 : x.len = g.N <;> by_cases h2 : u.len = g.L <;> by_cases h3 : s.len = g.M <;>
    simp [h1, h2, h3, npAdd, dot, bind, Except.bind]

/-- **C21 is false for the derivative of a system without `Gamma`**: it is accepted but its derivative always
raises. -/
theorem C21_derivative_false :
    ∃ g : Sys ℚ, Sys.new (.mat 1 1 fun _ _ => -1) (.mat 1 1 fun _ _ => 1) (.mat 1 1 fun _ _ => 1)
        none none none none none = .ok g ∧
      ∀ x u s, ∃ e, g.derivative x u s = .error e := by
  refine ⟨⟨1, 1, 0, 0, 1, fun _ _ => -1, fun _ _ => 1, fun _ _ => 1, none, none, fun _ _ => 0,
    fun _ _ => 0, fun _ _ => 0⟩, ?_, ?_⟩
  · rw [new_ok]
    simp [checkGamma_ok, checkGammaT_ok, checkB_ok, checkCT_ok, checkOpt_ok]
  · intro x u s
    unfold Sys.derivative npDot
    by_cases h1 : x.len = 1 <;> by_cases h2 : u.len = 1 <;> simp [h1, h2, bind, Except.bind]

/-- **C21** the signal observation is defined exactly for state vectors of length `N`, has length `N_tilde` and is
`CT x` -/
theorem C21_signal_observation (g : Sys K) (x : Vec K) :
    (x.len = g.N → ∃ y, g.signalObservation x = .ok y ∧ y.len = g.Nt ∧
      ∀ r, y.v r = ∑ c ∈ range g.N, g.CT r c * x.v c) ∧
    (x.len ≠ g.N → g.signalObservation x = .error .valueError) := by
  unfold Sys.signalObservation npDot
  by_cases h1 : x.len = g.N <;> simp [h1, dot]

/-- a consistent set of arguments: two states, one input given as a vector, two controls -/
example : Consistent (.mat 2 2 fun r c => if r = c + 1 then 1 else 0) (.vec 2 fun r => if r = 0 then 1 else 0)
    (.mat 2 2 fun r c => if r = c then 1 else 0) (some (.mat 2 2 fun r c => if r = c then 1 else 0))
    (some (.mat 2 2 fun r c => if r = c then -1 else 0)) none none
    (some (.mat 2 2 fun _ _ => 0) : Option (Arr ℚ)) 2 1 2 2 2 where
  hA := ⟨_, rfl⟩
  hB := Or.inr ⟨rfl, _, rfl⟩
  hC := Or.inl ⟨_, rfl⟩
  hG := Or.inr ⟨_, rfl, _, rfl⟩
  hGT := Or.inr ⟨_, rfl, _, rfl⟩
  hD := by intro a h; cases h
  hBt := by intro a h; cases h
  hAt := by intro a h; cases h; exact ⟨_, rfl⟩

/-- an inconsistent one -/
example : ¬ ∃ N L M Mt Nt, Consistent (.mat 2 2 fun _ _ => (0 : ℚ)) (.vec 3 fun _ => 0) (.mat 1 2 fun _ _ => 0)
    none none none none none N L M Mt Nt := by
  rintro ⟨N, L, M, Mt, Nt, ⟨f, h⟩, hB, -⟩
  simp only [Arr.mat.injEq] at h
  rcases hB with ⟨f', h'⟩ | ⟨_, f', h'⟩
  · cases h'
  · simp only [Arr.vec.injEq] at h'
    omega

/-! ### C27 -/

/-- **C27 is false**: with an input but no control vector the call raises; with a control vector but no input
the control vector is ignored. -/
theorem C27_false :
    ∃ (g : Sys ℚ) (x u s : Vec ℚ),
      Sys.new (.mat 1 1 fun _ _ => 0) (.mat 1 1 fun _ _ => 1) (.mat 1 1 fun _ _ => 1)
        (some (.mat 1 1 fun _ _ => 1)) (some (.mat 1 1 fun _ _ => -1)) none
        (some (.mat 1 1 fun _ _ => 1)) (some (.mat 1 1 fun _ _ => 1)) = .ok g ∧
      x.len = g.N ∧ u.len = g.L ∧ s.len = g.M ∧
      (∃ e, g.controlObservation x (some u) none = .error e) ∧
      (∃ y, g.controlObservation x none (some s) = .ok y ∧
        y.v 0 ≠ (∑ c ∈ range g.N, (-1 : ℚ) * x.v c) + ∑ c ∈ range g.M, g.At 0 c * s.v c) := by
  refine ⟨⟨1, 1, 1, 1, 1, fun _ _ => 0, fun _ _ => 1, fun _ _ => 1, some fun _ _ => 1, some fun _ _ => -1,
    fun _ _ => 0, fun _ _ => 1, fun _ _ => 1⟩, ⟨1, fun _ => 0⟩, ⟨1, fun _ => 0⟩, ⟨1, fun _ => 1⟩, ?_, rfl, rfl,
    rfl, ?_, ?_⟩
  · rw [new_ok]
    simp [checkGamma_ok, checkGammaT_ok, checkB_ok, checkCT_ok, checkOpt_ok]
  · exact ⟨.typeError, by simp [Sys.controlObservation, npDot, bind, Except.bind]⟩
  · refine ⟨_, by simp only [Sys.controlObservation, npDot]; rfl, ?_⟩
    simp [dot]

/-- **C27 (part that holds)** for a system with `Gamma_tildeT`: with both arguments the observation is
`Gamma_tilde^T x + B_tilde u + A_tilde s`, of length `M_tilde`; with neither it is `Gamma_tilde^T x`. -/
theorem C27_observation_partial (g : Sys K) (GT : ℕ → ℕ → K) (hG : g.GammaT = some GT) (x u s : Vec K)
    (hx : x.len = g.N) (hu : u.len = g.L) (hs : s.len = g.M) :
    (∃ y, g.controlObservation x (some u) (some s) = .ok y ∧ y.len = g.Mt ∧ ∀ r, y.v r =
      (∑ c ∈ range g.N, GT r c * x.v c) + (∑ c ∈ range g.L, g.Bt r c * u.v c) +
        ∑ c ∈ range g.M, g.At r c * s.v c) ∧
    (∃ y, g.controlObservation x none none = .ok y ∧ y.len = g.Mt ∧ ∀ r, y.v r =
      ∑ c ∈ range g.N, GT r c * x.v c) := by
  unfold Sys.controlObservation npDot
  rw [hG]
  simp [hx, hu, hs, npAdd, dot, bind, Except.bind]

/-- two integrators in a row, used in the case below -/
def exTwo : Sys ℚ := ⟨2, 1, 2, 2, 2, fun r c => if r = c + 1 then 1 else 0, fun r _ => if r = 0 then 1 else 0,
  fun r c => if r = c then 1 else 0, some fun r c => if r = c then 1 else 0, some fun r c => if r = c then -1 else 0,
  fun _ _ => 0, fun _ _ => 0, fun _ _ => 0⟩

/-- Two integrators in a row: accepted (`C21_entries`, `C21_consistent_accepted`), consistent (`C21_accepted_consistent`) and
differentiated; a state of three entries is refused (`C21_derivative_partial`). -/
example : ∃ g : Sys ℚ, Sys.new (.mat 2 2 fun r c => if r = c + 1 then 1 else 0) (.mat 2 1 fun r _ => if r = 0 then 1 else 0)
      (.mat 2 2 fun r c => if r = c then 1 else 0) (some (.mat 2 2 fun r c => if r = c then 1 else 0))
      (some (.mat 2 2 fun r c => if r = c then -1 else 0)) none none none = .ok g ∧
    Consistent (.mat 2 2 fun r c => if r = c + 1 then 1 else 0) (.mat 2 1 fun r _ => if r = 0 then 1 else 0)
      (.mat 2 2 fun r c => if r = c then 1 else 0) (some (.mat 2 2 fun r c => if r = c then 1 else 0))
      (some (.mat 2 2 fun r c => if r = c then -1 else 0)) none none (none : Option (Arr ℚ)) 2 1 2 2 2 ∧
    (∃ d, g.derivative ⟨2, fun _ => 1⟩ ⟨1, fun _ => 1⟩ ⟨2, fun _ => -1⟩ = .ok d ∧ d.v 1 = 0) ∧
    g.derivative ⟨3, fun _ => 1⟩ ⟨1, fun _ => 1⟩ ⟨2, fun _ => -1⟩ = .error .valueError := by
  have hg := (C21_entries (K := ℚ) 2 1 2 2 2 (fun r c => if r = c + 1 then 1 else 0) (fun r _ => if r = 0 then 1 else 0)
    (fun r c => if r = c then 1 else 0) (fun r c => if r = c then 1 else 0) (fun r c => if r = c then -1 else 0)
    (fun _ _ => 0) (fun _ _ => 0) (fun _ _ => 0)).2
  refine ⟨exTwo, hg, C21_accepted_consistent _ _ _ _ _ _ _ _ _ hg, ?_, ?_⟩
  · obtain ⟨d, h1, -, h2⟩ := (C21_derivative_partial exTwo _ rfl ⟨2, fun _ => 1⟩ ⟨1, fun _ => 1⟩ ⟨2, fun _ => -1⟩).1 ⟨rfl, rfl, rfl⟩
    refine ⟨d, h1, ?_⟩
    rw [h2]
    simp [exTwo, Finset.sum_range_succ]
  · exact (C21_derivative_partial exTwo _ rfl ⟨3, fun _ => 1⟩ ⟨1, fun _ => 1⟩ ⟨2, fun _ => -1⟩).2 (by rintro ⟨h, -⟩; simp [exTwo] at h)

end Cbadc.Analog
