import Mathlib.LinearAlgebra.Eigenspace.Triangularizable
import Mathlib.Analysis.Complex.Polynomial.Basic
import Verif.Lemmas.EndToEnd
import Verif.Spec.Structures

/-! # Lemmas: which networks of integrators can be reached from their input (C144) -/

namespace Cbadc.EndToEnd

open Matrix Set Filter.Spec Cbadc.Analog Cbadc.Analog.Spec

section
variable {g : Sys ℝ} {beta alpha rho kappa : ℕ → ℝ} {G : ℕ → ℕ → ℝ}

theorem dot_single (c : ℕ) (A : ℕ → ℕ → ℝ) (n j : ℕ) (hj : j < c) : dot c A (fun i => if i = j then 1 else 0) n = A n j := by
  simp [dot, hj]

theorem net_A (hG : g.Gamma = some G) (hg : IsNetwork g g.N beta alpha rho kappa) {n j : ℕ} (hn : n < g.N) (hj : j < g.N) :
    g.A n j = (if n = j then rho n else 0) + (if n = j + 1 then beta n else 0) + (if n + 1 = j then alpha n else 0) := by
  obtain ⟨d, h1, h2⟩ := hg.deriv (fun i => if i = j then 1 else 0) (fun _ => 0) (fun _ => 0)
  obtain ⟨-, hv⟩ := derivative_eq hG h1
  have h3 := (hv n).symm.trans (h2 n hn)
  rw [dot_single _ _ _ _ hj] at h3
  simp only [dot, mul_zero, Finset.sum_const_zero, add_zero] at h3
  rw [h3]
  have e1 : beta n * previous 0 (fun i => if i = j then 1 else 0) n = if n = j + 1 then beta n else 0 := by
    unfold previous
    by_cases h : n = 0
    · rw [if_pos h, if_neg (by omega), mul_zero]
    · rw [if_neg h]
      dsimp only
      by_cases h' : n = j + 1
      · rw [if_pos (by omega), if_pos h', mul_one]
      · rw [if_neg (by omega), if_neg h', mul_zero]
  have e2 : alpha n * following g.N (fun i => if i = j then 1 else 0) n = if n + 1 = j then alpha n else 0 := by
    unfold following
    dsimp only
    by_cases h : n + 1 = j
    · rw [if_pos (by omega), if_pos h, if_pos h, mul_one]
    · simp [h]
  rw [e1, e2, mul_ite, mul_one, mul_zero]

theorem net_B (hG : g.Gamma = some G) (hg : IsNetwork g g.N beta alpha rho kappa) {n : ℕ} (hn : n < g.N) :
    g.B n 0 = if n = 0 then beta 0 else 0 := by
  obtain ⟨d, h1, h2⟩ := hg.deriv (fun _ => 0) (fun i => if i = 0 then 1 else 0) (fun _ => 0)
  obtain ⟨-, hv⟩ := derivative_eq hG h1
  have h3 := (hv n).symm.trans (h2 n hn)
  rw [dot_single _ _ _ _ (by rw [hg.l]; omega)] at h3
  simp only [dot, mul_zero, Finset.sum_const_zero, add_zero, zero_add] at h3
  rw [h3]
  unfold previous following
  by_cases h : n = 0
  · subst h; simp
  · simp [h]

/-- a vector with zeros behind its end -/
noncomputable def ext0 {N : ℕ} (x : Fin N → ℂ) (i : ℕ) : ℂ := if h : i < N then x ⟨i, h⟩ else 0

theorem net_AT (hG : g.Gamma = some G) (hg : IsNetwork g g.N beta alpha rho kappa) (x : Fin g.N → ℂ) (j : Fin g.N) :
    ((toM g.N g.N g.A)ᵀ.map (fun a => (a : ℂ)) *ᵥ x) j = rho j * ext0 x j + beta (j + 1) * ext0 x (j + 1) +
      if (j : ℕ) = 0 then 0 else alpha (j - 1) * ext0 x (j - 1) := by
  have hc : ∀ (p : Prop) [Decidable p] (a : ℝ) (z : ℂ), ((if p then a else 0 : ℝ) : ℂ) * z = if p then (a : ℂ) * z else 0 := by
    intro p _ a z
    split_ifs <;> simp
  have e : ((toM g.N g.N g.A)ᵀ.map (fun a => (a : ℂ)) *ᵥ x) j = ∑ i ∈ Finset.range g.N, ((if i = (j : ℕ) then (rho i : ℂ) * ext0 x i else 0) +
      (if i = (j : ℕ) + 1 then beta i * ext0 x i else 0) + (if i + 1 = (j : ℕ) then alpha i * ext0 x i else 0)) := by
    rw [← Fin.sum_univ_eq_sum_range (fun i => ((if i = (j : ℕ) then (rho i : ℂ) * ext0 x i else 0) +
      (if i = (j : ℕ) + 1 then (beta i : ℂ) * ext0 x i else 0) + (if i + 1 = (j : ℕ) then (alpha i : ℂ) * ext0 x i else 0)))]
    simp only [Matrix.mulVec, dotProduct]
    refine Finset.sum_congr rfl fun i _ => ?_
    have hx : ext0 x i = x i := by rw [ext0, dif_pos i.2]
    rw [Matrix.map_apply, Matrix.transpose_apply, toM, Matrix.of_apply, net_A hG hg i.2 j.2, hx]
    rw [Complex.ofReal_add, Complex.ofReal_add, add_mul, add_mul, hc, hc, hc]
  rw [e, Finset.sum_add_distrib, Finset.sum_add_distrib]
  have e1 : ∑ i ∈ Finset.range g.N, (if i = (j : ℕ) then (rho i : ℂ) * ext0 x i else 0) = rho j * ext0 x j := by
    rw [Finset.sum_ite_eq' _ (j : ℕ), if_pos (Finset.mem_range.2 j.2)]
  have e2 : ∑ i ∈ Finset.range g.N, (if i = (j : ℕ) + 1 then (beta i : ℂ) * ext0 x i else 0) = beta (j + 1) * ext0 x (j + 1) := by
    rw [Finset.sum_ite_eq' _ ((j : ℕ) + 1)]
    by_cases h : (j : ℕ) + 1 < g.N
    · rw [if_pos (Finset.mem_range.2 h)]
    · rw [if_neg (by rwa [Finset.mem_range]), ext0, dif_neg h, mul_zero]
  have e3 : ∑ i ∈ Finset.range g.N, (if i + 1 = (j : ℕ) then (alpha i : ℂ) * ext0 x i else 0) =
      if (j : ℕ) = 0 then 0 else (alpha (j - 1) : ℂ) * ext0 x (j - 1) := by
    by_cases h : (j : ℕ) = 0
    · rw [if_pos h]
      exact Finset.sum_eq_zero fun i _ => if_neg (by omega)
    · have e4 : ∑ i ∈ Finset.range g.N, (if i = (j : ℕ) - 1 then (alpha i : ℂ) * ext0 x i else 0) = alpha (j - 1) * ext0 x (j - 1) := by
        rw [Finset.sum_ite_eq' _ ((j : ℕ) - 1), if_pos (Finset.mem_range.2 (by have := j.2; omega))]
      rw [if_neg h, ← e4]
      refine Finset.sum_congr rfl fun i _ => ?_
      by_cases h' : i + 1 = (j : ℕ)
      · rw [if_pos h', if_pos (by omega)]
      · rw [if_neg h', if_neg (by omega)]
  rw [e1, e2, e3]

theorem net_BT (hG : g.Gamma = some G) (hg : IsNetwork g g.N beta alpha rho kappa) (x : Fin g.N → ℂ) (l : Fin g.L) :
    ((toM g.N g.L g.B)ᵀ.map (fun a => (a : ℂ)) *ᵥ x) l = beta 0 * ext0 x 0 := by
  have hl : (l : ℕ) = 0 := by have := l.2; have := hg.l; omega
  have e : ((toM g.N g.L g.B)ᵀ.map (fun a => (a : ℂ)) *ᵥ x) l = ∑ i ∈ Finset.range g.N, (if i = 0 then (beta i : ℂ) * ext0 x i else 0) := by
    rw [← Fin.sum_univ_eq_sum_range (fun i => if i = 0 then (beta i : ℂ) * ext0 x i else 0)]
    simp only [Matrix.mulVec, dotProduct]
    refine Finset.sum_congr rfl fun i _ => ?_
    have hx : ext0 x i = x i := by rw [ext0, dif_pos i.2]
    rw [Matrix.map_apply, Matrix.transpose_apply, toM, Matrix.of_apply, hl, net_B hG hg i.2, hx]
    by_cases h : (i : ℕ) = 0
    · rw [if_pos h, if_pos h, h]
    · rw [if_neg h, if_neg h]; simp
  rw [e, Finset.sum_ite_eq' _ 0]
  by_cases h : 0 < g.N
  · rw [if_pos (Finset.mem_range.2 h)]
  · rw [if_neg (by rwa [Finset.mem_range]), ext0, dif_neg h, mul_zero]

theorem net_reachable (hG : g.Gamma = some G) (hg : IsNetwork g g.N beta alpha rho kappa) (hb : ∀ n < g.N, beta n ≠ 0) :
    Observable (toM g.N g.L g.B)ᵀ (toM g.N g.N g.A)ᵀ := by
  intro μ x hx he hB
  refine hx ?_
  have key : ∀ n : ℕ, ext0 x n = 0 := by
    intro n
    induction n using Nat.strong_induction_on with
    | _ n ih =>
      by_cases hn : n < g.N
      swap
      · rw [ext0, dif_neg hn]
      cases n with
      | zero =>
        have h := congrFun hB ⟨0, by rw [hg.l]; omega⟩
        rw [net_BT hG hg, Pi.zero_apply] at h
        exact (mul_eq_zero.1 h).resolve_left (by exact_mod_cast hb 0 hn)
      | succ n =>
        have h := congrFun he ⟨n, by omega⟩
        rw [net_AT hG hg] at h
        have hxn : x ⟨n, by omega⟩ = 0 := by
          have := ih n (by omega)
          rwa [ext0, dif_pos (by omega)] at this
        have h3 : (if n = 0 then (0 : ℂ) else alpha (n - 1) * ext0 x (n - 1)) = 0 := by
          by_cases h0 : n = 0
          · rw [if_pos h0]
          · rw [if_neg h0, ih (n - 1) (by omega), mul_zero]
        rw [Pi.smul_apply, hxn, smul_zero] at h
        dsimp only at h
        rw [h3, ih n (by omega), mul_zero, zero_add, add_zero] at h
        exact (mul_eq_zero.1 h).resolve_left (by exact_mod_cast hb _ hn)
  funext n
  have := key n
  rwa [ext0, dif_pos n.2] at this

theorem net_unreachable (hG : g.Gamma = some G) (hg : IsNetwork g g.N beta alpha rho kappa) {p : ℕ} (hp : p < g.N) (hb : beta p = 0) :
    ¬ Observable (toM g.N g.L g.B)ᵀ (toM g.N g.N g.A)ᵀ := by
  intro h
  let W : Submodule ℂ (Fin g.N → ℂ) :=
    { carrier := {x | ∀ i : Fin g.N, (i : ℕ) < p → x i = 0}
      add_mem' := fun {a b} ha hb i hi => by rw [Pi.add_apply, ha i hi, hb i hi, add_zero]
      zero_mem' := fun _ _ => rfl
      smul_mem' := fun c x hx i hi => by rw [Pi.smul_apply, hx i hi, smul_zero] }
  have hext : ∀ x ∈ W, ∀ i < p, ext0 x i = 0 := fun x hx i hi => by
    rw [ext0, dif_pos (by omega)]
    exact hx ⟨i, by omega⟩ hi
  have hW : ∀ x ∈ W, ((toM g.N g.N g.A)ᵀ.map (fun a => (a : ℂ))).mulVecLin x ∈ W := by
    intro x hx i hi
    rw [Matrix.mulVecLin_apply, net_AT hG hg, hext x hx i hi]
    have e1 : (beta (i + 1) : ℂ) * ext0 x (i + 1) = 0 := by
      by_cases h' : (i : ℕ) + 1 = p
      · rw [h', hb]; simp
      · rw [hext x hx _ (by omega), mul_zero]
    rw [e1]
    by_cases h0 : (i : ℕ) = 0
    · rw [if_pos h0]; simp
    · rw [if_neg h0, hext x hx _ (by omega)]; simp
  have hne : Nontrivial W := by
    refine ⟨⟨⟨Pi.single ⟨p, hp⟩ 1, fun i hi => ?_⟩, 0, fun h0 => ?_⟩⟩
    · rw [Pi.single_eq_of_ne]
      intro h'
      rw [h'] at hi
      simp at hi
    · have := congrFun (congrArg Subtype.val h0) ⟨p, hp⟩
      simp at this
  obtain ⟨μ, hμ⟩ := Module.End.exists_eigenvalue (((toM g.N g.N g.A)ᵀ.map (fun a => (a : ℂ))).mulVecLin.restrict hW)
  obtain ⟨⟨x, hx⟩, hv⟩ := hμ.exists_hasEigenvector
  have h1 := congrArg Subtype.val hv.apply_eq_smul
  refine h μ x (fun h0 => hv.2 (Subtype.ext h0)) h1 ?_
  funext l
  rw [net_BT hG hg, Pi.zero_apply]
  by_cases h0 : p = 0
  · rw [← h0, hb]; simp
  · rw [hext x hx 0 (by omega), mul_zero]

theorem net_observable (hg : IsNetwork g g.N beta alpha rho kappa) : Observable (toM g.Nt g.N g.CT) (toM g.N g.N g.A) := by
  intro μ x hx _ hC
  refine hx (funext fun n => ?_)
  have hCT : ∀ i < g.N, ∀ j < g.N, g.CT i j = if i = j then 1 else 0 := by
    intro i hi j hj
    obtain ⟨y, h1, -, h3⟩ := hg.out fun k => if k = j then 1 else 0
    unfold Sys.signalObservation npDot at h1
    rw [if_neg (by simp), Except.ok.injEq] at h1
    have := h3 i hi
    rw [← h1] at this
    change dot g.N g.CT (fun k => if k = j then 1 else 0) i = _ at this
    rwa [dot_single _ _ _ _ hj] at this
  have h := congrFun hC ⟨n, by rw [hg.nt]; exact n.2⟩
  simp only [Matrix.mulVec, dotProduct, Matrix.map_apply, toM, Matrix.of_apply] at h
  rw [Finset.sum_eq_single n (fun j _ hj => by
    rw [hCT n n.2 j j.2, if_neg (fun h' => hj (Fin.ext h'.symm))]; simp) (by simp), hCT n n.2 n n.2, if_pos rfl] at h
  simpa using h

theorem net_reachable_iff {beta : List ℝ} (hG : g.Gamma = some G) (hg : IsNetwork g g.N (fun n => beta.getD n 0) alpha rho kappa)
    (hN : g.N = beta.length) : Observable (toM g.N g.L g.B)ᵀ (toM g.N g.N g.A)ᵀ ↔ ∀ b ∈ beta, b ≠ 0 := by
  constructor
  · intro h b hb h0
    obtain ⟨n, hn, hv⟩ := List.getElem_of_mem hb
    refine net_unreachable hG hg (p := n) (by omega) ?_ h
    rw [List.getD_eq_getElem?_getD, List.getElem?_eq_getElem hn, Option.getD_some, hv, h0]
  · intro h
    refine net_reachable hG hg fun n hn => ?_
    rw [List.getD_eq_getElem?_getD, List.getElem?_eq_getElem (by omega), Option.getD_some]
    exact h _ (List.getElem_mem _)

end

end Cbadc.EndToEnd
