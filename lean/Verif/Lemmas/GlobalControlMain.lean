import Mathlib.Tactic.Ring
import Mathlib.Tactic.FieldSimp
import Mathlib.Tactic.LinearCombination
import Mathlib.Algebra.BigOperators.Fin
import Verif.Lemmas.GlobalControl

/-! # The energy of the output as a function of one decision -/

namespace Cbadc.Global

open Matrix Set Spec MeasureTheory Cbadc.Analog Cbadc.Control

variable {M : ℕ} {g : Sys ℝ} {G : ℕ → ℕ → ℝ} {dc : DC ℝ M} {φ : ℝ} {k : Fin M} {psiU : Fin g.L → ℝ → Fin g.N → ℝ}
  {psiS : Fin M → ℝ → Fin g.N → ℝ} {h : Fin g.N → ℝ → ℝ} {pu : Fin g.L → ℝ → ℝ} {ps : Fin M → ℝ → ℝ}

/-- the trajectory without the contribution of control `k` (a sum of solutions of
`src/cbadc/analog_frontend.py:86-165`) -/
noncomputable def rest (g : Sys ℝ) (φ : ℝ) (k : Fin M) (psiU : Fin g.L → ℝ → Fin g.N → ℝ) (psiS : Fin M → ℝ → Fin g.N → ℝ)
    (x0 : Fin g.N → ℝ) (u : Fin g.L → ℝ) (d : Fin M → ℝ) (t : ℝ) : Fin g.N → ℝ :=
  NormedSpace.exp ((t - φ) • toM g.N g.N g.A) *ᵥ x0 + ∑ l, u l • psiU l t + ∑ m ∈ Finset.univ.erase k, d m • psiS m t

/-- the inner product of the response to control `k` with the rest -/
noncomputable def cross (g : Sys ℝ) (k : Fin M) (h : Fin g.N → ℝ → ℝ) (pu : Fin g.L → ℝ → ℝ) (ps : Fin M → ℝ → ℝ)
    (e : ℝ) (x0 : Fin g.N → ℝ) (u : Fin g.L → ℝ) (d : Fin M → ℝ) : ℝ :=
  ∑ n, h n e * x0 n + ∑ l, pu l e * u l + ∑ m ∈ Finset.univ.erase k, ps m e * d m

theorem zoh_sum {L : ℕ} {T t : ℝ} (h0 : 0 ≤ t) (h1 : t < T) (u : Fin L → ℝ) : ∑ l, u l • zoh T l t = u := by
  funext i
  simp [zoh, h0, h1, Finset.sum_apply]

theorem RowSol.rest_solves (H : RowSol g G dc φ k psiU psiS h pu ps) (x0 : Fin g.N → ℝ) (u : Fin g.L → ℝ) (d : Fin M → ℝ) :
    Solves (toM g.N g.N g.A)
      (fun t => toM g.N g.L g.B *ᵥ u + toM g.N M G *ᵥ ∑ m ∈ Finset.univ.erase k, d m • corrected dc k m t)
      φ (φ + dc.T) (rest g φ k psiU psiS x0 u d) := by
  have h1 := solves_exp (toM g.N g.N g.A) x0 φ φ (φ + dc.T)
  have h2 := solves_sum Finset.univ _ _ fun l _ => (H.u l).smul (u l)
  have h3 := solves_sum (Finset.univ.erase k) _ _ fun m _ => (H.s m).smul (d m)
  refine ((h1.add h2).add h3).congr countable_empty fun t ht => ?_
  have e : toM g.N g.L g.B *ᵥ u = ∑ l, u l • (toM g.N g.L g.B *ᵥ zoh dc.T l (t - φ)) := by
    conv_lhs => rw [← zoh_sum (T := dc.T) (t := t - φ) (by linarith [ht.1.1]) (by linarith [ht.1.2]) u]
    rw [Matrix.mulVec_sum]
    exact Finset.sum_congr rfl fun l _ => Matrix.mulVec_smul _ _ _
  rw [zero_add, e, Matrix.mulVec_sum]
  congr 1
  exact Finset.sum_congr rfl fun m _ => (Matrix.mulVec_smul _ _ _).symm

theorem RowSol.rest_start (H : RowSol g G dc φ k psiU psiS h pu ps) (x0 : Fin g.N → ℝ) (u : Fin g.L → ℝ) (d : Fin M → ℝ) :
    rest g φ k psiU psiS x0 u d φ = x0 := by
  have h1 : ∑ l, u l • psiU l φ = 0 := Finset.sum_eq_zero fun l _ => by rw [H.u0, smul_zero]
  have h2 : ∑ m ∈ Finset.univ.erase k, d m • psiS m φ = 0 := Finset.sum_eq_zero fun m _ => by rw [H.s0, smul_zero]
  rw [rest, h1, h2, sub_self, Filter.exp_zero_smul, Matrix.one_mulVec, add_zero, add_zero]

/-- a trajectory is the rest plus the decision times the response to control `k` -/
theorem RowSol.split (H : RowSol g G dc φ k psiU psiS h pu ps) {x0 : Fin g.N → ℝ} {u : Fin g.L → ℝ} {d : Fin M → ℝ}
    {x : ℝ → Fin g.N → ℝ}
    (hx : Solves (toM g.N g.N g.A) (fun t => toM g.N g.L g.B *ᵥ u + toM g.N M G *ᵥ ∑ m, d m • corrected dc k m t)
      φ (φ + dc.T) x) (hx0 : x φ = x0) :
    ∀ t ∈ Icc φ (φ + dc.T), x t = rest g φ k psiU psiS x0 u d t + d k • psiS k t := by
  refine solves_unique hx (((H.rest_solves x0 u d).add ((H.s k).smul (d k))).congr countable_empty fun t _ => ?_) ?_
  · rw [← Finset.add_sum_erase _ _ (Finset.mem_univ k), Matrix.mulVec_add, Matrix.mulVec_smul]
    abel
  · rw [hx0, H.rest_start, H.s0, smul_zero, add_zero]

theorem RowSol.cross_eq (H : RowSol g G dc φ k psiU psiS h pu ps) (hT : 0 ≤ dc.T) (x0 : Fin g.N → ℝ) (u : Fin g.L → ℝ)
    (d : Fin M → ℝ) :
    ∫ t in φ..φ + dc.T, (toM g.Nt g.N g.CT *ᵥ psiS k t) ⬝ᵥ (toM g.Nt g.N g.CT *ᵥ rest g φ k psiU psiS x0 u d t) =
      cross g k h pu ps (φ + dc.T) x0 u d := by
  have hab : φ ≤ φ + dc.T := by linarith
  set C := toM g.Nt g.N g.CT with hC
  have hk := cont_mulVec C (H.s k).cont
  have c1 : ∀ n, ContinuousOn (fun t => ((C *ᵥ psiS k t) ᵥ* (C * NormedSpace.exp ((t - φ) • toM g.N g.N g.A))) n)
      (Icc φ (φ + dc.T)) := fun n => by
    show ContinuousOn (fun t => ∑ i, (C *ᵥ psiS k t) i * (C * NormedSpace.exp ((t - φ) • toM g.N g.N g.A)) i n) _
    refine continuousOn_finsetSum _ fun i _ => ((continuousOn_pi.1 hk) i).mul ?_
    show ContinuousOn (fun t => ∑ j, C i j * (NormedSpace.exp ((t - φ) • toM g.N g.N g.A)) j n) _
    refine continuousOn_finsetSum _ fun j _ => continuousOn_const.mul ?_
    exact (((continuous_exp_smul (toM g.N g.N g.A)).matrix_elem j n).comp
      (continuous_id.sub continuous_const)).continuousOn
  have c2 : ∀ l, ContinuousOn (fun t => (C *ᵥ psiS k t) ⬝ᵥ (C *ᵥ psiU l t)) (Icc φ (φ + dc.T)) := fun l =>
    cont_dot hk (cont_mulVec C (H.u l).cont)
  have c3 : ∀ m, ContinuousOn (fun t => (C *ᵥ psiS k t) ⬝ᵥ (C *ᵥ psiS m t)) (Icc φ (φ + dc.T)) := fun m =>
    cont_dot hk (cont_mulVec C (H.s m).cont)
  have e : ∀ t, (C *ᵥ psiS k t) ⬝ᵥ (C *ᵥ rest g φ k psiU psiS x0 u d t) =
      ∑ n, ((C *ᵥ psiS k t) ᵥ* (C * NormedSpace.exp ((t - φ) • toM g.N g.N g.A))) n * x0 n +
        ∑ l, (C *ᵥ psiS k t) ⬝ᵥ (C *ᵥ psiU l t) * u l +
        ∑ m ∈ Finset.univ.erase k, (C *ᵥ psiS k t) ⬝ᵥ (C *ᵥ psiS m t) * d m := by
    intro t
    rw [rest, Matrix.mulVec_add, Matrix.mulVec_add, dotProduct_add, dotProduct_add, Matrix.mulVec_sum, Matrix.mulVec_sum,
      dotProduct_sum, dotProduct_sum, Matrix.mulVec_mulVec, Matrix.dotProduct_mulVec]
    congr 1
    · congr 1
      exact Finset.sum_congr rfl fun l _ => by rw [Matrix.mulVec_smul, dotProduct_smul, smul_eq_mul, mul_comm]
    · exact Finset.sum_congr rfl fun l _ => by rw [Matrix.mulVec_smul, dotProduct_smul, smul_eq_mul, mul_comm]
  simp only [e]
  have i1 : ∀ n, IntervalIntegrable (fun t => ((C *ᵥ psiS k t) ᵥ* (C * NormedSpace.exp ((t - φ) • toM g.N g.N g.A))) n * x0 n)
      volume φ (φ + dc.T) := fun n => ((c1 n).mul continuousOn_const).intervalIntegrable_of_Icc hab
  have i2 : ∀ l, IntervalIntegrable (fun t => (C *ᵥ psiS k t) ⬝ᵥ (C *ᵥ psiU l t) * u l) volume φ (φ + dc.T) := fun l =>
    ((c2 l).mul continuousOn_const).intervalIntegrable_of_Icc hab
  have i3 : ∀ m, IntervalIntegrable (fun t => (C *ᵥ psiS k t) ⬝ᵥ (C *ᵥ psiS m t) * d m) volume φ (φ + dc.T) := fun m =>
    ((c3 m).mul continuousOn_const).intervalIntegrable_of_Icc hab
  have s1 := IntervalIntegrable.sum (μ := volume) (a := φ) (b := φ + dc.T) Finset.univ fun n _ => i1 n
  have s2 := IntervalIntegrable.sum (μ := volume) (a := φ) (b := φ + dc.T) Finset.univ fun l _ => i2 l
  have s3 := IntervalIntegrable.sum (μ := volume) (a := φ) (b := φ + dc.T) (Finset.univ.erase k) fun m _ => i3 m
  simp only [Finset.sum_fn] at s1 s2 s3
  rw [intervalIntegral.integral_add (s1.add s2) s3, intervalIntegral.integral_add s1 s2,
    intervalIntegral.integral_finsetSum fun n _ => i1 n, intervalIntegral.integral_finsetSum fun l _ => i2 l,
    intervalIntegral.integral_finsetSum fun m _ => i3 m, cross]
  congr 1
  · congr 1
    · exact Finset.sum_congr rfl fun n _ => by rw [intervalIntegral.integral_mul_const, (H.hom n).integral hab (c1 n)]
    · exact Finset.sum_congr rfl fun l _ => by rw [intervalIntegral.integral_mul_const, (H.inU l).integral hab (c2 l)]
  · exact Finset.sum_congr rfl fun m _ => by rw [intervalIntegral.integral_mul_const, (H.inS m).integral hab (c3 m)]

/-- the energy is a quadratic function of the decision -/
theorem RowSol.energy_eq (H : RowSol g G dc φ k psiU psiS h pu ps) (hT : 0 ≤ dc.T) {x0 : Fin g.N → ℝ} {u : Fin g.L → ℝ}
    {d : Fin M → ℝ} {x : ℝ → Fin g.N → ℝ}
    (hx : Solves (toM g.N g.N g.A) (fun t => toM g.N g.L g.B *ᵥ u + toM g.N M G *ᵥ ∑ m, d m • corrected dc k m t)
      φ (φ + dc.T) x) (hx0 : x φ = x0) :
    energy (toM g.Nt g.N g.CT) φ (φ + dc.T) x = energy (toM g.Nt g.N g.CT) φ (φ + dc.T) (rest g φ k psiU psiS x0 u d) +
      2 * d k * cross g k h pu ps (φ + dc.T) x0 u d + d k ^ 2 * ps k (φ + dc.T) := by
  have hab : φ ≤ φ + dc.T := by linarith
  set C := toM g.Nt g.N g.CT with hC
  have hk := cont_mulVec C (H.s k).cont
  have hr := cont_mulVec C (H.rest_solves x0 u d).cont
  have i1 := (cont_dot hr hr).intervalIntegrable_of_Icc (μ := volume) hab
  have i2 := ((cont_dot hk hr).intervalIntegrable_of_Icc (μ := volume) hab).const_mul (2 * d k)
  have i3 := ((cont_dot hk hk).intervalIntegrable_of_Icc (μ := volume) hab).const_mul (d k ^ 2)
  have e : ∀ t ∈ Icc φ (φ + dc.T), (C *ᵥ x t) ⬝ᵥ (C *ᵥ x t) =
      (C *ᵥ rest g φ k psiU psiS x0 u d t) ⬝ᵥ (C *ᵥ rest g φ k psiU psiS x0 u d t) +
        2 * d k * ((C *ᵥ psiS k t) ⬝ᵥ (C *ᵥ rest g φ k psiU psiS x0 u d t)) +
        d k ^ 2 * ((C *ᵥ psiS k t) ⬝ᵥ (C *ᵥ psiS k t)) := by
    intro t ht
    rw [H.split hx hx0 t ht, Matrix.mulVec_add, Matrix.mulVec_smul]
    rw [dotProduct_add, add_dotProduct, add_dotProduct, dotProduct_smul, dotProduct_smul, smul_dotProduct, smul_dotProduct,
      dotProduct_comm (C *ᵥ rest g φ k psiU psiS x0 u d t) (C *ᵥ psiS k t)]
    simp only [smul_eq_mul]
    ring
  rw [energy, intervalIntegral.integral_congr (g := fun t =>
      (C *ᵥ rest g φ k psiU psiS x0 u d t) ⬝ᵥ (C *ᵥ rest g φ k psiU psiS x0 u d t) +
        2 * d k * ((C *ᵥ psiS k t) ⬝ᵥ (C *ᵥ rest g φ k psiU psiS x0 u d t)) +
        d k ^ 2 * ((C *ᵥ psiS k t) ⬝ᵥ (C *ᵥ psiS k t))) (fun t ht => e t (by rwa [uIcc_of_le hab] at ht)),
    intervalIntegral.integral_add (i1.add i2) i3, intervalIntegral.integral_add i1 i2,
    intervalIntegral.integral_const_mul, intervalIntegral.integral_const_mul, H.cross_eq hT, energy,
    (H.inS k).integral hab (cont_dot hk hk)]

theorem RowSol.Q_nonneg (H : RowSol g G dc φ k psiU psiS h pu ps) (hT : 0 ≤ dc.T) : 0 ≤ ps k (φ + dc.T) := by
  have hab : φ ≤ φ + dc.T := by linarith
  have hk := cont_mulVec (toM g.Nt g.N g.CT) (H.s k).cont
  rw [(H.inS k).integral hab (cont_dot hk hk)]
  refine intervalIntegral.integral_nonneg hab fun t _ => ?_
  exact Finset.sum_nonneg fun i _ => mul_self_nonneg _

theorem rest_update {x0 : Fin g.N → ℝ} {u : Fin g.L → ℝ} {d : Fin M → ℝ} {a : ℝ} :
    rest g φ k psiU psiS x0 u (Function.update d k a) = rest g φ k psiU psiS x0 u d := by
  funext t
  rw [rest, rest]
  congr 1
  exact Finset.sum_congr rfl fun m hm => by rw [Function.update_of_ne (Finset.ne_of_mem_erase hm)]

theorem cross_update {x0 : Fin g.N → ℝ} {u : Fin g.L → ℝ} {d : Fin M → ℝ} {a e : ℝ} :
    cross g k h pu ps e x0 u (Function.update d k a) = cross g k h pu ps e x0 u d := by
  rw [cross, cross]
  congr 1
  exact Finset.sum_congr rfl fun m hm => by rw [Function.update_of_ne (Finset.ne_of_mem_erase hm)]

/-- the observation computed from the rows is the decision of least energy -/
theorem Row.optimal {GT Bt At : ℕ → ℝ} (H : Row g G dc φ k GT Bt At) (hT : 0 ≤ dc.T) {x0 : Fin g.N → ℝ} {u : Fin g.L → ℝ}
    {d : Fin M → ℝ} {a b y : ℝ} {xa xb : ℝ → Fin g.N → ℝ}
    (hy : y = ∑ n : Fin g.N, GT n * x0 n + ∑ l : Fin g.L, Bt l * u l + ∑ m : Fin M, At m * d m)
    (ha : Solves (toM g.N g.N g.A)
      (fun t => toM g.N g.L g.B *ᵥ u + toM g.N M G *ᵥ ∑ m, Function.update d k a m • corrected dc k m t) φ (φ + dc.T) xa)
    (ha0 : xa φ = x0)
    (hb : Solves (toM g.N g.N g.A)
      (fun t => toM g.N g.L g.B *ᵥ u + toM g.N M G *ᵥ ∑ m, Function.update d k b m • corrected dc k m t) φ (φ + dc.T) xb)
    (hb0 : xb φ = x0) :
    energy (toM g.Nt g.N g.CT) φ (φ + dc.T) xa ≤ energy (toM g.Nt g.N g.CT) φ (φ + dc.T) xb ↔ |a - y| ≤ |b - y| := by
  obtain ⟨psiU, psiS, h, pu, ps, HS, hQ, hB, hA, hG⟩ := H
  have hQ0 : 0 < ps k (φ + dc.T) := lt_of_le_of_ne (HS.Q_nonneg hT) (Ne.symm hQ)
  rw [HS.energy_eq hT ha ha0, HS.energy_eq hT hb hb0, rest_update, rest_update, cross_update, cross_update,
    Function.update_self, Function.update_self]
  have hc : cross g k h pu ps (φ + dc.T) x0 u d = -(y * ps k (φ + dc.T)) := by
    have e1 : ∑ n : Fin g.N, GT n * x0 n = -1 / ps k (φ + dc.T) * ∑ n, h n (φ + dc.T) * x0 n := by
      rw [Finset.mul_sum]
      exact Finset.sum_congr rfl fun n _ => by rw [hG, mul_assoc]
    have e2 : ∑ l : Fin g.L, Bt l * u l = -1 / ps k (φ + dc.T) * ∑ l, pu l (φ + dc.T) * u l := by
      rw [Finset.mul_sum]
      exact Finset.sum_congr rfl fun n _ => by rw [hB, mul_assoc]
    have e3 : ∑ m : Fin M, At m * d m = -1 / ps k (φ + dc.T) * ∑ m ∈ Finset.univ.erase k, ps m (φ + dc.T) * d m := by
      rw [← Finset.add_sum_erase _ _ (Finset.mem_univ k), hA k, if_neg (not_not.2 rfl), zero_mul, zero_add, Finset.mul_sum]
      exact Finset.sum_congr rfl fun m hm => by rw [hA, if_pos (Finset.ne_of_mem_erase hm), mul_assoc]
    rw [hy, e1, e2, e3, cross]
    field_simp
    ring
  rw [hc, ← sq_le_sq]
  constructor
  · intro hE
    have : 0 ≤ ps k (φ + dc.T) * ((b - y) ^ 2 - (a - y) ^ 2) := by nlinarith
    have := nonneg_of_mul_nonneg_right this hQ0
    linarith
  · intro hE
    have : 0 ≤ ps k (φ + dc.T) * ((b - y) ^ 2 - (a - y) ^ 2) := mul_nonneg hQ0.le (by linarith)
    nlinarith

end Cbadc.Global
