import Verif.Lemmas.LC
import Verif.Spec.LC
import Mathlib.Algebra.BigOperators.Intervals

/-! # The models of the LC frontend -/

namespace Cbadc.Circuit

open Spec Analog

variable {ids : String → ℕ → String}

section

variable {K : Type*} [Field K] [LinearOrder K] (solve : ℕ → K → (K → (ℕ → K) → ℕ → K) → ℕ → K)
  (glob : Sys K → (ℕ → ℕ → K) × (ℕ → ℕ → K) × (ℕ → ℕ → K)) (M : ℕ) (L C gm fc Rin : K)

/-- The system whose responses set the gains. -/
def lcBase (M : ℕ) (L C gm Rin : K) : Sys K :=
  ⟨2 * M - 1, 1, M, 2 * M - 1, 2 * M - 1, lcA M L C Rin, lcB C Rin, eye, some (lcGamma fun m => 1 / C * (gm * (1 / 2) ^ m)),
    some (fun r c => -eye r c), fun _ _ => 0, fun _ _ => 0, fun _ _ => 0⟩

/-- The gains. -/
def lcGain (M : ℕ) (L C fc Rin : K) (m : ℕ) : K := exponentialDecay solve (1 / fc) (lcBase M L C 0 Rin) m

/-- The system handed to `get_global_control`. -/
def lcSys (gain : ℕ → K) : Sys K :=
  ⟨2 * M - 1, 1, M, M, 2 * M - 1, lcA M L C Rin, lcB C Rin, eye, some (lcGamma gain), some (fun r c => -lcGamma gain c r),
    fun _ _ => 0, fun _ _ => 0, fun _ _ => 0⟩

/-- The extended system. -/
def lcExt (gain : ℕ → K) : Sys K :=
  { lcSys M L C Rin gain with
    GammaT := some (glob (lcSys M L C Rin gain)).1
    Bt := (glob (lcSys M L C Rin gain)).2.1
    At := (glob (lcSys M L C Rin gain)).2.2 }

/-- The exposed system. -/
def lcRed (gain : ℕ → K) : Sys K := { lcExt glob M L C Rin gain with N := M, Nt := M }

/-- What the constructor returns. -/
theorem lcFrontend_eq (hM : M ≠ 0) (hRC : Rin * C ≠ 0) (hfc : fc ≠ 0) : ∃ s,
    lcFrontend ids solve glob M L C gm fc Rin =
      .ok ⟨lcExt glob M L C Rin (lcGain solve M L C fc Rin), lcRed glob M L C Rin (lcGain solve M L C fc Rin), s⟩ ∧
    Sub.run (Obj.name ids) (lcOps M L C Rin (lcGain solve M L C fc Rin)) .empty = .ok s ∧
    s.netlist (Obj.name ids) = lcNet M L C Rin (lcGain solve M L C fc Rin) ∧ (s.parts.map Part.inst).Nodup := by
  obtain ⟨s, h1, h2, h3⟩ := lc_netlist ids M hM L C Rin (lcGain solve M L C fc Rin)
  refine ⟨s, ?_, h1, h2, h3⟩
  unfold lcFrontend
  rw [if_neg hM, if_neg hRC, if_neg hfc]
  have e0 : Sys.new (.mat (2 * M - 1) (2 * M - 1) (lcA M L C Rin)) (.mat (2 * M - 1) 1 (lcB C Rin))
      (.mat (2 * M - 1) (2 * M - 1) eye) (some (.mat (2 * M - 1) M (lcGamma fun m => 1 / C * (gm * (1 / 2) ^ m))))
      (some (.mat (2 * M - 1) (2 * M - 1) fun r c => -eye r c)) none none none = .ok (lcBase M L C gm Rin) := by
    simp [Sys.new, checkGamma, checkGammaT, checkB, checkCT, checkOpt, Arr.shape0, Arr.shape1, Arr.entries,
      bind, Except.bind, lcBase]
  have e1 : exponentialDecay solve (1 / fc) (lcBase M L C gm Rin) = lcGain solve M L C fc Rin := rfl
  dsimp only
  rw [e0]
  dsimp only
  rw [e1]
  generalize lcGain solve M L C fc Rin = gain at *
  have e2 : Sys.new (.mat (2 * M - 1) (2 * M - 1) (lcA M L C Rin)) (.mat (2 * M - 1) 1 (lcB C Rin))
      (.mat (2 * M - 1) (2 * M - 1) eye) (some (.mat (2 * M - 1) M (lcGamma gain)))
      (some (.mat M (2 * M - 1) fun r c => -lcGamma gain c r)) none none none = .ok (lcSys M L C Rin gain) := by
    simp [Sys.new, checkGamma, checkGammaT, checkB, checkCT, checkOpt, Arr.shape0, Arr.shape1, Arr.entries,
      bind, Except.bind, lcSys]
  rw [e2]
  dsimp only
  have e3 : Sys.new (.mat (2 * M - 1) (2 * M - 1) (lcA M L C Rin)) (.mat (2 * M - 1) 1 (lcB C Rin))
      (.mat (2 * M - 1) (2 * M - 1) eye) (some (.mat (2 * M - 1) M (lcGamma gain)))
      (some (.mat M (2 * M - 1) (glob (lcSys M L C Rin gain)).1)) none
      (some (.mat M 1 (glob (lcSys M L C Rin gain)).2.1)) (some (.mat M M (glob (lcSys M L C Rin gain)).2.2)) =
      .ok (lcExt glob M L C Rin gain) := by
    simp [Sys.new, checkGamma, checkGammaT, checkB, checkCT, checkOpt, Arr.shape0, Arr.shape1, Arr.entries,
      bind, Except.bind, lcSys, lcExt]
  rw [e3]
  dsimp only
  have e4 : Sys.new (.mat M M (lcExt glob M L C Rin gain).A) (.mat M 1 (lcExt glob M L C Rin gain).B)
      (.mat M M eye) (some (.mat M M (lcGamma gain)))
      (some (.mat M M (glob (lcSys M L C Rin gain)).1)) none
      (some (.mat M 1 (glob (lcSys M L C Rin gain)).2.1)) (some (.mat M M (glob (lcSys M L C Rin gain)).2.2)) =
      .ok (lcRed glob M L C Rin gain) := by
    simp [Sys.new, checkGamma, checkGammaT, checkB, checkCT, checkOpt, Arr.shape0, Arr.shape1, Arr.entries,
      bind, Except.bind, lcSys, lcExt, lcRed]
  rw [e4]
  dsimp only
  rw [h1]

omit [LinearOrder K] in
/-- The rows of the capacitors. -/
theorem lcA_cap (x : ℕ → K) (m : ℕ) (hm : m < M) :
    ∑ j ∈ Finset.range (2 * M - 1), lcA M L C Rin m j * x j =
      (if m = 0 then -1 / (Rin * C) * x 0 else x (M + (m - 1)) / C) - (if m + 1 < M then x (M + m) / C else 0) := by
  rw [show 2 * M - 1 = M + (M - 1) by omega, Finset.sum_range_add]
  have h1 : ∑ j ∈ Finset.range M, lcA M L C Rin m j * x j = if m = 0 then -1 / (Rin * C) * x 0 else 0 := by
    rw [Finset.sum_eq_single 0]
    · unfold lcA
      by_cases h0 : m = 0
      · rw [if_pos ⟨h0, rfl⟩, if_pos h0]
      · rw [if_neg (fun h => h0 h.1), if_neg (by omega), if_neg (by omega), if_neg h0, zero_mul]
    · intro j hj hj0
      rw [Finset.mem_range] at hj
      unfold lcA
      rw [if_neg (fun h => hj0 h.2), if_neg (by omega), if_neg (by omega), zero_mul]
    · intro h
      exact absurd (Finset.mem_range.mpr (by omega)) h
  have h2 : ∀ k ∈ Finset.range (M - 1), lcA M L C Rin m (M + k) * x (M + k) =
      (if k = m - 1 then (if m = 0 then 0 else x (M + (m - 1)) / C) else 0) - (if k = m then x (M + m) / C else 0) := by
    intro k _
    unfold lcA
    rw [if_neg (by omega), if_neg (by omega), if_pos ⟨hm, by omega⟩, Nat.add_sub_cancel_left]
    by_cases hk : k = m
    · subst hk
      by_cases h0 : k = 0
      · simp [h0]; ring
      · have e1 : ¬ k = k - 1 := by omega
        simp [e1]; ring
    · by_cases hk' : k + 1 = m
      · have e1 : k = m - 1 := by omega
        have e2 : m ≠ 0 := by omega
        rw [if_neg hk, if_pos hk', if_pos e1, if_neg e2, if_neg hk, e1]
        ring
      · rw [if_neg hk, if_neg hk', if_neg hk]
        by_cases h0 : m = 0
        · simp [h0]
        · have e1 : ¬ k = m - 1 := by omega
          simp [e1]
  rw [h1, Finset.sum_congr rfl h2, Finset.sum_sub_distrib, Finset.sum_ite_eq', Finset.sum_ite_eq']
  simp only [Finset.mem_range]
  by_cases h0 : m = 0
  · by_cases h3 : m + 1 < M
    · have e1 : m < M - 1 := by omega
      subst h0
      simp [e1, h3]
      ring
    · simp [h0, show ¬ (0 < M - 1) by omega, show ¬ (1 < M) by omega]
  · have e1 : m - 1 < M - 1 := by omega
    by_cases h3 : m + 1 < M
    · have e2 : m < M - 1 := by omega
      simp [h0, h3, e1, e2]
    · have e2 : ¬ m < M - 1 := by omega
      simp [h0, h3, e1, e2]

omit [LinearOrder K] in
/-- The rows of the inductors. -/
theorem lcA_ind (x : ℕ → K) (k : ℕ) (hk : k + 1 < M) :
    ∑ j ∈ Finset.range (2 * M - 1), lcA M L C Rin (M + k) j * x j = (x k - x (k + 1)) / (2 * L) := by
  rw [show 2 * M - 1 = M + (M - 1) by omega, Finset.sum_range_add]
  have h1 : ∀ j ∈ Finset.range M, lcA M L C Rin (M + k) j * x j =
      (if j = k then x k / (2 * L) else 0) - (if j = k + 1 then x (k + 1) / (2 * L) else 0) := by
    intro j hj
    rw [Finset.mem_range] at hj
    unfold lcA
    rw [if_neg (by omega), if_pos ⟨by omega, hj⟩, Nat.add_sub_cancel_left]
    by_cases h : j = k
    · subst h
      simp; ring
    · by_cases h' : j = k + 1
      · subst h'
        simp; ring
      · simp [h, h']
  have h2 : ∑ j ∈ Finset.range (M - 1), lcA M L C Rin (M + k) (M + j) * x (M + j) = 0 := by
    apply Finset.sum_eq_zero
    intro j _
    unfold lcA
    rw [if_neg (by omega), if_neg (by omega), if_neg (by omega), zero_mul]
  rw [h2, Finset.sum_congr rfl h1, Finset.sum_sub_distrib, Finset.sum_ite_eq', Finset.sum_ite_eq',
    if_pos (Finset.mem_range.mpr (by omega)), if_pos (Finset.mem_range.mpr hk), add_zero, sub_div]

omit [LinearOrder K] in
/-- The rows of the control input matrix. -/
theorem lcGamma_row (gain : ℕ → K) (s : ℕ → K) (n : ℕ) :
    ∑ m ∈ Finset.range M, lcGamma gain n m * s m = if n < M then gain n * s n else 0 := by
  unfold lcGamma
  simp only [ite_mul, zero_mul]
  rw [Finset.sum_ite_eq]
  simp only [Finset.mem_range]

end

/-- The state equation of the extended system is the ladder. -/
theorem lcExt_ladder (glob) (M : ℕ) (L C Rin : ℝ) (gain : ℕ → ℝ) (hR : Rin ≠ 0) (hC : C ≠ 0) (x : ℕ → ℝ → ℝ) (u : ℝ → ℝ)
    (s : ℕ → ℝ → ℝ) :
    StateEquation (2 * M - 1) 1 M (lcExt glob M L C Rin gain).A (lcExt glob M L C Rin gain).B (lcGamma gain) x
      (fun _ => u) s ↔ Ladder M (2 * L) C Rin gain x (fun k => x (M + k)) u s := by
  have hcap : ∀ m < M, ∀ t, (∑ j ∈ Finset.range (2 * M - 1), lcA M L C Rin m j * x j t
      + ∑ l ∈ Finset.range 1, lcB C Rin m l * u t + ∑ k ∈ Finset.range M, lcGamma gain m k * s k t) =
      ((if m = 0 then (u t - x 0 t) / Rin else x (M + (m - 1)) t) - (if m + 1 < M then x (M + m) t else 0)) / C
        + gain m * s m t := by
    intro m hm t
    rw [lcA_cap M L C Rin (fun j => x j t) m hm, lcGamma_row M gain (fun j => s j t) m, if_pos hm, Finset.sum_range_one]
    unfold lcB
    by_cases h0 : m = 0
    · subst h0
      simp only [if_true, and_self]
      split_ifs <;> field_simp <;> ring
    · simp only [h0, false_and, if_false]
      split_ifs <;> field_simp <;> ring
  have hind : ∀ k, k + 1 < M → ∀ t, (∑ j ∈ Finset.range (2 * M - 1), lcA M L C Rin (M + k) j * x j t
      + ∑ l ∈ Finset.range 1, lcB C Rin (M + k) l * u t + ∑ m ∈ Finset.range M, lcGamma gain (M + k) m * s m t) =
      (x k t - x (k + 1) t) / (2 * L) := by
    intro k hk t
    rw [lcA_ind M L C Rin (fun j => x j t) k hk, lcGamma_row M gain (fun j => s j t) (M + k), if_neg (by omega),
      Finset.sum_range_one, lcB, if_neg (by omega)]
    ring
  constructor
  · intro h
    refine ⟨fun m hm t => ?_, fun k hk t => ?_⟩
    · rw [← hcap m hm t]
      exact h m (by omega) t
    · rw [← hind k hk t]
      exact h (M + k) (by omega) t
  · rintro ⟨h1, h2⟩ n hn t
    by_cases hm : n < M
    · change HasDerivAt (x n) (∑ j ∈ Finset.range (2 * M - 1), lcA M L C Rin n j * x j t
        + ∑ l ∈ Finset.range 1, lcB C Rin n l * u t + ∑ k ∈ Finset.range M, lcGamma gain n k * s k t) t
      rw [hcap n hm t]
      exact h1 n hm t
    · obtain ⟨k, rfl⟩ := Nat.exists_eq_add_of_le (not_lt.mp hm)
      change HasDerivAt (x (M + k)) (∑ j ∈ Finset.range (2 * M - 1), lcA M L C Rin (M + k) j * x j t
        + ∑ l ∈ Finset.range 1, lcB C Rin (M + k) l * u t + ∑ m ∈ Finset.range M, lcGamma gain (M + k) m * s m t) t
      rw [hind k (by omega) t]
      exact h2 k (by omega) t

end Cbadc.Circuit
