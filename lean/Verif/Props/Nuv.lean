import Verif.Lemmas.NuvChain
import Verif.Lemmas.NuvExample
import Verif.Lemmas.NuvRate

/-! # Properties of the NUV estimator (C99-C102) -/

namespace Cbadc.Nuv

open Matrix Set Cbadc.Analog Cbadc.Control Cbadc.Estimator Cbadc.Streams Cbadc.Filter Cbadc.Filter.Spec Cbadc.Nuv.Spec

variable {M : ℕ} {g : Sys ℝ} {G : ℕ → ℕ → ℝ} {dc : DC ℝ M} {pre : Pre g.N M} {covU bound gamma : ℝ} {K1 K2 iters os : ℕ}
  {f : Est g.N g.Nt M g.L}

/-! ### C99 -/

/-- **C99** The constructor accepts exactly a positive batch size, a non-negative look-ahead and a positive oversampling
factor. -/
theorem C99_accepts (g : Sys ℝ) (pre : Pre g.N M) (covU bound gamma : ℝ) (K1 K2 : ℤ) (iters os : ℕ) :
    ((∃ f, Est.new g pre covU bound gamma K1 K2 iters os = .ok f) ↔ 1 ≤ K1 ∧ 0 ≤ K2 ∧ os ≠ 0) ∧
      (K1 < 1 ∨ K2 < 0 → Est.new g pre covU bound gamma K1 K2 iters os = .error .exception) ∧
      (1 ≤ K1 → 0 ≤ K2 → os = 0 → Est.new g pre covU bound gamma K1 K2 iters os = .error .zeroDivision) := by
  unfold Est.new
  by_cases h1 : K1 < 1
  · rw [if_pos h1]
    exact ⟨⟨fun ⟨_, h⟩ => (nomatch h), fun h => absurd h1 (not_lt.2 h.1)⟩, fun _ => rfl, fun h => absurd h1 (not_lt.2 h)⟩
  rw [if_neg h1]
  by_cases h2 : K2 < 0
  · rw [if_pos h2]
    exact ⟨⟨fun ⟨_, h⟩ => (nomatch h), fun h => absurd h2 (not_lt.2 h.2.1)⟩, fun _ => rfl, fun _ h => absurd h2 (not_lt.2 h)⟩
  rw [if_neg h2]
  by_cases h3 : os = 0
  · rw [if_pos h3]
    exact ⟨⟨fun ⟨_, h⟩ => (nomatch h), fun h => absurd h3 h.2.2⟩, fun h => (h.elim h1 h2).elim, fun _ _ _ => rfl⟩
  · rw [if_neg h3]
    exact ⟨⟨fun _ => ⟨not_lt.1 h1, not_lt.1 h2, h3⟩, fun _ => ⟨_, rfl⟩⟩, fun h => (h.elim h1 h2).elim, fun _ _ h => absurd h h3⟩

example : (∃ f, Est.new (exSys 0) (exPre 1 2) 1 1 1 2 2 5 2 = .ok f) ∧
    Est.new (exSys 0) (exPre 1 2) 1 1 1 0 2 5 2 = .error .exception ∧
    Est.new (exSys 0) (exPre 1 2) 1 1 1 2 2 5 0 = .error .zeroDivision :=
  ⟨(C99_accepts _ _ _ _ _ _ _ _ _).1.2 (by norm_num), (C99_accepts _ _ _ _ _ _ _ _ _).2.1 (by norm_num),
    (C99_accepts _ _ _ _ _ _ _ _ _).2.2 (by norm_num) (by norm_num) rfl⟩

/-- **C99** When the oversampling factor divides batch size and look-ahead, call `n` returns an estimate that is a function of
the decisions read by then, and these are exactly the decisions up to the end of the look-ahead of its batch. -/
theorem C99_schedule (hf : Est.new g pre covU bound gamma K1 K2 iters os = .ok f) (hP : g.Nt = g.N) (h1 : os ∣ K1)
    (h2 : os ∣ K2) (src : ℕ → Res (Fin M → ℝ)) (s : ℕ → Fin M → ℝ) (n : ℕ)
    (hs : ∀ i < (n / K1 * K1 + (K1 + K2)) / os, src i = .ok (s i)) :
    (∃ v, ∀ src', (∀ i < (n / K1 * K1 + (K1 + K2)) / os, src' i = .ok (s i)) → call (f.next src') f.init n = .ok v) ∧
      (stateAfter (f.next src) f.init (n + 1)).calls = (n / K1 * K1 + (K1 + K2)) / os := by
  obtain ⟨hK1, hos, rfl⟩ := new_ok hf
  obtain ⟨b, hb⟩ : ∃ b, b = n / K1 := ⟨_, rfl⟩
  obtain ⟨j, hj, rfl⟩ : ∃ j < K1, n = b * K1 + j := ⟨n % K1, Nat.mod_lt _ hK1, by rw [hb, Nat.div_add_mod']⟩
  rw [← hb] at hs ⊢
  have hfit : Fits (⟨pre, toM g.N g.L g.B, toM g.Nt g.N g.CT, covU, bound, gamma, K1, K2, iters, os⟩ : Est g.N g.Nt M g.L) :=
    ⟨hos, hK1, h1, h2⟩
  refine ⟨⟨(fun F : Est g.N g.Nt M g.L => out F (prior F src b) (window F src b) j)
    ⟨pre, toM g.N g.L g.B, toM g.Nt g.N g.CT, covU, bound, gamma, K1, K2, iters, os⟩, fun src' hs' => ?_⟩, ?_⟩
  · have hc := call_out _ hfit hP src' b (fun i hi => Or.inr ⟨_, hs' i hi⟩)
      (fun i hi => ⟨_, hs' i (lt_of_lt_of_le hi (before_mono _ b))⟩) j hj
    refine hc.trans (congrArg _ (out_stream _ hfit hP (src' := src) b (fun i hi => ?_) hj))
    rw [smp, smp, hs' i hi, hs i hi]
  · exact calls_after _ hfit hP src b (fun i hi => Or.inr ⟨_, hs i hi⟩)
      (fun i hi => ⟨_, hs i (lt_of_lt_of_le hi (before_mono _ b))⟩) j hj

example : (stateAfter ((exEst 1 2 2 5 2).next fun k => .ok fun _ => (k % 2 : ℝ)) (exEst 1 2 2 5 2).init 4).calls = 3 :=
  (C99_schedule (ex_new 1 2 2 5 2 (by norm_num) (by norm_num)) rfl (by norm_num) (by norm_num) _ (fun k _ => (k % 2 : ℝ)) 3
    fun _ _ => rfl).2

/-- **C99** If the stream ends with `RuntimeError` after `r` decisions, and batch `b` is the first that needs more, then the
calls up to the end of that batch return the estimates for the stream that goes on with zero decisions, and all later calls
raise `StopIteration`. -/
theorem C99_end (hf : Est.new g pre covU bound gamma K1 K2 iters os = .ok f) (hP : g.Nt = g.N) (h1 : os ∣ K1)
    (h2 : os ∣ K2) (src : ℕ → Res (Fin M → ℝ)) (s : ℕ → Fin M → ℝ) (r b : ℕ) (hs : ∀ i < r, src i = .ok (s i))
    (hr : ∀ i, r ≤ i → src i = .error .runtimeError) (hb : b = 0 ∨ (b * K1 + K2) / os ≤ r)
    (hb' : r < (b * K1 + (K1 + K2)) / os) (n : ℕ) :
    call (f.next src) f.init n = if n < (b + 1) * K1 then
      call (f.next fun i => .ok (if i < r then s i else 0)) f.init n else .error .stopIteration := by
  obtain ⟨hK1, hos, rfl⟩ := new_ok hf
  have hfit : Fits (⟨pre, toM g.N g.L g.B, toM g.Nt g.N g.CT, covU, bound, gamma, K1, K2, iters, os⟩ : Est g.N g.Nt M g.L) :=
    ⟨hos, hK1, h1, h2⟩
  have hbr : before (⟨pre, toM g.N g.L g.B, toM g.Nt g.N g.CT, covU, bound, gamma, K1, K2, iters, os⟩ : Est g.N g.Nt M g.L) b ≤ r := by
    rcases b with _ | c
    · exact Nat.zero_le _
    · rcases hb with h | h
      · omega
      · rw [show (c + 1) * K1 + K2 = c * K1 + (K1 + K2) by ring] at h
        exact h
  have hsoft : ∀ i, Soft src i := by
    intro i
    by_cases hi : i < r
    · exact Or.inr ⟨_, hs i hi⟩
    · exact Or.inl (hr i (not_lt.1 hi))
  by_cases hn : n < (b + 1) * K1
  · rw [if_pos hn]
    obtain ⟨c, hc⟩ : ∃ c, c = n / K1 := ⟨_, rfl⟩
    obtain ⟨j, hj, rfl⟩ : ∃ j < K1, n = c * K1 + j := ⟨n % K1, Nat.mod_lt _ hK1, by rw [hc, Nat.div_add_mod']⟩
    have hcb : c ≤ b := by
      by_contra hcb
      have : (b + 1) * K1 ≤ c * K1 := Nat.mul_le_mul_right _ (by omega)
      omega
    have hmono : ∀ c ≤ b, before (⟨pre, toM g.N g.L g.B, toM g.Nt g.N g.CT, covU, bound, gamma, K1, K2, iters, os⟩ :
        Est g.N g.Nt M g.L) c ≤ before _ b := fun c h => monotone_nat_of_le_succ (before_mono _) h
    rw [call_out _ hfit hP src c (fun i _ => hsoft i) (fun i hi => ⟨_, hs i (by have := hmono c hcb; omega)⟩) j hj,
      call_out _ hfit hP _ c (fun i _ => Or.inr ⟨_, rfl⟩) (fun i _ => ⟨_, rfl⟩) j hj]
    refine congrArg _ (out_stream _ hfit hP c (fun i _ => ?_) hj)
    by_cases hi : i < r
    · rw [smp, smp, hs i hi]
      exact (if_pos hi).symm
    · rw [smp, smp, hr i (not_lt.1 hi)]
      exact (if_neg hi).symm
  · rw [if_neg hn]
    exact call_stopped _ hfit hP src b (fun i _ => hsoft i) (fun i hi => ⟨_, hs i (by omega)⟩) ⟨r, hb', hr r le_rfl⟩ n
      (not_lt.1 hn)

example : call ((exEst 1 2 2 5 1).next fun i => if i < 5 then .ok fun _ => (1 : ℝ) else .error .runtimeError)
    (exEst 1 2 2 5 1).init 4 = .error .stopIteration :=
  (C99_end (ex_new 1 2 2 5 1 (by norm_num) (by norm_num)) rfl (by norm_num) (by norm_num) _ (fun _ _ => (1 : ℝ)) 5 1
    (fun i hi => if_pos hi) (fun i hi => if_neg (by omega)) (Or.inr (by norm_num)) (by norm_num) 4).trans
    (if_neg (by norm_num))

/-- **C99** If it ends with any other exception, such as `StopIteration`, that exception is raised as soon as a batch needs a
decision that is missing, and by all later calls: the decisions of the incomplete batch are never used. -/
theorem C99_stop (hf : Est.new g pre covU bound gamma K1 K2 iters os = .ok f) (hP : g.Nt = g.N) (h1 : os ∣ K1)
    (h2 : os ∣ K2) (src : ℕ → Res (Fin M → ℝ)) (s : ℕ → Fin M → ℝ) (r b : ℕ) (e : Exc) (he : e ≠ .runtimeError)
    (hs : ∀ i < r, src i = .ok (s i)) (hr : ∀ i, r ≤ i → src i = .error e) (hb : b = 0 ∨ (b * K1 + K2) / os ≤ r)
    (hb' : r < (b * K1 + (K1 + K2)) / os) (n : ℕ) (hn : b * K1 ≤ n) : call (f.next src) f.init n = .error e := by
  obtain ⟨hK1, hos, rfl⟩ := new_ok hf
  have hbr : before (⟨pre, toM g.N g.L g.B, toM g.Nt g.N g.CT, covU, bound, gamma, K1, K2, iters, os⟩ : Est g.N g.Nt M g.L) b ≤ r := by
    rcases b with _ | c
    · exact Nat.zero_le _
    · rcases hb with h | h
      · omega
      · rw [show (c + 1) * K1 + K2 = c * K1 + (K1 + K2) by ring] at h
        exact h
  exact call_hard _ ⟨hos, hK1, h1, h2⟩ hP src b r e he (fun i hi => ⟨_, hs i hi⟩) hr hbr hb' n hn

example : call ((exEst 1 2 2 5 1).next fun i => if i < 5 then .ok fun _ => (1 : ℝ) else .error .stopIteration)
    (exEst 1 2 2 5 1).init 2 = .error .stopIteration :=
  C99_stop (ex_new 1 2 2 5 1 (by norm_num) (by norm_num)) rfl (by norm_num) (by norm_num) _ (fun _ _ => (1 : ℝ)) 5 1 _
    (by decide) (fun i hi => if_pos hi) (fun i hi => if_neg (by omega)) (Or.inr (by norm_num)) (by norm_num) 2 (by norm_num)

/-- **C99** On an endless stream all calls return estimates if and only if the oversampling factor divides batch size and
look-ahead; otherwise the first or the second batch raises an exception. -/
theorem C99_oversample (hf : Est.new g pre covU bound gamma K1 K2 iters os = .ok f) (hP : g.Nt = g.N)
    (src : ℕ → Res (Fin M → ℝ)) (s : ℕ → Fin M → ℝ) (hs : ∀ i, src i = .ok (s i)) :
    ((∀ n, ∃ v, call (f.next src) f.init n = .ok v) ↔ os ∣ K1 ∧ os ∣ K2) ∧
      (¬ (os ∣ K1 ∧ os ∣ K2) → call (f.next src) f.init (if os ∣ K1 + K2 then K1 else 0) = .error .exception) := by
  have hbad : ¬ (os ∣ K1 ∧ os ∣ K2) → call (f.next src) f.init (if os ∣ K1 + K2 then K1 else 0) = .error .exception := by
    obtain ⟨hK1, hos, rfl⟩ := new_ok hf
    intro h
    by_cases h3 : os ∣ K1 + K2
    · rw [if_pos h3]
      refine call_over_second _ hos hK1 hP h3 (fun h1 => h ⟨h1, ?_⟩) src fun i => ⟨_, hs i⟩
      exact (Nat.dvd_add_right h1).1 h3
    · rw [if_neg h3]
      exact call_over_first _ hos h3 src fun i => ⟨_, hs i⟩
  refine ⟨⟨fun h => ?_, fun h n => ?_⟩, hbad⟩
  · by_contra hc
    obtain ⟨v, hv⟩ := h (if os ∣ K1 + K2 then K1 else 0)
    rw [hbad hc] at hv
    cases hv
  · obtain ⟨v, hv⟩ := (C99_schedule hf hP h.1 h.2 src s n fun i _ => hs i).1
    exact ⟨v, hv src fun i _ => hs i⟩

example : call ((exEst 1 3 1 5 2).next fun i => .ok fun _ => (i : ℝ)) (exEst 1 3 1 5 2).init 3 = .error .exception :=
  (C99_oversample (ex_new 1 3 1 5 2 (by norm_num) (by norm_num)) rfl _ (fun i _ => (i : ℝ)) fun _ => rfl).2 (by norm_num)

/-- **C99** If the analog system has not as many outputs as states, the constructor accepts it, the first call raises
`ValueError`, and all later ones `Exception`. -/
theorem C99_shape (hf : Est.new g pre covU bound gamma K1 K2 iters os = .ok f) (hP : g.Nt ≠ g.N) (h1 : os ∣ K1 + K2)
    (src : ℕ → Res (Fin M → ℝ)) (s : ℕ → Fin M → ℝ) (hs : ∀ i, src i = .ok (s i)) (n : ℕ) :
    call (f.next src) f.init n = .error (if n = 0 then .valueError else .exception) := by
  obtain ⟨hK1, hos, rfl⟩ := new_ok hf
  exact call_shape _ hos hK1 h1 hP src (fun i => ⟨_, hs i⟩) n

/-- Two integrators whose last state is the only output. -/
noncomputable abbrev exTwo : Sys ℝ where
  N := 2
  L := 1
  M := 1
  Mt := 1
  Nt := 1
  A := fun i j => if i = 1 ∧ j = 0 then 1 else 0
  B := fun i _ => if i = 0 then 1 else 0
  CT := fun _ j => if j = 1 then 1 else 0
  Gamma := some fun _ _ => -1
  GammaT := some fun _ _ => 1
  D := fun _ _ => 0
  Bt := fun _ _ => 0
  At := fun _ _ => 0

example (pre : Pre 2 1) : ∃ f, Est.new exTwo pre 1 1 1 4 2 5 1 = .ok f ∧ ∀ n,
    call (f.next fun i => .ok fun _ => (i % 2 : ℝ)) f.init n = .error (if n = 0 then .valueError else .exception) := by
  obtain ⟨f, hf⟩ := (C99_accepts exTwo pre 1 1 1 4 2 5 1).1.2 (by norm_num)
  exact ⟨f, hf, C99_shape (K1 := 4) (K2 := 2) hf (by decide) (by norm_num) _ (fun i _ => (i % 2 : ℝ)) fun _ => rfl⟩

/-! ### C100 -/

/-- The smoothing problem of batch `b`: the sample times from `b * K1` on, when the first state of the batch is expected to
be near to `m0`. -/
noncomputable abbrev batchProblem (g : Sys ℝ) (G : ℕ → ℕ → ℝ) (dc : DC ℝ M) (s : ℕ → Fin M → ℝ) (os K1 K2 b : ℕ) (w bound : ℝ)
    (m0 : Fin g.N → ℝ) (V0 : Matrix (Fin g.N) (Fin g.N) ℝ) : Window g.N g.Nt g.L :=
  problem (toM g.N g.N g.A) (toM g.N g.L g.B) (toM g.Nt g.N g.CT) (toM g.N M G) (fun m t => (dc.ir m).f t) s (dc.T / os) os
    (b * K1) (K1 + K2) w bound m0 V0

/-- The common part of C100 and C101. -/
private theorem smoothing (hf : Est.new g pre covU bound gamma K1 K2 iters os = .ok f)
    (hc : Computed g G dc covU (sampleTime dc.T none os) pre) (hT : 0 < dc.T) (hu : covU ≠ 0) (hP : g.Nt = g.N)
    (hsym : ∀ i < g.N, ∀ j < g.N, g.CT i j = g.CT j i) (h1 : os ∣ K1) (h2 : os ∣ K2)
    (hwave : ∀ m, ∀ i < os, ∀ t ∈ Ico 0 (dc.T / os), (dc.ir m).f (i * (dc.T / os) + t) = (dc.ir m).f t)
    (src : ℕ → Res (Fin M → ℝ)) (s : ℕ → Fin M → ℝ) (b : ℕ) (hs : ∀ i < (b * K1 + (K1 + K2)) / os, src i = .ok (s i)) :
    ∃ m0 V0, V0.PosDef ∧ (b = 0 → m0 = 0 ∧ V0 = (10 : ℝ) ^ 12 • (1 : Matrix (Fin g.N) (Fin g.N) ℝ)) ∧
      ∃ s1 s2 u x J, (batchProblem g G dc s os K1 K2 b (covU ^ 2) bound m0 V0).Rounds gamma ((10 : ℝ) ^ (-100 : ℤ)) iters s1 s2 u x J ∧
        (b = 0 → ∀ l, s1 0 0 l = 1 ∧ s2 0 0 l = 1) ∧
        (∀ i ≤ iters, ∀ u' x' J', (batchProblem g G dc s os K1 K2 b (covU ^ 2) bound m0 V0).Explained u' x' J' →
          (batchProblem g G dc s os K1 K2 b (covU ^ 2) bound m0 V0).quad (x i) (J i) +
          (batchProblem g G dc s os K1 K2 b (covU ^ 2) bound m0 V0).spread (s1 i) (s2 i) (x i) +
          ∑ k ∈ Finset.range (K1 + K2), ∑ l,
            (((batchProblem g G dc s os K1 K2 b (covU ^ 2) bound m0 V0).y x' k l -
              (batchProblem g G dc s os K1 K2 b (covU ^ 2) bound m0 V0).y (x i) k l) ^ 2 / s1 i k l +
            ((batchProblem g G dc s os K1 K2 b (covU ^ 2) bound m0 V0).y x' k l -
              (batchProblem g G dc s os K1 K2 b (covU ^ 2) bound m0 V0).y (x i) k l) ^ 2 / s2 i k l) ≤
              (batchProblem g G dc s os K1 K2 b (covU ^ 2) bound m0 V0).quad x' J' +
              (batchProblem g G dc s os K1 K2 b (covU ^ 2) bound m0 V0).spread (s1 i) (s2 i) x' ∧
          ∃ E, Integrates (dc.T / os) (K1 + K2 - 1) (fun k t => (u' k t - u i k t) ⬝ᵥ (u' k t - u i k t)) E) ∧
        (∀ j, 0 < j → j < K1 → call (f.next src) f.init (b * K1 + j) = .ok ((1 / covU) • u iters (j - 1) (dc.T / os))) ∧
        call (f.next src) f.init (b * K1) =
          .ok (covU • (toM g.N g.L g.B)ᵀ *ᵥ (V0⁻¹ *ᵥ (x iters 0 0 - m0))) := by
  obtain ⟨hK1, hos, rfl⟩ := new_ok hf
  have hfit : Fits (⟨pre, toM g.N g.L g.B, toM g.Nt g.N g.CT, covU, bound, gamma, K1, K2, iters, os⟩ : Est g.N g.Nt M g.L) :=
    ⟨hos, hK1, h1, h2⟩
  have hTs : 0 ≤ sampleTime dc.T none os := div_nonneg hT.le (Nat.cast_nonneg _)
  have hVu : pre.Vu.PosSemidef := by
    rw [vu_eq hc]
    exact (gram_psd _ _ hTs).smul (sq_nonneg _)
  have hAf : IsUnit pre.Af := by
    rw [hc.Af]
    exact exp_isUnit _
  exact call_smoothed _ hP (fun i j => hsym i i.2 j j.2) hAf hVu hfit hu src b (fun i hi => ⟨_, hs i hi⟩)
    (fun m V => batchProblem g G dc s os K1 K2 b (covU ^ 2) bound m V)
    (fun p => prior_solves hc hT.le hu hos hK1 h1 h2 hwave src s b hs p) fun _ _ => rfl

/-- **C100** The estimates of batch `b` solve a smoothing problem for its window: among all inputs and trajectories that
explain its decisions (and those of the look-ahead), they belong to the one of least cost.  Estimate `j` is the value of that
input at the end of sampling period `j - 1`, divided by `covU`; the first estimate of a batch is not a value of the input but
proportional to the deviation of the first state.  The variance of the input in this problem is `covU ^ 2`.  Partial: the
output matrix has to be symmetric, and the waveforms of the control the same in each of the sampling periods that a control
period is divided into. -/
theorem C100_smoothing_partial (hf : Est.new g pre covU bound gamma K1 K2 iters os = .ok f)
    (hc : Computed g G dc covU (sampleTime dc.T none os) pre) (hT : 0 < dc.T) (hu : covU ≠ 0) (hP : g.Nt = g.N)
    (hsym : ∀ i < g.N, ∀ j < g.N, g.CT i j = g.CT j i) (h1 : os ∣ K1) (h2 : os ∣ K2)
    (hwave : ∀ m, ∀ i < os, ∀ t ∈ Ico 0 (dc.T / os), (dc.ir m).f (i * (dc.T / os) + t) = (dc.ir m).f t)
    (src : ℕ → Res (Fin M → ℝ)) (s : ℕ → Fin M → ℝ) (b : ℕ) (hs : ∀ i < (b * K1 + (K1 + K2)) / os, src i = .ok (s i)) :
    ∃ m0 V0, V0.PosDef ∧ (b = 0 → m0 = 0 ∧ V0 = (10 : ℝ) ^ 12 • (1 : Matrix (Fin g.N) (Fin g.N) ℝ)) ∧
      ∃ s1 s2 u x J, (batchProblem g G dc s os K1 K2 b (covU ^ 2) bound m0 V0).Rounds gamma ((10 : ℝ) ^ (-100 : ℤ)) iters s1 s2 u x J ∧
        (b = 0 → ∀ l, s1 0 0 l = 1 ∧ s2 0 0 l = 1) ∧
        (∀ j, 0 < j → j < K1 → call (f.next src) f.init (b * K1 + j) = .ok ((1 / covU) • u iters (j - 1) (dc.T / os))) ∧
        call (f.next src) f.init (b * K1) =
          .ok (covU • (toM g.N g.L g.B)ᵀ *ᵥ (V0⁻¹ *ᵥ (x iters 0 0 - m0))) := by
  obtain ⟨m0, V0, hV, h0, s1, s2, u, x, J, hR, h00, -, hj, hj0⟩ := smoothing hf hc hT hu hP hsym h1 h2 hwave src s b hs
  exact ⟨m0, V0, hV, h0, s1, s2, u, x, J, hR, h00, hj, hj0⟩

example : ∃ m0 V0, V0.PosDef ∧ ((3 : ℕ) = 0 → m0 = 0 ∧ V0 = (10 : ℝ) ^ 12 • (1 : Matrix (Fin (exSys 0).N) (Fin (exSys 0).N) ℝ)) ∧
    ∃ s1 s2 u x J, (batchProblem (exSys 0) (fun _ _ => -1) (exDC 0 (.step 0 1)) (fun i _ => (i % 2 : ℝ)) 2 4 2 3 ((1 / 2) ^ 2) 1
      m0 V0).Rounds 1 ((10 : ℝ) ^ (-100 : ℤ)) 5 s1 s2 u x J ∧
      ((3 : ℕ) = 0 → ∀ l, s1 0 0 l = 1 ∧ s2 0 0 l = 1) ∧
      (∀ j, 0 < j → j < 4 → call ((exEst (1 / 2) 4 2 5 2).next fun i => .ok fun _ => (i % 2 : ℝ)) (exEst (1 / 2) 4 2 5 2).init
        (3 * 4 + j) = .ok ((1 / (1 / 2 : ℝ)) • u 5 (j - 1) (1 / (2 : ℕ)))) ∧
      call ((exEst (1 / 2) 4 2 5 2).next fun i => .ok fun _ => (i % 2 : ℝ)) (exEst (1 / 2) 4 2 5 2).init (3 * 4) =
        .ok ((1 / 2 : ℝ) • (toM (exSys 0).N (exSys 0).L (exSys 0).B)ᵀ *ᵥ (V0⁻¹ *ᵥ (x 5 0 0 - m0))) :=
  C100_smoothing_partial (ex_new (1 / 2) 4 2 5 2 (by norm_num) (by norm_num)) (ex_computed (1 / 2) 2 (by norm_num)) one_pos
    (by norm_num) rfl (fun _ _ _ _ => rfl) (by norm_num) (by norm_num) (ex_wave 2 (by norm_num)) _ _ 3 fun _ _ => rfl

/-- **C100** With the documented variance `covU` of the input the estimates are different: for the integrator with `covU = 2`,
the second estimate is not the value of the input that solves that problem. -/
theorem C100_variance_false : ∃ f, Est.new (exSys 0) (exPre 2 1) 2 1 1 2 0 0 1 = .ok f ∧
    Computed (exSys 0) (fun _ _ => -1) (exDC 0 (.step 0 1)) 2 (sampleTime (exDC 0 (.step 0 1)).T none 1) (exPre 2 1) ∧
    ∃ u x J, (batchProblem (exSys 0) (fun _ _ => -1) (exDC 0 (.step 0 1)) (fun _ _ => 1) 1 2 0 0 2 1 0
        ((10 : ℝ) ^ 12 • 1)).Smoothed (fun _ _ => 1) (fun _ _ => 1) u x J ∧
      call (f.next fun _ => .ok fun _ => 1) f.init 1 ≠ .ok (u 0 ((exDC 0 (.step 0 1)).T / (1 : ℕ))) := by
  have ones : ∀ {p : Window (exSys 0).N (exSys 0).Nt (exSys 0).L} {γ ε : ℝ} {s1 s2 u x J}, p.K = 2 → p.Rounds γ ε 0 s1 s2 u x J →
      (∀ l, s1 0 0 l = 1 ∧ s2 0 0 l = 1) → (∀ k < 2, s1 0 k = fun _ => 1) ∧ (∀ k < 2, s2 0 k = fun _ => 1) := by
    intro p γ ε s1 s2 u x J hK h h0
    constructor
    all_goals
      intro k hk
      funext l
      rcases Nat.eq_zero_or_pos k with rfl | hk0
    · exact (h0 l).1
    · exact (h.first k hk0 (by omega) l).1
    · exact (h0 l).2
    · exact (h.first k hk0 (by omega) l).2
  have h2 : √2 ^ 2 = (2 : ℝ) := Real.sq_sqrt (by norm_num)
  refine ⟨_, ex_new 2 2 0 0 1 (by norm_num) (by norm_num), ex_computed 2 1 (by norm_num), ?_⟩
  obtain ⟨m0, V0, -, h0, s1, s2, u, x, J, hR, h00, -⟩ := C100_smoothing_partial
    (ex_new (√2) 2 0 0 1 (by norm_num) (by norm_num)) (ex_computed (√2) 1 (by norm_num)) one_pos (by positivity) rfl
    (fun _ _ _ _ => rfl) (by norm_num) (by norm_num) (ex_wave 1 (by norm_num)) (fun _ => .ok fun _ => 1) (fun _ _ => 1) 0
    fun _ _ => rfl
  obtain ⟨rfl, rfl⟩ := h0 rfl
  rw [h2] at hR
  obtain ⟨e1, e2⟩ := ones rfl hR (h00 rfl)
  have hu := ex_value 2 two_pos e1 e2 (hR.smoothed 0 le_rfl)
  refine ⟨u 0, x 0, J 0, (hR.smoothed 0 le_rfl).congr e1 e2, ?_⟩
  obtain ⟨m0, V0, -, h0, s1', s2', u', x', J', hR', h00', hj, -⟩ := C100_smoothing_partial
    (ex_new 2 2 0 0 1 (by norm_num) (by norm_num)) (ex_computed 2 1 (by norm_num)) one_pos (by norm_num) rfl
    (fun _ _ _ _ => rfl) (by norm_num) (by norm_num) (ex_wave 1 (by norm_num)) (fun _ => .ok fun _ => 1) (fun _ _ => 1) 0
    fun _ _ => rfl
  obtain ⟨rfl, rfl⟩ := h0 rfl
  obtain ⟨e1', e2'⟩ := ones rfl hR' (h00' rfl)
  have hu' := ex_value (2 ^ 2) (by norm_num) e1' e2' (hR'.smoothed 0 le_rfl)
  have hT : (exDC 0 (.step 0 1)).T / ((1 : ℕ) : ℝ) = 1 := by norm_num
  have hc := hj 1 one_pos (by norm_num)
  rw [hT] at hc ⊢
  intro h
  have h' := congrFun (Except.ok.inj (hc.symm.trans h)) 0
  have : 1 / 2 * u' 0 0 1 0 = u 0 0 1 0 := h'
  rw [hu, hu'] at this
  norm_num at this

/-- **C100** Symmetry of the output matrix cannot be dropped: for two integrators, the second of which is the first output, the
second estimate is zero, although the input that solves the smoothing problem is not. -/
theorem C100_symmetric_false : ∃ f, Est.new skSys skPre 1 1 1 2 0 0 1 = .ok f ∧
    Computed skSys skG (exDC 0 (.step 0 1)) 1 (sampleTime (exDC 0 (.step 0 1)).T none 1) skPre ∧
    ∃ u x J, (batchProblem skSys skG (exDC 0 (.step 0 1)) (fun _ _ => 1) 1 2 0 0 (1 ^ 2) 1 0
        ((10 : ℝ) ^ 12 • 1)).Smoothed (fun _ _ => 1) (fun _ _ => 1) u x J ∧
      call (f.next fun _ => .ok fun _ => 1) f.init 1 = .ok 0 ∧ u 0 ((exDC 0 (.step 0 1)).T / (1 : ℕ)) ≠ 0 := by
  refine ⟨_, sk_new, sk_computed, ?_⟩
  obtain ⟨u, x, J, h, hu⟩ := sk_value
  rw [show (1 : ℝ) ^ 2 = 1 by norm_num]
  refine ⟨u, x, J, h, ?_, fun h0 => hu ?_⟩
  · have := call_out skEst ⟨by norm_num, by norm_num, by norm_num, by norm_num⟩ rfl (fun _ => .ok fun _ => 1) 0
      (fun _ _ => Or.inr ⟨_, rfl⟩) (fun _ _ => ⟨_, rfl⟩) 1 (by norm_num)
    rw [sk_out] at this
    simpa using this
  · have hT : (exDC 0 (.step 0 1)).T / ((1 : ℕ) : ℝ) = 1 := by norm_num
    rw [hT] at h0
    exact congrFun h0 0

/-! ### C101 -/

/-- **C101** Each iteration improves the explanation that the estimates of a batch are taken from: the cost, in which the
outputs are penalised in proportion to `gamma` for leaving the bound, decreases strictly, unless no explanation at all has a
lower cost. -/
theorem C101_descent_partial (hf : Est.new g pre covU bound gamma K1 K2 iters os = .ok f)
    (hc : Computed g G dc covU (sampleTime dc.T none os) pre) (hT : 0 < dc.T) (hu : covU ≠ 0) (hP : g.Nt = g.N)
    (hsym : ∀ i < g.N, ∀ j < g.N, g.CT i j = g.CT j i) (h1 : os ∣ K1) (h2 : os ∣ K2) (hγ : 0 < gamma)
    (hwave : ∀ m, ∀ i < os, ∀ t ∈ Ico 0 (dc.T / os), (dc.ir m).f (i * (dc.T / os) + t) = (dc.ir m).f t)
    (src : ℕ → Res (Fin M → ℝ)) (s : ℕ → Fin M → ℝ) (b : ℕ) (hs : ∀ i < (b * K1 + (K1 + K2)) / os, src i = .ok (s i)) :
    ∃ m0 V0, V0.PosDef ∧ (b = 0 → m0 = 0 ∧ V0 = (10 : ℝ) ^ 12 • (1 : Matrix (Fin g.N) (Fin g.N) ℝ)) ∧
      ∃ (u : ℕ → ℕ → ℝ → Fin g.L → ℝ) (x : ℕ → ℕ → ℝ → Fin g.N → ℝ) (J : ℕ → ℕ → ℝ → ℝ),
        (∀ i ≤ iters, (batchProblem g G dc s os K1 K2 b (covU ^ 2) bound m0 V0).Explained (u i) (x i) (J i)) ∧
        (∀ i < iters,
          (batchProblem g G dc s os K1 K2 b (covU ^ 2) bound m0 V0).cost gamma ((10 : ℝ) ^ (-100 : ℤ)) (x (i + 1)) (J (i + 1)) <
            (batchProblem g G dc s os K1 K2 b (covU ^ 2) bound m0 V0).cost gamma ((10 : ℝ) ^ (-100 : ℤ)) (x i) (J i) ∨
          ∀ u' x' J', (batchProblem g G dc s os K1 K2 b (covU ^ 2) bound m0 V0).Explained u' x' J' →
            (batchProblem g G dc s os K1 K2 b (covU ^ 2) bound m0 V0).cost gamma ((10 : ℝ) ^ (-100 : ℤ)) (x i) (J i) ≤
              (batchProblem g G dc s os K1 K2 b (covU ^ 2) bound m0 V0).cost gamma ((10 : ℝ) ^ (-100 : ℤ)) x' J') ∧
        (∀ j, 0 < j → j < K1 → call (f.next src) f.init (b * K1 + j) = .ok ((1 / covU) • u iters (j - 1) (dc.T / os))) := by
  obtain ⟨m0, V0, hV, h0, s1, s2, u, x, J, hR, h00, hst, hj, -⟩ := smoothing hf hc hT hu hP hsym h1 h2 hwave src s b hs
  exact ⟨m0, V0, hV, h0, u, x, J, fun i hi => (hR.smoothed i hi).explained,
    fun i hi => hR.improves hγ (by positivity) (div_nonneg hT.le (Nat.cast_nonneg _)) (fun i hi u' x' J' h' => (hst i hi u' x' J' h').1) hi, hj⟩

example :=
  C101_descent_partial (ex_new 1 4 2 5 1 (by norm_num) (by norm_num)) (ex_computed 1 1 (by norm_num)) one_pos
    (by norm_num) rfl (fun _ _ _ _ => rfl) (by norm_num) (by norm_num) one_pos (ex_wave 1 (by norm_num))
    (fun i => .ok fun _ => (i % 2 : ℝ)) (fun i _ => (i % 2 : ℝ)) 0 fun _ _ => rfl

/-- **C101** The iterations approach the least cost: after `i` of them the cost exceeds that of any explanation by at most
`2 c ^ 2 / (gamma ^ 2 epsilon (i + 2))`, where `c` is the cost before the first iteration and `epsilon = 1e-100` the least
variance that the code allows.  Partial: as `C101_descent_partial`; the constant is enormous. -/
theorem C101_rate_partial (hf : Est.new g pre covU bound gamma K1 K2 iters os = .ok f)
    (hc : Computed g G dc covU (sampleTime dc.T none os) pre) (hT : 0 < dc.T) (hu : covU ≠ 0) (hP : g.Nt = g.N)
    (hsym : ∀ i < g.N, ∀ j < g.N, g.CT i j = g.CT j i) (h1 : os ∣ K1) (h2 : os ∣ K2) (hγ : 0 < gamma)
    (hwave : ∀ m, ∀ i < os, ∀ t ∈ Ico 0 (dc.T / os), (dc.ir m).f (i * (dc.T / os) + t) = (dc.ir m).f t)
    (src : ℕ → Res (Fin M → ℝ)) (s : ℕ → Fin M → ℝ) (b : ℕ) (hs : ∀ i < (b * K1 + (K1 + K2)) / os, src i = .ok (s i)) :
    ∃ m0 V0, V0.PosDef ∧ (b = 0 → m0 = 0 ∧ V0 = (10 : ℝ) ^ 12 • (1 : Matrix (Fin g.N) (Fin g.N) ℝ)) ∧
      ∃ (u : ℕ → ℕ → ℝ → Fin g.L → ℝ) (x : ℕ → ℕ → ℝ → Fin g.N → ℝ) (J : ℕ → ℕ → ℝ → ℝ),
        (∀ i ≤ iters, (batchProblem g G dc s os K1 K2 b (covU ^ 2) bound m0 V0).Explained (u i) (x i) (J i)) ∧
        (∀ i, 0 < i → i ≤ iters → ∀ u' x' J', (batchProblem g G dc s os K1 K2 b (covU ^ 2) bound m0 V0).Explained u' x' J' →
          (batchProblem g G dc s os K1 K2 b (covU ^ 2) bound m0 V0).cost gamma ((10 : ℝ) ^ (-100 : ℤ)) (x i) (J i) ≤
            (batchProblem g G dc s os K1 K2 b (covU ^ 2) bound m0 V0).cost gamma ((10 : ℝ) ^ (-100 : ℤ)) x' J' +
            2 * (batchProblem g G dc s os K1 K2 b (covU ^ 2) bound m0 V0).cost gamma ((10 : ℝ) ^ (-100 : ℤ)) (x 0) (J 0) ^ 2 /
              (gamma ^ 2 * (10 : ℝ) ^ (-100 : ℤ) * (i + 2))) ∧
        (∀ j, 0 < j → j < K1 → call (f.next src) f.init (b * K1 + j) = .ok ((1 / covU) • u iters (j - 1) (dc.T / os))) := by
  obtain ⟨m0, V0, hV, h0, s1, s2, u, x, J, hR, h00, hst, hj, -⟩ := smoothing hf hc hT hu hP hsym h1 h2 hwave src s b hs
  exact ⟨m0, V0, hV, h0, u, x, J, fun i hi => (hR.smoothed i hi).explained,
    fun i hi hin u' x' J' h' => hR.rate hγ (by positivity) (show 0 < covU ^ 2 by positivity) (div_nonneg hT.le (Nat.cast_nonneg _)) hV
      (fun i hi u' x' J' h' => (hst i hi u' x' J' h').2) h' hi hin, hj⟩

example :=
  C101_rate_partial (ex_new 1 4 2 5 1 (by norm_num) (by norm_num)) (ex_computed 1 1 (by norm_num)) one_pos
    (by norm_num) rfl (fun _ _ _ _ => rfl) (by norm_num) (by norm_num) one_pos (ex_wave 1 (by norm_num))
    (fun i => .ok fun _ => (i % 2 : ℝ)) (fun i _ => (i % 2 : ℝ)) 0 fun _ _ => rfl

/-- **C101** With enough iterations the cost of the explanation that the estimates of the first batch are taken from comes as
near as one likes to the least cost.  Partial: as `C101_descent_partial`. -/
theorem C101_converges_partial (K1 K2 os : ℕ) (hc : Computed g G dc covU (sampleTime dc.T none os) pre) (hT : 0 < dc.T)
    (hu : covU ≠ 0) (hP : g.Nt = g.N) (hsym : ∀ i < g.N, ∀ j < g.N, g.CT i j = g.CT j i) (h1 : os ∣ K1) (h2 : os ∣ K2)
    (hγ : 0 < gamma)
    (hwave : ∀ m, ∀ i < os, ∀ t ∈ Ico 0 (dc.T / os), (dc.ir m).f (i * (dc.T / os) + t) = (dc.ir m).f t)
    (src : ℕ → Res (Fin M → ℝ)) (s : ℕ → Fin M → ℝ) (hs : ∀ i < (K1 + K2) / os, src i = .ok (s i)) (δ : ℝ) (hδ : 0 < δ) :
    ∃ n : ℕ, ∀ iters f, n ≤ iters → Est.new g pre covU bound gamma K1 K2 iters os = .ok f →
      ∃ (u : ℕ → ℝ → Fin g.L → ℝ) (x : ℕ → ℝ → Fin g.N → ℝ) (J : ℕ → ℝ → ℝ),
        (batchProblem g G dc s os K1 K2 0 (covU ^ 2) bound 0 ((10 : ℝ) ^ 12 • 1)).Explained u x J ∧
        (∀ u' x' J', (batchProblem g G dc s os K1 K2 0 (covU ^ 2) bound 0 ((10 : ℝ) ^ 12 • 1)).Explained u' x' J' →
          (batchProblem g G dc s os K1 K2 0 (covU ^ 2) bound 0 ((10 : ℝ) ^ 12 • 1)).cost gamma ((10 : ℝ) ^ (-100 : ℤ)) x J ≤
            (batchProblem g G dc s os K1 K2 0 (covU ^ 2) bound 0 ((10 : ℝ) ^ 12 • 1)).cost gamma ((10 : ℝ) ^ (-100 : ℤ)) x' J' + δ) ∧
        (∀ j, 0 < j → j < K1 → call (f.next src) f.init j = .ok ((1 / covU) • u (j - 1) (dc.T / os))) := by
  have hs' : ∀ i < (0 * K1 + (K1 + K2)) / os, src i = .ok (s i) := fun i hi => hs i (by simpa using hi)
  by_cases hex : ∃ iters f, Est.new g pre covU bound gamma K1 K2 iters os = .ok f
  · obtain ⟨i0, f0, hf0⟩ := hex
    obtain ⟨m0, V0, -, h0, s1, s2, u, x, J, hR, h00, -⟩ := smoothing hf0 hc hT hu hP hsym h1 h2 hwave src s 0 hs'
    obtain ⟨rfl, rfl⟩ := h0 rfl
    obtain ⟨c, hcost⟩ : ∃ c, c = (batchProblem g G dc s os K1 K2 0 (covU ^ 2) bound 0 ((10 : ℝ) ^ 12 • 1)).cost gamma ((10 : ℝ) ^ (-100 : ℤ)) (x 0) (J 0) := ⟨_, rfl⟩
    obtain ⟨n, hn⟩ := exists_nat_gt (2 * c ^ 2 / (gamma ^ 2 * (10 : ℝ) ^ (-100 : ℤ)) / δ)
    refine ⟨n + 1, fun iters f hi hf => ?_⟩
    obtain ⟨m0, V0, hV, h0', t1, t2, u', x', J', hR', h00', hst, hj, -⟩ := smoothing hf hc hT hu hP hsym h1 h2 hwave src s 0 hs'
    obtain ⟨rfl, rfl⟩ := h0' rfl
    have hc0 : (batchProblem g G dc s os K1 K2 0 (covU ^ 2) bound 0 ((10 : ℝ) ^ 12 • 1)).cost gamma ((10 : ℝ) ^ (-100 : ℤ)) (x' 0) (J' 0) = c := by
      rw [hcost]
      refine smoothed_cost (div_nonneg hT.le (Nat.cast_nonneg _)) (fun k hk l => ?_) (hR'.smoothed 0 (Nat.zero_le _))
        (hR.smoothed 0 (Nat.zero_le _))
      rcases Nat.eq_zero_or_pos k with rfl | h
      · rw [(h00' rfl l).1, (h00' rfl l).2, (h00 rfl l).1, (h00 rfl l).2]
        exact ⟨rfl, rfl⟩
      · rw [(hR'.first k h hk l).1, (hR'.first k h hk l).2, (hR.first k h hk l).1, (hR.first k h hk l).2]
        exact ⟨rfl, rfl⟩
    refine ⟨u' iters, x' iters, J' iters, (hR'.smoothed iters le_rfl).explained, fun v y I hv => ?_, fun j hj0 hj1 => ?_⟩
    · have h := hR'.rate hγ (by positivity) (show 0 < covU ^ 2 by positivity) (div_nonneg hT.le (Nat.cast_nonneg _)) hV
        (fun i hi u' x' J' h' => (hst i hi u' x' J' h').2) hv (i := iters) (by omega) le_rfl
      rw [hc0] at h
      refine h.trans (add_le_add le_rfl ?_)
      have hε : (0 : ℝ) < gamma ^ 2 * (10 : ℝ) ^ (-100 : ℤ) := by positivity
      have hit : (n : ℝ) ≤ iters := by exact_mod_cast (by omega : n ≤ iters)
      rw [← div_div, div_le_iff₀ (by positivity)]
      rw [div_lt_iff₀ hδ] at hn
      have : (n : ℝ) * δ ≤ (iters + 2) * δ := mul_le_mul_of_nonneg_right (by linarith) hδ.le
      linarith
    · have := hj j hj0 hj1
      rwa [zero_mul, zero_add] at this
  · exact ⟨0, fun iters f _ hf => absurd ⟨iters, f, hf⟩ hex⟩

example :=
  C101_converges_partial (bound := 1) 4 2 1 (ex_computed 1 1 (by norm_num)) one_pos (by norm_num) rfl (fun _ _ _ _ => rfl)
    (by norm_num) (by norm_num) (one_pos (α := ℝ)) (ex_wave 1 (by norm_num)) (fun i => .ok fun _ => (i % 2 : ℝ))
    (fun i _ => (i % 2 : ℝ)) (fun _ _ => rfl) (1 / 1000) (by norm_num)

/-! ### C102 -/

/-- **C102** The windows of consecutive batches do not join: without iterations and oversampling, the last decision of each
batch has no influence at all on the estimates of later batches.  For a batch size of one, no decision before the current one
has any. -/
theorem C102_chain_false (hf : Est.new g pre covU bound gamma K1 K2 0 1 = .ok f) (hP : g.Nt = g.N)
    (src src' : ℕ → Res (Fin M → ℝ)) (s s' : ℕ → Fin M → ℝ) (hs : ∀ i, src i = .ok (s i)) (hs' : ∀ i, src' i = .ok (s' i))
    (n : ℕ) (h : ∀ i, n / K1 * K1 ≤ i ∨ i % K1 ≠ K1 - 1 → s i = s' i) :
    call (f.next src) f.init n = call (f.next src') f.init n := by
  obtain ⟨hK1, hos, rfl⟩ := new_ok hf
  obtain ⟨b, hb⟩ : ∃ b, b = n / K1 := ⟨_, rfl⟩
  obtain ⟨j, hj, rfl⟩ : ∃ j < K1, n = b * K1 + j := ⟨n % K1, Nat.mod_lt _ hK1, by rw [hb, Nat.div_add_mod']⟩
  rw [← hb] at h
  have hfit : Fits (⟨pre, toM g.N g.L g.B, toM g.Nt g.N g.CT, covU, bound, gamma, K1, K2, 0, 1⟩ : Est g.N g.Nt M g.L) :=
    ⟨hos, hK1, one_dvd _, one_dvd _⟩
  have e : ∀ i, b * K1 ≤ i ∨ i % K1 ≠ K1 - 1 → smp src i = smp src' i := by
    intro i hi
    rw [smp, smp, hs, hs', h i hi]
  have hp := prior_congr_last (⟨pre, toM g.N g.L g.B, toM g.Nt g.N g.CT, covU, bound, gamma, K1, K2, 0, 1⟩ :
    Est g.N g.Nt M g.L) hP rfl rfl (src := src) (src' := src') (fun i hi => e i (Or.inr hi)) b
  rw [call_out _ hfit hP src b (fun i _ => Or.inr ⟨_, hs i⟩) (fun i _ => ⟨_, hs i⟩) j hj,
    call_out _ hfit hP src' b (fun i _ => Or.inr ⟨_, hs' i⟩) (fun i _ => ⟨_, hs' i⟩) j hj, hp]
  refine congrArg _ (out_congr _ hP _ (fun k _ => ?_) hj)
  unfold window
  dsimp only
  rw [Nat.div_one, e _ (Or.inl (Nat.le_add_right _ _))]

example : call ((exEst 1 2 2 0 1).next fun i => .ok fun _ => if i = 1 then 1 else 0) (exEst 1 2 2 0 1).init 2 =
    call ((exEst 1 2 2 0 1).next fun _ => .ok fun _ => 0) (exEst 1 2 2 0 1).init 2 :=
  C102_chain_false (ex_new 1 2 2 0 1 (by norm_num) (by norm_num)) rfl _ _ (fun i _ => if i = 1 then 1 else 0) (fun _ _ => 0)
    (fun _ => rfl) (fun _ => rfl) 2 fun i hi => by
      funext l
      by_cases h : i = 1
      · subst h
        simp at hi
      · exact if_neg h

/-- **C102** What a batch of at least two sample times expects of its first state, at sample time `(b + 1) * K1`: the state that
the batch before leads to one period earlier, at sample time `(b + 1) * K1 - 1`, if its decisions up to there are explained at
least cost, with the weights of its last round, and with no input in the last period.  Partial: it should be the state at
sample time `(b + 1) * K1`. -/
theorem C102_handover_partial (hf : Est.new g pre covU bound gamma K1 K2 iters os = .ok f)
    (hc : Computed g G dc covU (sampleTime dc.T none os) pre) (hT : 0 < dc.T) (hu : covU ≠ 0) (hP : g.Nt = g.N)
    (hsym : ∀ i < g.N, ∀ j < g.N, g.CT i j = g.CT j i) (h1 : os ∣ K1) (h2 : os ∣ K2) (hK : 2 ≤ K1)
    (hwave : ∀ m, ∀ i < os, ∀ t ∈ Ico 0 (dc.T / os), (dc.ir m).f (i * (dc.T / os) + t) = (dc.ir m).f t)
    (src : ℕ → Res (Fin M → ℝ)) (s : ℕ → Fin M → ℝ) (hs : ∀ i, src i = .ok (s i)) :
    ∃ (m0 : ℕ → Fin g.N → ℝ) (V0 : ℕ → Matrix (Fin g.N) (Fin g.N) ℝ), m0 0 = 0 ∧ V0 0 = (10 : ℝ) ^ 12 • 1 ∧
      ∀ b, (V0 b).PosDef ∧ ∃ s1 s2 u x J,
        (batchProblem g G dc s os K1 K2 b (covU ^ 2) bound (m0 b) (V0 b)).Rounds gamma ((10 : ℝ) ^ (-100 : ℤ)) iters s1 s2 u x J ∧
        (∀ j, 0 < j → j < K1 → call (f.next src) f.init (b * K1 + j) = .ok ((1 / covU) • u iters (j - 1) (dc.T / os))) ∧
        ∃ u' x' J' z, ({ batchProblem g G dc s os K1 K2 b (covU ^ 2) bound (m0 b) (V0 b) with K := K1 - 1 } :
            Window g.N g.Nt g.L).Smoothed (s1 iters) (s2 iters) u' x' J' ∧
          Flow (toM g.N g.N g.A) ((batchProblem g G dc s os K1 K2 b (covU ^ 2) bound (m0 b) (V0 b)).q (K1 - 2)) 0 (dc.T / os) z ∧
          z 0 = x' (K1 - 2) 0 ∧ z (dc.T / os) = m0 (b + 1) := by
  obtain ⟨hK1, hos, rfl⟩ := new_ok hf
  obtain ⟨n, rfl⟩ : ∃ n, K1 = n + 2 := ⟨K1 - 2, by omega⟩
  have hfit : Fits (⟨pre, toM g.N g.L g.B, toM g.Nt g.N g.CT, covU, bound, gamma, n + 2, K2, iters, os⟩ : Est g.N g.Nt M g.L) :=
    ⟨hos, hK1, h1, h2⟩
  have hVu : pre.Vu.PosSemidef := by
    rw [vu_eq hc]
    exact (gram_psd _ _ (div_nonneg hT.le (Nat.cast_nonneg _))).smul (sq_nonneg _)
  have hAf : IsUnit pre.Af := by
    rw [hc.Af]
    exact exp_isUnit _
  exact call_chain _ hP (fun i j => hsym i i.2 j j.2) hAf hVu hfit hu rfl src (fun i => ⟨_, hs i⟩)
    (fun b m V => batchProblem g G dc s os (n + 2) K2 b (covU ^ 2) bound m V)
    (fun b p => prior_solves hc hT.le hu hos hK1 h1 h2 hwave src s b (fun i _ => hs i) p) fun _ _ _ => rfl

example :=
  C102_handover_partial (ex_new 1 4 2 5 2 (by norm_num) (by norm_num)) (ex_computed 1 2 (by norm_num)) one_pos
    (by norm_num) rfl (fun _ _ _ _ => rfl) (by norm_num) (by norm_num) (by norm_num) (ex_wave 2 (by norm_num))
    (fun i => .ok fun _ => (i % 2 : ℝ)) (fun i _ => (i % 2 : ℝ)) fun _ => rfl

end Cbadc.Nuv
