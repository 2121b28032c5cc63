import Mathlib.Tactic.FieldSimp
import Mathlib.Tactic.Positivity
import Verif.Model.Synthesis
import Verif.Props.Structures

/-! # Lemmas about synthesised frontends -/

namespace Cbadc.Synthesis
open Analog Control Signal Finset
open Analog.Spec

/-- only the first `N` coefficients of a network matter -/
theorem network_congr {g : Sys ℝ} {N : ℕ} {beta alpha rho kappa beta' alpha' rho' kappa' : ℕ → ℝ}
    (h : IsNetwork g N beta alpha rho kappa) (hb : ∀ n < N, beta n = beta' n)
    (ha : ∀ n < N, alpha n * (if n + 1 < N then 1 else 0) = alpha' n * (if n + 1 < N then 1 else 0))
    (hr : ∀ n < N, rho n = rho' n) (hk : ∀ n < N, kappa n = kappa' n) : IsNetwork g N beta' alpha' rho' kappa' where
  n := h.n
  l := h.l
  m := h.m
  mt := h.mt
  nt := h.nt
  deriv x u s := by
    obtain ⟨d, h1, h2⟩ := h.deriv x u s
    refine ⟨d, h1, fun n hn => ?_⟩
    rw [h2 n hn, hb n hn, hr n hn, hk n hn]
    have := ha n hn
    unfold following
    split_ifs at this ⊢ with hc
    · rw [mul_one, mul_one] at this
      rw [this]
    · rw [mul_zero, mul_zero]
  obs x u s := by
    obtain ⟨y, h1, h2, h3⟩ := h.obs x u s
    refine ⟨y, h1, h2, fun n hn => ?_⟩
    rw [← hk n hn]
    exact h3 n hn
  out := h.out

/-- `finish` with a square `kappa` -/
theorem finish_sq (beta : List ℝ) (hb : beta ≠ []) (A : ℕ → ℕ → ℝ) (f : ℕ → ℝ) :
    ∃ f' : ℕ → ℝ, (∀ n < beta.length, f' n = f n) ∧
      finish beta ⟨beta.length, A⟩ (.mat beta.length beta.length fun i j => if i = j then f i else 0) =
        .ok ⟨beta.length, 1, beta.length, beta.length, beta.length, A,
          fun i _ => if i = 0 then beta.getD 0 0 else 0, fun i j => if i = j then 1 else 0,
          some (fun i j => if i = j then f' i else 0), some (gammaTOf beta.length fun i j => if i = j then f' i else 0),
          fun _ _ => 0, fun _ _ => 0, fun _ _ => 0⟩ := by
  by_cases h1 : beta.length = 1
  · refine ⟨fun i => if i = 0 then f i else 0, ?_, ?_⟩
    · intro n hn
      obtain rfl : n = 0 := by omega
      exact if_pos rfl
    · have := finish_col beta hb A fun i j => if i = j then f i else 0
      rw [h1] at this ⊢
      exact this
  · refine ⟨f, fun _ _ => rfl, ?_⟩
    unfold finish
    rw [if_neg hb]
    simp only [gammaOf, if_neg h1]
    exact (C21_entries _ _ _ _ _ _ _ _ _ _ (fun _ _ => 0) (fun _ _ => 0) (fun _ _ => 0)).2

theorem ones_ne (N : ℕ) (hN : N ≠ 0) (v : ℝ) : ones N v ≠ [] := by
  unfold ones
  rw [Ne, List.replicate_eq_nil_iff]
  exact hN

theorem ones_len (N : ℕ) (v : ℝ) : (ones N v).length = N := List.length_replicate

theorem ones_get (N : ℕ) (v : ℝ) (n : ℕ) (hn : n < N) : (ones N v).getD n 0 = v := by
  unfold ones
  rw [List.getD_eq_getElem?_getD, List.getElem?_replicate, if_pos hn]
  rfl

/-- The chain with equal coefficients, and the same with an additional leak on every integrator. -/
theorem chain_eye (N : ℕ) (hN : N ≠ 0) (beta rho kappa : ℝ) :
    ∃ g, chainOfIntegrators (ones N beta) (ones N rho) (eye N kappa) = .ok g ∧
      IsNetwork g N (fun _ => beta) (fun _ => 0) (fun _ => rho) (fun _ => kappa) ∧
      (∀ δ, IsNetwork { g with A := fun r c => g.A r c + (if r = c then δ else 0) } N (fun _ => beta) (fun _ => 0)
        (fun _ => rho + δ) (fun _ => kappa)) ∧
      (∀ r < N, ∀ c < N, g.A r c = if r = c then rho else if r = c + 1 then beta else 0) ∧
      (∀ r c, g.B r c = if r = 0 then beta else 0) ∧ (∀ r c, g.CT r c = if r = c then 1 else 0) ∧
      ∀ r c, g.D r c = 0 := by
  have hb := ones_ne N hN beta
  have hl := ones_len N beta
  obtain ⟨A, hA⟩ : ∃ A : ℕ → ℕ → ℝ, A = fun r c => (if r = c then (ones N rho).getD r 0 else 0) +
      (if r = c + 1 then (ones N beta).tail.getD c 0 else 0) := ⟨_, rfl⟩
  have hadd : addSq (diag0 (ones N rho)) (diagLow (ones N beta).tail) = .ok ⟨(ones N beta).length, A⟩ := by
    unfold addSq
    have h1 : (diag0 (ones N rho)).n = (diagLow (ones N beta).tail).n := by
      show (ones N rho).length = (ones N beta).tail.length + 1
      rw [List.length_tail, ones_len, ones_len]
      omega
    rw [if_pos h1, hA]
    show Except.ok (Sq.mk (ones N rho).length _) = _
    rw [ones_len, ones_len]
    rfl
  obtain ⟨f', hf, hfin⟩ := finish_sq (ones N beta) hb A fun _ => kappa
  have key : ∀ (δ : ℝ) (x : ℕ → ℝ) (n : ℕ), n < N →
      ∑ c ∈ range N, (A n c + (if n = c then δ else 0)) * x c =
        ((ones N rho).getD n 0 + δ) * x n + (if n = 0 then 0 else (ones N beta).getD n 0 * x (n - 1)) +
          0 * following N x n := by
    intro δ x n hn
    rw [hA]
    simp only [add_mul, Finset.sum_add_distrib]
    rw [sum_diag _ (fun n => (ones N rho).getD n 0) x n hn, sum_low _ (fun c => (ones N beta).tail.getD c 0) x n hn,
      sum_diag _ (fun _ => δ) x n hn]
    by_cases h : n = 0
    · simp [h]
    · rw [if_neg h, if_neg h, getD_tail (ones N beta) n h]; ring
  have net : ∀ δ, IsNetwork ⟨N, 1, N, N, N, fun r c => A r c + (if r = c then δ else 0),
      fun i _ => if i = 0 then (ones N beta).getD 0 0 else 0, fun i j => if i = j then 1 else 0,
      some (fun i j => if i = j then f' i else 0), some (gammaTOf N fun i j => if i = j then f' i else 0),
      fun _ _ => 0, fun _ _ => 0, fun _ _ => 0⟩ N (fun _ => beta) (fun _ => 0) (fun _ => rho + δ)
      (fun _ => kappa) := by
    intro δ
    refine network_congr (network_of N (fun r c => A r c + (if r = c then δ else 0)) ((ones N beta).getD 0 0) f'
      (fun n => (ones N beta).getD n 0) (fun _ => 0) (fun n => (ones N rho).getD n 0 + δ) rfl
      (fun x n hn => key δ x n hn)) (fun n hn => ones_get N beta n hn) (fun _ _ => rfl)
      (fun n hn => by rw [ones_get N rho n hn]) (fun n hn => hf n (by rw [hl]; exact hn))
  have heq : chainOfIntegrators (ones N beta) (ones N rho) (eye N kappa) = .ok ⟨N, 1, N, N, N, A,
      fun i _ => if i = 0 then (ones N beta).getD 0 0 else 0, fun i j => if i = j then 1 else 0,
      some (fun i j => if i = j then f' i else 0), some (gammaTOf N fun i j => if i = j then f' i else 0),
      fun _ _ => 0, fun _ _ => 0, fun _ _ => 0⟩ := by
    unfold chainOfIntegrators
    rw [hadd]
    unfold eye
    have := hfin
    rw [hl] at this ⊢
    exact this
  refine ⟨_, heq, ?_, net, ?_, ?_, fun _ _ => rfl, fun _ _ => rfl⟩
  · have := net 0
    simp only [ite_self, add_zero] at this
    exact this
  · intro r hr c hc
    show A r c = _
    rw [hA]
    dsimp only
    rw [ones_get N rho r hr]
    by_cases h1 : r = c
    · rw [if_pos h1, if_pos h1, if_neg (by omega), add_zero]
    · rw [if_neg h1, if_neg h1, zero_add]
      by_cases h2 : r = c + 1
      · rw [if_pos h2, if_pos h2]
        have := getD_tail (ones N beta) r (by omega)
        rw [h2, Nat.add_sub_cancel] at this
        rw [this, ones_get N beta (c + 1) (by omega)]
      · rw [if_neg h2, if_neg h2]
  · intro r c
    show (if r = 0 then (ones N beta).getD 0 0 else 0) = _
    rw [ones_get N beta 0 (by omega)]

/-- The leap-frog structure with equal couplings. -/
theorem leap_sq (N : ℕ) (hN : N ≠ 0) (beta alpha : ℝ) (kappa : ℕ → ℝ) :
    ∃ g, leapFrog (ones N beta) (ones (N - 1) alpha) (ones N 0) (.mat N N fun i j => if i = j then kappa i else 0) = .ok g ∧
      IsNetwork g N (fun _ => beta) (fun _ => alpha) (fun _ => 0) kappa ∧
      (∀ r < N, ∀ c < N, g.A r c = if c = r + 1 then alpha else if r = c + 1 then beta else 0) ∧
      (∀ r c, g.B r c = if r = 0 then beta else 0) ∧ (∀ r c, g.CT r c = if r = c then 1 else 0) ∧ (∀ r c, g.D r c = 0) := by
  have hb := ones_ne N hN beta
  have hl := ones_len N beta
  obtain ⟨A, hA⟩ : ∃ A : ℕ → ℕ → ℝ, A = fun r c => ((if c = r + 1 then (ones (N - 1) alpha).getD r 0 else 0) +
      (if r = c + 1 then (ones N beta).tail.getD c 0 else 0)) + (if r = c then (ones N 0).getD r 0 else 0) := ⟨_, rfl⟩
  obtain ⟨f', hf, hfin⟩ := finish_sq (ones N beta) hb A kappa
  have hadd : ∃ A', addSq (diagUp (ones (N - 1) alpha)) (diagLow (ones N beta).tail) = .ok A' ∧
      addSq A' (diag0 (ones N 0)) = .ok ⟨(ones N beta).length, A⟩ := by
    refine ⟨⟨N, fun r c => (if c = r + 1 then (ones (N - 1) alpha).getD r 0 else 0) +
      (if r = c + 1 then (ones N beta).tail.getD c 0 else 0)⟩, ?_, ?_⟩
    · unfold addSq
      have h1 : (diagUp (ones (N - 1) alpha)).n = (diagLow (ones N beta).tail).n := by
        show (ones (N - 1) alpha).length + 1 = (ones N beta).tail.length + 1
        rw [List.length_tail, ones_len, ones_len]
      rw [if_pos h1]
      show Except.ok (Sq.mk ((ones (N - 1) alpha).length + 1) _) = _
      rw [ones_len, Nat.sub_add_cancel (Nat.one_le_iff_ne_zero.2 hN)]
      rfl
    · unfold addSq
      have h1 : N = (diag0 (ones N 0)).n := (ones_len N 0).symm
      dsimp only
      rw [if_pos h1, hA, hl]
      rfl
  obtain ⟨A', ha1, ha2⟩ := hadd
  have key : ∀ (x : ℕ → ℝ) (n : ℕ), n < N → ∑ c ∈ range N, A n c * x c =
      0 * x n + (if n = 0 then 0 else (ones N beta).getD n 0 * x (n - 1)) +
        (ones (N - 1) alpha).getD n 0 * following N x n := by
    intro x n hn
    rw [hA]
    simp only [add_mul, Finset.sum_add_distrib]
    rw [sum_diag _ (fun n => (ones N 0).getD n 0) x n hn, sum_low _ (fun c => (ones N beta).tail.getD c 0) x n hn,
      sum_up _ (fun c => (ones (N - 1) alpha).getD c 0) x n, ones_get N 0 n hn]
    unfold following
    by_cases h : n = 0
    · by_cases h' : n + 1 < N <;> simp [h]
    · rw [if_neg h, if_neg h, getD_tail (ones N beta) n h]
      split_ifs <;> ring
  refine ⟨_, ?_, network_congr (network_of N A ((ones N beta).getD 0 0) f' (fun n => (ones N beta).getD n 0)
      (fun n => (ones (N - 1) alpha).getD n 0) (fun _ => 0) rfl key)
      (fun n hn => ones_get N beta n hn) (fun n hn => ?_) (fun _ _ => rfl) (fun n hn => hf n (by rw [hl]; exact hn)), ?_, ?_,
      fun _ _ => rfl, fun _ _ => rfl⟩
  · unfold leapFrog
    rw [ha1]
    dsimp only
    rw [ha2]
    have := hfin
    rw [hl] at this ⊢
    exact this
  · by_cases h : n + 1 < N
    · rw [ones_get (N - 1) alpha n (by omega)]
    · rw [if_neg h, mul_zero, mul_zero]
  · intro r hr c hc
    show A r c = _
    rw [hA]
    dsimp only
    rw [ones_get N 0 r hr, ite_self, add_zero]
    by_cases h1 : c = r + 1
    · rw [if_pos h1, if_pos h1, if_neg (by omega), add_zero, ones_get (N - 1) alpha r (by omega)]
    · rw [if_neg h1, if_neg h1, zero_add]
      by_cases h2 : r = c + 1
      · rw [if_pos h2, if_pos h2]
        have := getD_tail (ones N beta) r (by omega)
        rw [h2, Nat.add_sub_cancel] at this
        rw [this, ones_get N beta (c + 1) (by omega)]
      · rw [if_neg h2, if_neg h2]
  · intro r c
    show (if r = 0 then (ones N beta).getD 0 0 else 0) = _
    rw [ones_get N beta 0 (by omega)]

/-- A clock period of at least `2e-14` is accepted, a shorter one is rejected. -/
theorem clocked_none (T : ℝ) (M : ℕ) :
    (2 / 10 ^ 14 ≤ T → ∃ dc, clocked T M none = .ok dc ∧ DC.new T (1 / 10 ^ 14 / 2) M none 0 none = .ok dc ∧ dc.T = T) ∧
    (T < 2 / 10 ^ 14 → ∀ ir, clocked T M ir = .error .exception) := by
  have hmax : ∀ c : Clock ℝ, c.T = T → c.duty = 1 / 2 → c.maxStep = T / 2 := by
    intro c h1 h2
    unfold Clock.maxStep
    rw [h1, h2]
    norm_num
    ring
  constructor
  · intro h
    have hT : (0 : ℝ) ≤ T := le_trans (by positivity) h
    have hc : Clock.new T (1 / 10 ^ 14) 0 (1 / 2) 2 =
        .ok ⟨T, 1 / 10 ^ 14, 1 / 10 ^ 14 / 2, 0, 1 / 2, 1 / 2 * T, 2 / 2⟩ := by
      unfold Clock.new
      dsimp only
      rw [if_neg (by norm_num), if_neg, if_neg (not_lt.2 hT)]
      rw [hmax _ rfl rfl, not_lt]
      have : (2 : ℝ) / 10 ^ 14 = 2 * (1 / 10 ^ 14) := by ring
      linarith
    have hd : DC.new T (1 / 10 ^ 14 / 2) M none 0 none =
        .ok ⟨T, 1 / 10 ^ 14 / 2, 0, fun _ => stepResponse 0, fun _ => 0⟩ := by
      unfold DC.new
      rw [if_neg (lt_irrefl _)]
      rfl
    refine ⟨_, ?_, hd, rfl⟩
    unfold clocked
    rw [hc]
    exact hd
  · intro h ir
    have hc : Clock.new T (1 / 10 ^ 14) 0 (1 / 2) 2 = .error .exception := by
      unfold Clock.new
      dsimp only
      rw [if_neg (by norm_num), if_pos]
      rw [hmax _ rfl rfl, gt_iff_lt]
      have : (2 : ℝ) / 10 ^ 14 = 2 * (1 / 10 ^ 14) := by ring
      linarith
    unfold clocked
    rw [hc]

/-- equal phases are accepted exactly if they lie within the period -/
theorem clocked_some (T : ℝ) (M : ℕ) (hM : M ≠ 0) (hT : 2 / 10 ^ 14 ≤ T) (r : IR ℝ) :
    (0 ≤ r.t0 ∧ r.t0 ≤ T → ∃ dc, clocked T M (some (List.replicate M r)) = .ok dc ∧ dc.T = T ∧ dc.tDelay = 0 ∧
      (∀ m, dc.ir m = r) ∧ ∀ m, dc.offsets m = 0) ∧
    (¬ (0 ≤ r.t0 ∧ r.t0 ≤ T) → clocked T M (some (List.replicate M r)) = .error .exception) := by
  obtain ⟨c, hc, hcT⟩ : ∃ c : Clock ℝ, Clock.new T (1 / 10 ^ 14) 0 (1 / 2) 2 = .ok c ∧ c.T = T := by
    obtain ⟨dc, h1, -, h3⟩ := (clocked_none T 0).1 hT
    unfold clocked at h1
    cases hc : Clock.new T (1 / 10 ^ 14) 0 (1 / 2) 2 with
    | error e => rw [hc] at h1; cases h1
    | ok c =>
      refine ⟨c, rfl, ?_⟩
      unfold Clock.new at hc
      dsimp only at hc
      split_ifs at hc
      cases hc
      rfl
  have hdec : ∀ n, anyDecrease (List.replicate n r.t0) = false := by
    intro n
    induction n with
    | zero => rfl
    | succ n ih =>
      cases n with
      | zero => rfl
      | succ n =>
        rw [List.replicate_succ, List.replicate_succ, anyDecrease]
        rw [List.replicate_succ] at ih
        rw [ih]
        simp
  have hany : ∀ p : ℝ → Bool, (List.replicate M r.t0).any p = p r.t0 := by
    intro p
    rw [List.any_replicate, if_neg hM]
  have hbad : badPhases T ((List.replicate M r).map IR.t0) = true ↔ ¬ (0 ≤ r.t0 ∧ r.t0 ≤ T) := by
    rw [List.map_replicate]
    unfold badPhases
    rw [hany, hany, hdec]
    simp only [Bool.or_false, Bool.or_eq_true, decide_eq_true_eq]
    constructor
    · rintro (h | h) ⟨h1, h2⟩
      · exact absurd h (not_lt.2 h1)
      · exact absurd h (not_lt.2 h2)
    · intro h
      by_contra hn
      push Not at hn
      exact h hn
  have hlen : (List.replicate M r).length = M := List.length_replicate
  constructor
  · intro h
    refine ⟨⟨T, c.tt2, 0, fun _ => r, fun _ => 0⟩, ?_, rfl, rfl, fun _ => rfl, fun _ => rfl⟩
    unfold clocked
    rw [hc]
    unfold DC.new initIR
    dsimp only
    rw [if_neg (lt_irrefl _), dif_pos hlen, hcT, if_neg (fun hb => hbad.1 hb h)]
    dsimp only [initOffsets]
    congr 2
    funext m
    exact List.eq_of_mem_replicate (List.get_mem _ _)
  · intro h
    unfold clocked
    rw [hc]
    unfold DC.new initIR
    dsimp only
    rw [if_neg (lt_irrefl _), dif_pos hlen, hcT, if_pos (hbad.2 h)]

end Cbadc.Synthesis
