import Verif.Lemmas.BandEdge
import Verif.Props.LeapFrog
import Verif.Props.Resonance

/-! # C178: the band of the estimator -/

namespace Cbadc.Synthesis
open Analog Control Signal Finset
open Analog.Spec
open Simulate (cplx)
open Polynomial.Chebyshev (U)

section
variable (g : Sys ℂ) (hL : g.L = 1) (BW : ℝ)
  (pinv : Matrix (Fin g.N) (Fin g.N) ℂ → Matrix (Fin g.N) (Fin g.N) ℂ) (hp : ∀ X, IsPinv X (pinv X))
  (pinv' : Matrix (Fin g.Nt) (Fin g.Nt) ℂ → Matrix (Fin g.Nt) (Fin g.Nt) ℂ) (hp' : ∀ X, IsPinv X (pinv' X)) (l : Fin g.L)

include hL hp in
theorem eta2_eq (hreg : NoResonance (fun i k : Fin g.N => g.A i k) (2 * Real.pi * BW)) :
    g.eta2 BW = ∑ n, ‖g.tfmAt pinv (2 * Real.pi * BW) n l‖ ^ 2 := by
  unfold Sys.eta2
  rw [tfmAt_eq g _ pinv hp hreg]
  refine Finset.sum_congr rfl fun n _ => ?_
  refine Fintype.sum_eq_single l fun x hx => absurd ?_ hx
  apply Fin.ext
  have := x.isLt
  have := l.isLt
  omega

include hL hp hp' in
theorem half_iff (hreg : NoResonance (fun i k : Fin g.N => g.A i k) (2 * Real.pi * BW))
    (hpos : 0 < ∑ n, ‖g.tfmAt pinv (2 * Real.pi * BW) n l‖ ^ 2) (ω : ℝ) :
    1 / 2 ≤ stf pinv' (g.eta2 BW) (g.tfmAt pinv ω) l ↔
      ∑ n, ‖g.tfmAt pinv (2 * Real.pi * BW) n l‖ ^ 2 ≤ ∑ n, ‖g.tfmAt pinv ω n l‖ ^ 2 := by
  have he := eta2_eq g hL BW pinv hp l hreg
  rw [(C41_single_input (by rw [he]; exact hpos) hL _ pinv' (hp' _) l).1, he, div_le_div_iff₀ (by norm_num) (by positivity)]
  constructor <;> intro h <;> linarith

include hp in
theorem state_gain (hNt : g.Nt = g.N) (hC : ∀ n k, g.CT n k = if n = k then 1 else 0) (hD : ∀ n k, g.D n k = 0) (ω : ℝ)
    (hω : NoResonance (fun i k : Fin g.N => g.A i k) ω) :
    ∃ X : ℕ → ℂ, (∀ r < g.N, ω * Complex.I * X r = ∑ c ∈ range g.N, g.A r c * X c + g.B r l) ∧
      ∑ n, ‖g.tfmAt pinv ω n l‖ ^ 2 = ∑ n ∈ range g.N, ‖X n‖ ^ 2 := by
  obtain ⟨x, hx, -, hx3⟩ := C159_regular g ω pinv hp hω l
  have hX : ∀ k : Fin g.N, (fun n => if h : n < g.N then x ⟨n, h⟩ else 0) (k : ℕ) = x k := by
    intro k
    dsimp only
    rw [dif_pos k.isLt]
  generalize (fun n => if h : n < g.N then x ⟨n, h⟩ else 0) = X at hX
  refine ⟨X, ?_, ?_⟩
  · intro r hr
    have := hx ⟨r, hr⟩
    dsimp only at this
    rw [← hX ⟨r, hr⟩] at this
    dsimp only at this
    rw [this, ← Fin.sum_univ_eq_sum_range (fun c => g.A r c * X c)]
    congr 1
    exact Finset.sum_congr rfl fun k _ => by rw [hX]
  · have e : ∀ n : Fin g.Nt, g.tfmAt pinv ω n l = X n := by
      intro n
      have hn : (n : ℕ) < g.N := hNt ▸ n.isLt
      rw [hx3, hD, zero_add, Finset.sum_eq_single ⟨n, hn⟩]
      · rw [hC, if_pos rfl, one_mul, ← hX]
      · intro k _ hk
        rw [hC, if_neg (fun h => hk (Fin.ext h.symm)), zero_mul]
      · intro h; exact absurd (Finset.mem_univ _) h
    simp only [e]
    rw [Fin.sum_univ_eq_sum_range (fun n => ‖X n‖ ^ 2), hNt]

end

/-! ### chains -/

/-- the gain of a chain, its last factors at `n` -/
theorem chain_gain (N : ℕ) (beta rho : ℕ → ℝ) (ω : ℝ) (hω : 0 < ω) (X : ℕ → ℂ)
    (h : ∀ r < N, (ω * Complex.I - rho r) * X r = beta r * if r = 0 then 1 else X (r - 1)) (n : ℕ) (hn : n < N) :
    ‖X n‖ ^ 2 = ∏ j ∈ range (n + 1), beta j ^ 2 / (ω ^ 2 + rho j ^ 2) := by
  have step : ∀ r < N, ‖X r‖ ^ 2 = beta r ^ 2 / (ω ^ 2 + rho r ^ 2) * ‖(if r = 0 then (1 : ℂ) else X (r - 1))‖ ^ 2 := by
    intro r hr
    have := congrArg (fun z : ℂ => ‖z‖ ^ 2) (h r hr)
    rw [norm_mul, norm_mul, mul_pow, mul_pow, Complex.norm_real, Real.norm_eq_abs, sq_abs] at this
    have e : ‖(ω : ℂ) * Complex.I - rho r‖ ^ 2 = ω ^ 2 + rho r ^ 2 := by
      rw [← Complex.normSq_eq_norm_sq, Complex.normSq_apply]
      simp
      ring
    rw [e] at this
    have : 0 < ω ^ 2 + rho r ^ 2 := by positivity
    field_simp
    linarith
  induction n with
  | zero =>
    rw [step 0 hn, if_pos rfl, norm_one, Finset.prod_range_one]
    ring
  | succ m ih =>
    rw [step (m + 1) hn, if_neg (Nat.succ_ne_zero m), Nat.add_sub_cancel, ih (by omega), Finset.prod_range_succ _ (m + 1)]
    ring

theorem chain_decr (N : ℕ) (hN : N ≠ 0) (beta rho : ℕ → ℝ) (hb : ∀ j < N, beta j ≠ 0) (ω ω' : ℝ) (h0 : 0 < ω) (h : ω < ω') :
    ∑ n ∈ range N, ∏ j ∈ range (n + 1), beta j ^ 2 / (ω' ^ 2 + rho j ^ 2) <
      ∑ n ∈ range N, ∏ j ∈ range (n + 1), beta j ^ 2 / (ω ^ 2 + rho j ^ 2) := by
  refine Finset.sum_lt_sum_of_nonempty ⟨0, mem_range.2 (Nat.pos_of_ne_zero hN)⟩ fun n hn => ?_
  rw [mem_range] at hn
  have h0' : 0 < ω' := h0.trans h
  refine Finset.prod_lt_prod_of_nonempty (fun j hj => ?_) (fun j hj => ?_) ⟨0, mem_range.2 (Nat.succ_pos n)⟩
  · have := hb j (by rw [mem_range] at hj; omega)
    positivity
  · have := hb j (by rw [mem_range] at hj; omega)
    have hp : 0 < beta j ^ 2 := by positivity
    exact div_lt_div_of_pos_left hp (by positivity) (by nlinarith)

/-- **C178** chain of integrators, any couplings and leakages: with `eta2 = analog_system.eta2(BW)` the signal transfer
function of the estimator falls strictly with the frequency and is at least one half exactly for the frequencies up to
`BW`. -/
theorem C178_chain (beta rho : List ℝ) (kappa : ℕ → ℕ → ℝ) (hb : beta ≠ []) (hr : rho.length = beta.length)
    (hz : ∀ b ∈ beta, b ≠ 0) (BW : ℝ) (hB : 0 < BW) :
    ∃ g, chainOfIntegrators beta rho (.mat beta.length 1 kappa) = .ok g ∧
      ∀ (pinv : Matrix (Fin (cplx g).N) (Fin (cplx g).N) ℂ → Matrix (Fin (cplx g).N) (Fin (cplx g).N) ℂ)
        (pinv' : Matrix (Fin (cplx g).Nt) (Fin (cplx g).Nt) ℂ → Matrix (Fin (cplx g).Nt) (Fin (cplx g).Nt) ℂ)
        (l : Fin (cplx g).L), (∀ X, IsPinv X (pinv X)) → (∀ X, IsPinv X (pinv' X)) → ∀ ω, 0 < ω →
        (1 / 2 ≤ stf pinv' ((cplx g).eta2 BW) ((cplx g).tfmAt pinv ω) l ↔ ω ≤ 2 * Real.pi * BW) ∧
        ∀ ω', ω < ω' → stf pinv' ((cplx g).eta2 BW) ((cplx g).tfmAt pinv ω') l <
          stf pinv' ((cplx g).eta2 BW) ((cplx g).tfmAt pinv ω) l := by
  have hN : beta.length ≠ 0 := fun h => hb (List.length_eq_zero_iff.1 h)
  have hπ := Real.pi_pos
  refine ⟨_, chain_eq beta rho hb hr kappa, ?_⟩
  obtain ⟨g, hg⟩ : ∃ g, chainOfIntegrators beta rho (.mat beta.length 1 kappa) = .ok g := ⟨_, chain_eq beta rho hb hr kappa⟩
  rw [chain_eq beta rho hb hr kappa] at hg
  rw [Except.ok.inj hg]
  obtain ⟨h1, h2, h3, hA, hBm, hC, hD⟩ : g.N = beta.length ∧ g.L = 1 ∧ g.Nt = beta.length ∧
      g.A = (fun r c => (if r = c then rho.getD r 0 else 0) + (if r = c + 1 then beta.tail.getD c 0 else 0)) ∧
      g.B = (fun i _ => if i = 0 then beta.getD 0 0 else 0) ∧ g.CT = (fun i j => if i = j then 1 else 0) ∧
      g.D = fun _ _ => 0 := by
    rw [← Except.ok.inj hg]
    exact ⟨rfl, rfl, rfl, rfl, rfl, rfl, rfl⟩
  clear hg
  intro pinv pinv' l hp hp'
  have htri : ∀ r c, r < c → g.A r c = 0 := by
    intro r c hrc
    rw [hA]
    dsimp only
    rw [if_neg (by omega), if_neg (by omega), add_zero]
  have hres : ∀ ω : ℝ, ω ≠ 0 → NoResonance (fun i k : Fin (cplx g).N => (cplx g).A i k) ω :=
    fun ω hω => chain_noResonance g.N g.A htri ω hω
  have hgain : ∀ ω : ℝ, 0 < ω → ∑ n, ‖(cplx g).tfmAt pinv ω n l‖ ^ 2 =
      ∑ n ∈ range beta.length, ∏ j ∈ range (n + 1), beta.getD j 0 ^ 2 / (ω ^ 2 + rho.getD j 0 ^ 2) := by
    intro ω hω
    obtain ⟨X, e1, e2⟩ := state_gain (cplx g) pinv hp l (by show g.Nt = g.N; rw [h3, h1])
      (by intro n k; show ((g.CT n k : ℝ) : ℂ) = _; rw [hC]; dsimp only; split <;> simp)
      (by intro n k; show ((g.D n k : ℝ) : ℂ) = _; rw [hD]; simp) ω (hres ω hω.ne')
    have hNN : (cplx g).N = beta.length := h1
    rw [e2, hNN]
    refine Finset.sum_congr rfl fun n hn => ?_
    refine chain_gain beta.length (fun j => beta.getD j 0) (fun j => rho.getD j 0) ω hω X ?_ n (mem_range.1 hn)
    intro r hr
    have h := e1 r (by rw [hNN]; exact hr)
    rw [hNN] at h
    have hBr : (cplx g).B r l = if r = 0 then (beta.getD 0 0 : ℂ) else 0 := by
      show ((g.B r l : ℝ) : ℂ) = _
      rw [hBm]
      dsimp only
      split <;> simp
    have hAr : ∑ c ∈ range beta.length, (cplx g).A r c * X c =
        rho.getD r 0 * X r + if r = 0 then 0 else beta.getD r 0 * X (r - 1) := by
      have e : ∀ c ∈ range beta.length, (cplx g).A r c * X c =
          (if r = c then (rho.getD r 0 : ℂ) * X c else 0) + (if r = c + 1 then (beta.getD r 0 : ℂ) * X c else 0) := by
        intro c _
        show ((g.A r c : ℝ) : ℂ) * X c = _
        rw [hA]
        dsimp only
        by_cases a1 : r = c
        · rw [if_pos a1, if_pos a1, if_neg (by omega), if_neg (by omega)]
          simp
        · rw [if_neg a1, if_neg a1]
          by_cases a2 : r = c + 1
          · rw [if_pos a2, if_pos a2, a2, show beta.tail.getD c 0 = beta.getD (c + 1) 0 from getD_tail beta (c + 1) (by omega)]
            simp
          · rw [if_neg a2, if_neg a2]
            simp
      rw [Finset.sum_congr rfl e, Finset.sum_add_distrib, Finset.sum_ite_eq, if_pos (mem_range.2 hr)]
      congr 1
      by_cases h0 : r = 0
      · rw [if_pos h0]
        exact Finset.sum_eq_zero fun c _ => if_neg (by omega)
      · rw [if_neg h0, Finset.sum_eq_single (r - 1)]
        · rw [if_pos (by omega)]
        · intro c _ hc
          exact if_neg (by omega)
        · intro hc
          exact absurd (mem_range.2 (by omega)) hc
    rw [hAr, hBr] at h
    by_cases h0 : r = 0
    · subst h0
      simp only [if_true] at h ⊢
      linear_combination h
    · simp only [if_neg h0] at h ⊢
      linear_combination h
  have hz' : ∀ j < beta.length, beta.getD j 0 ≠ 0 := by
    intro j hj
    rw [List.getD_eq_getElem?_getD, List.getElem?_eq_getElem hj]
    exact hz _ (List.getElem_mem hj)
  have hdecr := chain_decr beta.length hN (fun j => beta.getD j 0) (fun j => rho.getD j 0) hz'
  have hedge : 0 < 2 * Real.pi * BW := by positivity
  have hpos : 0 < ∑ n, ‖(cplx g).tfmAt pinv (2 * Real.pi * BW) n l‖ ^ 2 := by
    rw [hgain _ hedge]
    refine Finset.sum_pos (fun n hn => Finset.prod_pos fun j hj => ?_) ⟨0, mem_range.2 (Nat.pos_of_ne_zero hN)⟩
    rw [mem_range] at hn hj
    have := hz' j (by omega)
    positivity
  intro ω hω
  constructor
  · rw [half_iff (cplx g) h2 BW pinv hp pinv' hp' l (hres _ hedge.ne') hpos, hgain _ hedge, hgain ω hω]
    constructor
    · intro h
      by_contra hc
      exact absurd h (not_le.2 (hdecr _ _ hedge (not_le.1 hc)))
    · intro h
      rcases h.eq_or_lt with rfl | h
      · exact le_rfl
      · exact (hdecr _ _ hω h).le
  · intro ω' hlt
    have he := eta2_eq (cplx g) h2 BW pinv hp l (hres _ hedge.ne')
    have he0 : 0 < (cplx g).eta2 BW := by rw [he]; exact hpos
    have hs : ∀ ν : ℝ, stf pinv' ((cplx g).eta2 BW) ((cplx g).tfmAt pinv ν) l = (∑ n, ‖(cplx g).tfmAt pinv ν n l‖ ^ 2) /
        (∑ n, ‖(cplx g).tfmAt pinv ν n l‖ ^ 2 + (cplx g).eta2 BW) := fun ν =>
      (C41_single_input he0 h2 ((cplx g).tfmAt pinv ν) pinv' (hp' _) l).1
    rw [hs, hs, div_lt_div_iff₀ (by positivity) (by positivity), hgain ω hω, hgain ω' (hω.trans hlt)]
    have := hdecr _ _ hω hlt
    nlinarith

/-! ### leap-frog structures -/

theorem cont_U (w v : ℝ) (m : ℕ) :
    (cont (w : ℂ) m).eval (2 * Complex.I * w * v) = (Complex.I * w) ^ m * (((U ℝ m).eval v : ℝ) : ℂ) := by
  induction m using Nat.twoStepInduction with
  | zero => simp [cont_eval_zero]
  | one =>
    rw [cont_eval_one]
    simp
    ring
  | more n h1 h2 =>
    have hrec : (U ℝ (n + 2 : ℕ)).eval v = 2 * v * (U ℝ (n + 1 : ℕ)).eval v - (U ℝ n).eval v := by
      have := congrArg (Polynomial.eval v) (Polynomial.Chebyshev.U_add_two ℝ (n : ℤ))
      push_cast
      rw [this]
      simp
    have hc : (cont (w : ℂ) (n + 2)).eval (2 * Complex.I * w * v) = (2 * Complex.I * w * v) *
        (cont (w : ℂ) (n + 1)).eval (2 * Complex.I * w * v) + (w : ℂ) ^ 2 * (cont (w : ℂ) n).eval (2 * Complex.I * w * v) := by
      rw [cont]
      simp
    rw [hc, h1, h2, hrec, Complex.ofReal_sub, Complex.ofReal_mul, Complex.ofReal_mul]
    generalize (((U ℝ n).eval v : ℝ) : ℂ) = y
    generalize (((U ℝ (n + 1 : ℕ)).eval v : ℝ) : ℂ) = z
    push_cast
    linear_combination (Complex.I * w) ^ n * w ^ 2 * y * Complex.I_sq

/-- the gain of a leap-frog structure -/
theorem leap_gain (N : ℕ) (w beta v : ℝ) (hw : 0 < w) (hb : beta ≠ 0) (X : ℕ → ℂ)
    (h1 : (cont (w : ℂ) N).eval (2 * Complex.I * w * v) * X (N - 1) = beta ^ N)
    (h2 : ∀ m < N, X (N - 1 - m) * (beta : ℂ) ^ m = (cont (w : ℂ) m).eval (2 * Complex.I * w * v) * X (N - 1)) :
    (U ℝ N).eval v ≠ 0 ∧ (U ℝ N).eval v ^ 2 * ∑ n ∈ range N, ‖X n‖ ^ 2 =
      ((beta / w) ^ 2) ^ N * ∑ m ∈ range N, ((w / beta) ^ 2) ^ m * (U ℝ m).eval v ^ 2 := by
  have hne : (U ℝ N).eval v ≠ 0 := by
    intro h
    rw [cont_U, h] at h1
    rw [Complex.ofReal_zero, mul_zero, zero_mul] at h1
    exact pow_ne_zero N (Complex.ofReal_ne_zero.2 hb) h1.symm
  have nrm : ∀ m : ℕ, ‖(cont (w : ℂ) m).eval (2 * Complex.I * w * v)‖ ^ 2 = (w ^ 2) ^ m * (U ℝ m).eval v ^ 2 := by
    intro m
    rw [cont_U, norm_mul, norm_pow, norm_mul, Complex.norm_I, one_mul, Complex.norm_real, Complex.norm_real, mul_pow,
      Real.norm_eq_abs, Real.norm_eq_abs, sq_abs, ← pow_mul, mul_comm m 2, pow_mul, sq_abs]
  have q1 : (w ^ 2) ^ N * (U ℝ N).eval v ^ 2 * ‖X (N - 1)‖ ^ 2 = (beta ^ 2) ^ N := by
    have := congrArg (fun z : ℂ => ‖z‖ ^ 2) h1
    rw [norm_mul, mul_pow, nrm, norm_pow, Complex.norm_real, Real.norm_eq_abs, ← pow_mul |beta|, mul_comm N 2, pow_mul |beta|,
      sq_abs] at this
    exact this
  have q2 : ∀ m < N, ‖X (N - 1 - m)‖ ^ 2 * (beta ^ 2) ^ m = (w ^ 2) ^ m * (U ℝ m).eval v ^ 2 * ‖X (N - 1)‖ ^ 2 := by
    intro m hm
    have := congrArg (fun z : ℂ => ‖z‖ ^ 2) (h2 m hm)
    rw [norm_mul, norm_mul, mul_pow, mul_pow, nrm, norm_pow, Complex.norm_real, Real.norm_eq_abs, ← pow_mul |beta|, mul_comm m 2,
      pow_mul |beta|, sq_abs] at this
    exact this
  refine ⟨hne, ?_⟩
  rw [← Finset.sum_range_reflect (fun n => ‖X n‖ ^ 2), mul_sum, mul_sum]
  refine Finset.sum_congr rfl fun m hm => ?_
  have hq := q2 m (mem_range.1 hm)
  have hb2 : 0 < beta ^ 2 := by positivity
  have hw2 : 0 < w ^ 2 := by positivity
  have hx : ‖X (N - 1 - m)‖ ^ 2 = (w ^ 2) ^ m * (U ℝ m).eval v ^ 2 * ‖X (N - 1)‖ ^ 2 / (beta ^ 2) ^ m := by
    rw [eq_div_iff (by positivity), hq]
  rw [hx, div_pow, div_pow, div_pow, div_pow, ← q1]
  field_simp

theorem leap_compare (N : ℕ) (hN : N ≠ 0) (Q a v S Se : ℝ) (hQ : 0 < Q) (h0 : 0 < a) (h1 : a ≤ 1) (hv : 0 ≤ v)
    (hne : (U ℝ N).eval v ≠ 0) (hS : (U ℝ N).eval v ^ 2 * S = Q * ∑ m ∈ range N, a ^ m * (U ℝ m).eval v ^ 2)
    (hSe : ((N : ℝ) + 1) ^ 2 * Se = Q * ∑ m ∈ range N, a ^ m * ((m : ℝ) + 1) ^ 2) : Se ≤ S ↔ v ≤ 1 := by
  have hU : 0 < (U ℝ N).eval v ^ 2 := by positivity
  have hN2 : 0 < ((N : ℝ) + 1) ^ 2 := by positivity
  have e1 : (U ℝ N).eval v ^ 2 * ((N : ℝ) + 1) ^ 2 * S =
      Q * (((N : ℝ) + 1) ^ 2 * ∑ m ∈ range N, a ^ m * (U ℝ m).eval v ^ 2) := by
    linear_combination ((N : ℝ) + 1) ^ 2 * hS
  have e2 : (U ℝ N).eval v ^ 2 * ((N : ℝ) + 1) ^ 2 * Se =
      Q * ((U ℝ N).eval v ^ 2 * ∑ m ∈ range N, a ^ m * ((m : ℝ) + 1) ^ 2) := by
    linear_combination (U ℝ N).eval v ^ 2 * hSe
  rw [← mul_le_mul_iff_of_pos_left (mul_pos hU hN2), e1, e2, mul_le_mul_iff_of_pos_left hQ]
  constructor
  · intro h
    by_contra hc
    have hv1 := not_le.1 hc
    refine absurd h (not_le.2 ?_)
    rw [mul_sum, mul_sum]
    refine Finset.sum_lt_sum_of_nonempty ⟨0, mem_range.2 (Nat.pos_of_ne_zero hN)⟩ fun m hm => ?_
    have hb := U_beyond v hv1 m N (mem_range.1 hm)
    have hp := (U_step v hv1 m).1
    have ha : 0 < a ^ m := by positivity
    have hsq : (((N : ℝ) + 1) * (U ℝ m).eval v) ^ 2 < ((m + 1) * (U ℝ N).eval v) ^ 2 :=
      pow_lt_pow_left₀ hb (by positivity) two_ne_zero
    have := mul_lt_mul_of_pos_left hsq ha
    nlinarith
  · intro h
    exact U_band N a v h0.le h1 hv h

/-- a leap-frog structure resonates at the zeros of a Chebyshev polynomial only -/
theorem leap_nores {N : ℕ} (hN : N ≠ 0) {BW delta T beta alpha : ℝ} {g : Sys ℝ} {dc : DC ℝ N}
    (hl : IsLeap N BW delta T beta alpha g dc) (hB : 0 < BW) (ν : ℝ) (hU1 : (U ℝ N).eval (ν / (2 * (Real.pi * BW))) ≠ 0) :
    NoResonance (fun i k : Fin (cplx g).N => (cplx g).A i k) ν := by
  have hπ := Real.pi_pos
  obtain ⟨w, hw⟩ : ∃ w, w = Real.pi * BW := ⟨_, rfl⟩
  have hw0 : 0 < w := by rw [hw]; positivity
  rw [← hw] at hU1
  have hNN : (cplx g).N = N := hl.net.n
  have hbc : (beta : ℂ) ≠ 0 := Complex.ofReal_ne_zero.2 hl.nz
  have hab : (beta : ℂ) * alpha = -(w : ℂ) ^ 2 := by
    rw [← Complex.ofReal_mul, hl.prod, hw]
    push_cast
    ring
  have hs : (ν : ℂ) * Complex.I = 2 * Complex.I * w * ((ν / (2 * w) : ℝ) : ℂ) := by
    have : (w : ℂ) ≠ 0 := Complex.ofReal_ne_zero.2 hw0.ne'
    push_cast
    field_simp
  have hA : ∀ (x : ℕ → ℂ) (r : ℕ), r < N → ∑ c ∈ range N, (cplx g).A r c * x c =
      (if r + 1 < N then (alpha : ℂ) * x (r + 1) else 0) + if r = 0 then 0 else (beta : ℂ) * x (r - 1) :=
    fun x r hr => leap_row hl x r hr
  intro x hx
  have hX : ∀ k : Fin (cplx g).N, (fun n => if h : n < (cplx g).N then x ⟨n, h⟩ else 0) (k : ℕ) = x k := by
    intro k
    dsimp only
    rw [dif_pos k.isLt]
  generalize (fun n => if h : n < (cplx g).N then x ⟨n, h⟩ else 0) = X at hX
  have heq : ∀ r < N, (ν : ℂ) * Complex.I * X r =
      (if r + 1 < N then (alpha : ℂ) * X (r + 1) else 0) + if r = 0 then (beta : ℂ) * 0 else beta * X (r - 1) := by
    intro r hr
    have hr' : r < (cplx g).N := by rw [hNN]; exact hr
    have := hx ⟨r, hr'⟩
    rw [add_zero, ← hX ⟨r, hr'⟩] at this
    dsimp only at this
    rw [this, mul_zero, ← hA X r hr, ← hNN, ← Fin.sum_univ_eq_sum_range (fun c => (cplx g).A r c * X c)]
    exact Finset.sum_congr rfl fun k _ => by rw [hX]
  obtain ⟨s1, s2⟩ := (leap_solve N hN (w : ℂ) beta alpha _ 0 hbc hab X).1 heq
  rw [hs, cont_U, mul_zero] at s1
  have hlast : X (N - 1) = 0 := by
    refine (mul_eq_zero.1 s1).resolve_left (mul_ne_zero (pow_ne_zero _ (mul_ne_zero Complex.I_ne_zero ?_)) ?_)
    · exact Complex.ofReal_ne_zero.2 hw0.ne'
    · exact Complex.ofReal_ne_zero.2 hU1
  funext k
  have hk : (k : ℕ) < N := by rw [← hNN]; exact k.isLt
  have := s2 (N - 1 - k) (by omega)
  rw [show N - 1 - (N - 1 - (k : ℕ)) = k by omega, hlast, mul_zero, hX] at this
  exact (mul_eq_zero.1 this).resolve_right (pow_ne_zero _ hbc)

/-- the band of a leap-frog structure with equal couplings -/
theorem leap_band {N : ℕ} (hN : N ≠ 0) {BW delta T beta alpha : ℝ} {g : Sys ℝ} {dc : DC ℝ N}
    (hl : IsLeap N BW delta T beta alpha g dc) (hB : 0 < BW) (hbig : Real.pi * BW ≤ |beta|)
    (pinv : Matrix (Fin (cplx g).N) (Fin (cplx g).N) ℂ → Matrix (Fin (cplx g).N) (Fin (cplx g).N) ℂ)
    (pinv' : Matrix (Fin (cplx g).Nt) (Fin (cplx g).Nt) ℂ → Matrix (Fin (cplx g).Nt) (Fin (cplx g).Nt) ℂ)
    (l : Fin (cplx g).L) (hp : ∀ X, IsPinv X (pinv X)) (hp' : ∀ X, IsPinv X (pinv' X)) (ω : ℝ) (hω : 0 ≤ ω)
    (hres : NoResonance (fun i k : Fin (cplx g).N => (cplx g).A i k) ω) :
    1 / 2 ≤ stf pinv' ((cplx g).eta2 BW) ((cplx g).tfmAt pinv ω) l ↔ ω ≤ 2 * Real.pi * BW := by
  have hπ := Real.pi_pos
  obtain ⟨w, hw⟩ : ∃ w, w = Real.pi * BW := ⟨_, rfl⟩
  have hw0 : 0 < w := by rw [hw]; positivity
  have hNN : (cplx g).N = N := hl.net.n
  have hbc : (beta : ℂ) ≠ 0 := Complex.ofReal_ne_zero.2 hl.nz
  have hab : (beta : ℂ) * alpha = -(w : ℂ) ^ 2 := by
    rw [← Complex.ofReal_mul, hl.prod, hw]
    push_cast
    ring
  have hs : ∀ ν : ℝ, (ν : ℂ) * Complex.I = 2 * Complex.I * w * ((ν / (2 * w) : ℝ) : ℂ) := by
    intro ν
    have : (w : ℂ) ≠ 0 := Complex.ofReal_ne_zero.2 hw0.ne'
    push_cast
    field_simp
  have hA : ∀ (x : ℕ → ℂ) (r : ℕ), r < N → ∑ c ∈ range N, (cplx g).A r c * x c =
      (if r + 1 < N then (alpha : ℂ) * x (r + 1) else 0) + if r = 0 then 0 else (beta : ℂ) * x (r - 1) :=
    fun x r hr => leap_row hl x r hr
  have hBm : ∀ r : ℕ, (cplx g).B r l = if r = 0 then (beta : ℂ) else 0 := by
    intro r
    show ((g.B r l : ℝ) : ℂ) = _
    rw [hl.b]
    split <;> simp
  have hv : 2 * Real.pi * BW / (2 * w) = 1 := by rw [hw]; field_simp
  have hedge : NoResonance (fun i k : Fin (cplx g).N => (cplx g).A i k) (2 * Real.pi * BW) := by
    refine leap_nores hN hl hB _ ?_
    rw [show 2 * (Real.pi * BW) = 2 * w by rw [hw], hv, Polynomial.Chebyshev.U_eval_one]
    push_cast
    positivity
  -- the gain
  have hgain : ∀ ν : ℝ, NoResonance (fun i k : Fin (cplx g).N => (cplx g).A i k) ν →
      (U ℝ N).eval (ν / (2 * w)) ≠ 0 ∧ (U ℝ N).eval (ν / (2 * w)) ^ 2 * ∑ n, ‖(cplx g).tfmAt pinv ν n l‖ ^ 2 =
        ((beta / w) ^ 2) ^ N * ∑ m ∈ range N, ((w / beta) ^ 2) ^ m * (U ℝ m).eval (ν / (2 * w)) ^ 2 := by
    intro ν hν
    obtain ⟨X, e1, e2⟩ := state_gain (cplx g) pinv hp l (by show g.Nt = g.N; rw [hl.net.nt, hl.net.n])
      (by intro n k; show ((g.CT n k : ℝ) : ℂ) = _; rw [hl.c]; split <;> simp)
      (by intro n k; show ((g.D n k : ℝ) : ℂ) = _; rw [hl.d]; simp) ν hν
    rw [e2]
    rw [hNN] at e1 ⊢
    have heq : ∀ r < N, (ν : ℂ) * Complex.I * X r =
        (if r + 1 < N then (alpha : ℂ) * X (r + 1) else 0) + if r = 0 then (beta : ℂ) * 1 else beta * X (r - 1) := by
      intro r hr
      rw [e1 r hr, hA X r hr, hBm]
      by_cases h0 : r = 0
      · rw [if_pos h0, if_pos h0, if_pos h0]; ring
      · rw [if_neg h0, if_neg h0, if_neg h0]; ring
    obtain ⟨s1, s2⟩ := (leap_solve N hN (w : ℂ) beta alpha _ 1 hbc hab X).1 heq
    rw [hs, mul_one] at s1
    rw [hs] at s2
    exact leap_gain N w beta _ hw0 hl.nz X s1 s2
  obtain ⟨-, g1⟩ := hgain _ hedge
  obtain ⟨g2, g3⟩ := hgain ω hres
  rw [hv] at g1
  have hU1 : ∀ m : ℕ, (U ℝ m).eval (1 : ℝ) = (m : ℝ) + 1 := by
    intro m
    rw [Polynomial.Chebyshev.U_eval_one]
    push_cast
    rfl
  simp only [hU1] at g1
  have hQ : 0 < ((beta / w) ^ 2) ^ N := by
    have := hl.nz
    positivity
  have ha0 : 0 < (w / beta) ^ 2 := by
    have := hl.nz
    positivity
  have ha1 : (w / beta) ^ 2 ≤ 1 := by
    rw [sq_le_one_iff_abs_le_one, abs_div, div_le_one (abs_pos.2 hl.nz), abs_of_pos hw0, hw]
    exact hbig
  have hpos : 0 < ∑ n, ‖(cplx g).tfmAt pinv (2 * Real.pi * BW) n l‖ ^ 2 := by
    have : 0 < ((beta / w) ^ 2) ^ N * ∑ m ∈ range N, ((w / beta) ^ 2) ^ m * ((m : ℝ) + 1) ^ 2 :=
      mul_pos hQ (Finset.sum_pos (fun m _ => by positivity) ⟨0, mem_range.2 (Nat.pos_of_ne_zero hN)⟩)
    rw [← g1] at this
    exact (mul_pos_iff_of_pos_left (by positivity)).1 this
  rw [half_iff (cplx g) hl.net.l BW pinv hp pinv' hp' l hedge hpos,
    leap_compare N hN _ _ (ω / (2 * w)) _ _ hQ ha0 ha1 (by positivity) g2 g3 g1, div_le_one (by positivity), hw]
  rw [show 2 * (Real.pi * BW) = 2 * Real.pi * BW by ring]

/-- **C178** leap-frog synthesis from an oversampling ratio of at least `pi / delta`: with `eta2 = analog_system.eta2(BW)` the
signal transfer function of the estimator is at least one half exactly for the frequencies up to `BW`, at every frequency
at which the structure does not resonate by itself. From the band edge on it does not. -/
theorem C178_leap_frog (k : Kw) (gg : ℕ → ℝ) (N : ℕ) (hN : N ≠ 0) (BW OSR : ℝ) (hB : 0 < BW)
    (hd : 0 < k.delta.getD 1) (hO : Real.pi ≤ k.delta.getD 1 * OSR) (hkN : k.N = some N) (hkB : k.BW = some BW)
    (hkO : k.OSR = some OSR) (hkE : k.ENOB = none) (hT : 2 / 10 ^ 14 ≤ 1 / (2 * OSR * BW)) :
    ∃ f, leapSynthesis k gg = .ok f ∧
      (∀ ω, 2 * Real.pi * BW ≤ ω → NoResonance (fun i k : Fin (cplx f.sys).N => (cplx f.sys).A i k) ω) ∧
      ∀ (pinv : Matrix (Fin (cplx f.sys).N) (Fin (cplx f.sys).N) ℂ → Matrix (Fin (cplx f.sys).N) (Fin (cplx f.sys).N) ℂ)
        (pinv' : Matrix (Fin (cplx f.sys).Nt) (Fin (cplx f.sys).Nt) ℂ → Matrix (Fin (cplx f.sys).Nt) (Fin (cplx f.sys).Nt) ℂ)
        (l : Fin (cplx f.sys).L), (∀ X, IsPinv X (pinv X)) → (∀ X, IsPinv X (pinv' X)) → ∀ ω, 0 ≤ ω →
        NoResonance (fun i k : Fin (cplx f.sys).N => (cplx f.sys).A i k) ω →
        (1 / 2 ≤ stf pinv' ((cplx f.sys).eta2 BW) ((cplx f.sys).tfmAt pinv ω) l ↔ ω ≤ 2 * Real.pi * BW) := by
  have hπ := Real.pi_pos
  have hO0 : 0 < OSR := (mul_pos_iff_of_pos_left hd).1 (lt_of_lt_of_le hπ hO)
  obtain ⟨g, dc, beta, alpha, T, h1, hl, hT0, hosr⟩ := (C81_osr k gg N hN BW OSR hB hO0 hd hkN hkB hkO hkE).1 hT
  refine ⟨_, h1, fun ω hω => leap_nores hN hl hB ω ?_, fun pinv pinv' l hp hp' ω hω hres => ?_⟩
  · have hv : 1 ≤ ω / (2 * (Real.pi * BW)) := by
      rw [one_le_div (by positivity)]
      linarith
    rcases hv.eq_or_lt with hv | hv
    · rw [← hv, Polynomial.Chebyshev.U_eval_one]
      push_cast
      positivity
    · exact (U_step _ hv N).1.ne'
  refine leap_band hN hl hB ?_ pinv pinv' l hp hp' ω hω hres
  have hosr' : OSR * (2 * BW * T) = 1 := by
    rw [← hosr]
    unfold Fom.osr Fom.nyquistFrequency
    field_simp
  have hh := hl.half
  have : Real.pi * BW * T ≤ |beta| * T := by
    rw [hh]
    nlinarith [mul_le_mul_of_nonneg_right hO (show 0 ≤ 2 * BW * T by positivity)]
  exact le_of_mul_le_mul_right this hT0

/-- The hypotheses of `C178_chain` are met: two integrators, the second leaking, a band of one hertz; one half is reached at
half a hertz and not at two hertz. -/
example : ∃ (g : Sys ℝ) (pinv : Matrix (Fin (cplx g).N) (Fin (cplx g).N) ℂ → Matrix (Fin (cplx g).N) (Fin (cplx g).N) ℂ)
    (pinv' : Matrix (Fin (cplx g).Nt) (Fin (cplx g).Nt) ℂ → Matrix (Fin (cplx g).Nt) (Fin (cplx g).Nt) ℂ)
    (l : Fin (cplx g).L), chainOfIntegrators [100, 100] [0, -1] (.mat 2 1 fun _ _ => -1) = .ok g ∧
    1 / 2 ≤ stf pinv' ((cplx g).eta2 1) ((cplx g).tfmAt pinv Real.pi) l ∧
    ¬ 1 / 2 ≤ stf pinv' ((cplx g).eta2 1) ((cplx g).tfmAt pinv (4 * Real.pi)) l := by
  have hπ := Real.pi_pos
  obtain ⟨g, hg, h⟩ := C178_chain [100, 100] [0, -1] (fun _ _ => -1) (by simp) rfl (by simp) 1 one_pos
  obtain ⟨pinv, hp⟩ := exists_pinv_fun (cplx g).N
  obtain ⟨pinv', hp'⟩ := exists_pinv_fun (cplx g).Nt
  have hL : g.L = 1 := by
    have h1 := chain_eq [100, 100] [0, -1] (by simp) rfl (fun _ _ => (-1 : ℝ))
    rw [hg] at h1
    rw [Except.ok.inj h1]
  refine ⟨g, pinv, pinv', ⟨0, by show 0 < g.L; omega⟩, hg, ?_, ?_⟩
  · rw [(h pinv pinv' _ hp hp' _ hπ).1]
    linarith
  · rw [(h pinv pinv' _ hp hp' _ (by positivity)).1]
    intro hc
    linarith

/-- The hypotheses of `C178_leap_frog` are met: two integrators, a band of one hertz, oversampling by four. One half is
reached at zero frequency and not at two hertz. -/
example : ∃ (f : Frontend) (pinv : Matrix (Fin (cplx f.sys).N) (Fin (cplx f.sys).N) ℂ → Matrix (Fin (cplx f.sys).N) (Fin (cplx f.sys).N) ℂ)
    (pinv' : Matrix (Fin (cplx f.sys).Nt) (Fin (cplx f.sys).Nt) ℂ → Matrix (Fin (cplx f.sys).Nt) (Fin (cplx f.sys).Nt) ℂ)
    (l : Fin (cplx f.sys).L), leapSynthesis { N := some 2, BW := some 1, OSR := some 4 } (fun _ => 1) = .ok f ∧
    1 / 2 ≤ stf pinv' ((cplx f.sys).eta2 1) ((cplx f.sys).tfmAt pinv 0) l ∧
    ¬ 1 / 2 ≤ stf pinv' ((cplx f.sys).eta2 1) ((cplx f.sys).tfmAt pinv (4 * Real.pi)) l := by
  have hπ := Real.pi_pos
  obtain ⟨f, hf, hn, h⟩ := C178_leap_frog { N := some 2, BW := some 1, OSR := some 4 } (fun _ => 1) 2 two_ne_zero 1 4 one_pos
    (by simp) (by simpa using Real.pi_le_four) rfl rfl rfl rfl (by norm_num)
  obtain ⟨g, dc, beta, alpha, T, h1, hl, -, -⟩ :=
    (C81_osr { N := some 2, BW := some 1, OSR := some 4 } (fun _ => 1) 2 two_ne_zero 1 4 one_pos (by norm_num)
      (by simp) rfl rfl rfl rfl).1 (by norm_num)
  rw [hf] at h1
  cases h1
  obtain ⟨pinv, hp⟩ := exists_pinv_fun (cplx g).N
  obtain ⟨pinv', hp'⟩ := exists_pinv_fun (cplx g).Nt
  have hU : ∀ v : ℝ, (U ℝ (2 : ℕ)).eval v = 4 * v ^ 2 - 1 := by
    intro v
    rw [Nat.cast_two, Polynomial.Chebyshev.U_two]
    simp
  have hL : g.L = 1 := hl.net.l
  refine ⟨_, pinv, pinv', ⟨0, by show 0 < g.L; omega⟩, hf, ?_, ?_⟩
  · rw [h pinv pinv' _ hp hp' 0 le_rfl (leap_nores two_ne_zero hl one_pos 0 (by rw [hU]; norm_num))]
    positivity
  · rw [h pinv pinv' _ hp hp' (4 * Real.pi) (by positivity) (hn _ (by linarith))]
    intro hc
    linarith

end Cbadc.Synthesis
