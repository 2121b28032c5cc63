import Mathlib.Algebra.Order.Field.Basic
import Mathlib.Algebra.Order.Ring.Rat
import Mathlib.Tactic.Linarith
import Mathlib.Tactic.NormNum
import Mathlib.Tactic.Positivity
import Verif.Lemmas.SigmaDelta

/-! # Properties of imported sigma-delta modulators (C50, C83) -/

namespace Cbadc.SigmaDelta
open Analog Control Signal Spec

variable {K : Type*} [Field K] [LinearOrder K]

section accept
variable [IsStrictOrderedRing K]

/-- the clock accepts every period of at least 2e-14 -/
theorem clock_ok (T : K) (hT : 2 / 10 ^ 14 ≤ T) : ∃ c : Clock K,
    Clock.new T (1 / 10 ^ 14) 0 (1 / 2) 2 = .ok c ∧ c.T = T := by
  have h0 : (0 : K) < 2 / 10 ^ 14 := by positivity
  have hp : 0 < T := lt_of_lt_of_le h0 hT
  unfold Clock.new
  dsimp only
  rw [if_neg (by push Not; exact ⟨by norm_num, by norm_num⟩), if_neg, if_neg (by push Not; exact hp.le)]
  · exact ⟨_, rfl, rfl⟩
  · unfold Clock.maxStep
    dsimp only
    have : min (1 / 2 : K) (1 - 1 / 2) = 1 / 2 := by norm_num
    rw [this]
    push Not
    linarith

/-- the frontend that `dict2af` builds -/
theorem dict2af_ok (c : Ctsd K) (T dac : K) (loc : Bool) (ql : Option ℕ) (hT : 2 / 10 ^ 14 ≤ T) (hN : 0 < c.order)
    (hq : 0 < ql.getD c.level) : ∃ fe, dict2af c T dac loc ql = .ok fe ∧
      fe.M = (if loc then c.order else 1) ∧
      fe.sys = ⟨c.order, 1, if loc then c.order else 1, if loc then c.order else 1, c.order,
        matA c.order c.coefficient (1 / T), fun n _ => matB c.coefficient (1 / T) n,
        fun i j => if i = j then 1 else 0, some (matGamma c.coefficient (1 / T) dac loc),
        some (matGammaT c.order c.coefficient loc), fun _ _ => 0, fun _ _ => matDt c.order c.coefficient loc,
        fun _ _ => 0⟩ ∧ fe.ml.dc.T = T ∧ ∀ m, fe.ml.n m = ql.getD c.level := by
  have h0 : (0 : K) < 2 / 10 ^ 14 := by positivity
  obtain ⟨clk, h1, h2⟩ := clock_ok T hT
  obtain ⟨ml, h3, h4, h5⟩ := mlnew_ok clk.T clk.tt2 (if loc then c.order else 1) (ql.getD c.level) hq
  refine ⟨⟨if loc then c.order else 1, _, ml⟩, ?_, rfl, rfl, h4.trans h2, h5⟩
  unfold dict2af pyDiv
  rw [if_neg (lt_of_lt_of_le h0 hT).ne']
  dsimp only
  rw [if_neg hN.ne', new_ok, h1]
  dsimp only
  rw [h3]

end accept

/-! ### C50: import of an ABCD matrix -/

theorem clear_iff (v : K) : Clear v ↔ cut v = v := by
  unfold Clear cut
  by_cases h : |v| > 1 / 10 ^ 8
  · simp only [h, or_true, if_true]
  · rw [if_neg h]
    exact ⟨fun a => (a.resolve_right h).symm, fun a => .inl a.symm⟩

/-- the value read for a stored coefficient -/
theorem value_cut {d : Dict K} {n : Name} {v : K} (h : d n = stored v) : coeffValue d n = cut v :=
  value_stored h 0

theorem e111 {l k : ℕ} (hlt : k < l)
    (h : Nat.toDigits 10 (l + 1) ++ Nat.toDigits 10 (k + 1) = Nat.toDigits 10 11 ++ Nat.toDigits 10 1) :
    l = 10 ∧ k = 0 := by
  have hr : Nat.toDigits 10 11 ++ Nat.toDigits 10 1 = ['1', '1', '1'] := by decide +kernel
  rw [hr] at h
  have a := Nat.ofDigitChars_toDigits (b := 10) (n := l + 1) (by omega) (by omega)
  have b := Nat.ofDigitChars_toDigits (b := 10) (n := k + 1) (by omega) (by omega)
  have d1 : Nat.ofDigitChars 10 [] 0 = 0 := by decide +kernel
  have d2 : Nat.ofDigitChars 10 ['1'] 0 = 1 := by decide +kernel
  have d3 : Nat.ofDigitChars 10 ['1', '1'] 0 = 11 := by decide +kernel
  generalize Nat.toDigits 10 (l + 1) = p at *
  generalize Nat.toDigits 10 (k + 1) = q at *
  rcases p with _ | ⟨x, _ | ⟨y, _ | ⟨z, _ | ⟨w, p⟩⟩⟩⟩
  · omega
  · simp only [List.cons_append, List.nil_append, List.cons.injEq] at h
    rw [h.1] at a
    omega
  · simp only [List.cons_append, List.nil_append, List.cons.injEq] at h
    rw [h.1, h.2.1] at a
    rw [h.2.2] at b
    omega
  · simp only [List.cons_append, List.nil_append, List.cons.injEq] at h
    rw [h.2.2.2] at b
    omega
  · simp at h

section
variable [IsStrictOrderedRing K]

/-- **C50** Which arrays are refused, and how: none without rows (`ValueError`), with fewer than one column more than rows
(`IndexError`), of order zero (`IndexError`) or with period zero (`ZeroDivisionError`); all others are accepted from two
clock resolutions and one level on. -/
theorem C50_refused (rows cols : ℕ) (X : ℕ → ℕ → K) (T dac : K) (q : ℕ) (loc : Bool) :
    (rows = 0 → abcd2af rows cols X T q dac loc = .error .valueError) ∧
    (rows ≠ 0 → cols ≤ rows → abcd2af rows cols X T q dac loc = .error .indexError) ∧
    (rows ≠ 0 → rows < cols → T = 0 → abcd2af rows cols X T q dac loc = .error .zeroDivision) ∧
    (rows = 1 → rows < cols → T ≠ 0 → abcd2af rows cols X T q dac loc = .error .indexError) ∧
    (2 ≤ rows → rows < cols → 2 / 10 ^ 14 ≤ T → 1 ≤ q → ∃ fe, abcd2af rows cols X T q dac loc = .ok fe) := by
  unfold abcd2af
  refine ⟨fun h => by rw [if_pos h], fun h1 h2 => by rw [if_neg h1, if_pos (by omega)], fun h1 h2 h3 => ?_, fun h1 h2 h3 => ?_,
    fun h1 h2 h3 h4 => ?_⟩
  · rw [if_neg h1, if_neg (by omega)]
    unfold dict2af pyDiv
    rw [if_pos h3]
  · rw [if_neg (by omega), if_neg (by omega)]
    unfold dict2af pyDiv
    rw [if_neg h3]
    dsimp only
    rw [if_pos (by omega)]
  · rw [if_neg (by omega), if_neg (by omega)]
    obtain ⟨fe, h, -⟩ := dict2af_ok ⟨rows - 1, q, coefficients (rows - 1) X⟩ T dac loc (some q) h3 (by show 0 < rows - 1; omega) h4
    exact ⟨fe, h⟩

/-- **C50 (partial).**  An ABCD matrix of order one to ten is imported without change (states, input and feedback scaled by
the rate, decisions driven by the quantiser input of the matrix) exactly if it has a zero diagonal, no coefficient of
magnitude at most `1e-8` other than zero, observes the last state and feeds nothing back directly into the quantiser. -/
theorem C50_iff_partial (N cols : ℕ) (X : ℕ → ℕ → K) (T dac : K) (q : ℕ) (h1 : 1 ≤ N) (h10 : N ≤ 10)
    (hc : N + 2 ≤ cols) (hT : 2 / 10 ^ 14 ≤ T) (hq : 1 ≤ q) (hdac : dac ≠ 0) :
    ∃ fe, abcd2af (N + 1) cols X T q dac false = .ok fe ∧ fe.ml.dc.T = T ∧ (∀ m, fe.ml.n m = q) ∧
      (Imports N X (1 / T) dac fe ↔ Plain N X) := by
  have hT0 : T ≠ 0 := (lt_of_lt_of_le (by positivity : (0 : K) < 2 / 10 ^ 14) hT).ne'
  have hfs : (1 / T : K) ≠ 0 := one_div_ne_zero hT0
  obtain ⟨fe, h, hM, hs, hclk, hlev⟩ := dict2af_ok ⟨N, q, coefficients N X⟩ T dac false (some q) hT h1 hq
  refine ⟨fe, ?_, hclk, hlev, ?_⟩
  · unfold abcd2af
    rw [if_neg (by omega), if_neg (by omega)]
    exact h
  dsimp only at hs hM
  rw [if_neg (by simp)] at hM
  have eA : ∀ r < N, ∀ c < N, fe.sys.A r c = if r = c then 0 else cut (X r c) * (1 / T) := by
    intro r hr c hc
    rw [hs]
    exact matA_eq N h10 X _ r c hr hc
  have eB : ∀ r < N, fe.sys.B r 0 = cut (X r N) * (1 / T) := by
    intro r hr
    rw [hs]
    change matB _ _ _ = _
    unfold matB
    rw [value_cut (coeff_b N X r hr.le)]
  have eG : ∀ r < N, matGamma (coefficients N X) (1 / T) dac false r 0 = cut (X r (N + 1)) * (1 / T) * dac := by
    intro r hr
    unfold matGamma
    rw [if_pos (by simp), value_cut (coeff_a N X r hr.le)]
  have eL : matGammaT N (coefficients N X) false 0 (N - 1) =
      if |X N (N - 1)| > 1 / 10 ^ 8 then X N (N - 1) else 1 := by
    unfold matGammaT
    rw [if_neg (by simp), if_pos rfl]
    have := coeff_c N X (N - 1) (by omega)
    rw [Nat.sub_add_cancel h1] at this
    exact value_stored (K := K) this 1
  have eQ : ∀ c, c + 1 < N → matGammaT N (coefficients N X) false 0 c = cut (X N c) := by
    intro c hc
    unfold matGammaT
    rw [if_neg (by simp), if_neg (by omega)]
    have a := coeff_d N h10 X N c le_rfl (by omega)
    rw [if_pos hc] at a
    exact value_cut a
  have eD : fe.sys.Bt 0 0 = cut (X N N) := by
    rw [hs]
    change matDt N (coefficients N X) false = _
    unfold matDt
    rw [if_neg (by simp), value_cut (coeff_b N X N le_rfl)]
  have gG : fe.sys.Gamma = some (matGamma (coefficients N X) (1 / T) dac false) := by rw [hs]
  have gT : fe.sys.GammaT = some (matGammaT N (coefficients N X) false) := by rw [hs]
  have eAt : fe.sys.At 0 0 = 0 := by rw [hs]
  constructor
  · intro i
    have hol : ∀ r < N, X r r = 0 := by
      intro r hr
      have a := i.states r hr r hr
      rw [eA r hr r hr, if_pos rfl] at a
      exact (mul_eq_zero.1 a.symm).resolve_right hfs
    obtain ⟨G, hG, hG'⟩ := i.feedback
    rw [gG, Option.some.injEq] at hG
    subst hG
    obtain ⟨G, hG, hQ⟩ := i.quantiser
    rw [gT, Option.some.injEq] at hG
    subst hG
    have hl := hQ (N - 1) (by omega)
    rw [eL] at hl
    have hlast : |X N (N - 1)| > 1 / 10 ^ 8 := by
      by_contra a
      rw [if_neg a] at hl
      rw [← hl, abs_one] at a
      exact a (by norm_num)
    refine ⟨hol, ?_, ?_, ?_, ?_, ?_, ?_⟩
    · intro r hr c hc
      by_cases e : r = c
      · subst e
        exact .inl (hol r hr)
      · have a := i.states r hr c hc
        rw [eA r hr c hc, if_neg e] at a
        exact (clear_iff _).2 (mul_right_cancel₀ hfs a)
    · intro r hr
      rcases hr.lt_or_eq with hr | rfl
      · have a := i.input r hr
        rw [eB r hr] at a
        exact (clear_iff _).2 (mul_right_cancel₀ hfs a)
      · exact (clear_iff _).2 (eD.symm.trans i.feedthrough)
    · intro r hr
      have a := hG' r hr
      rw [eG r hr] at a
      exact (clear_iff _).2 (mul_right_cancel₀ hfs (mul_right_cancel₀ hdac a))
    · intro c hc
      by_cases e : c = N - 1
      · rw [e]; exact .inr hlast
      · exact (clear_iff _).2 ((eQ c (by omega)).symm.trans (hQ c hc))
    · intro e
      rw [e, abs_zero] at hlast
      exact absurd hlast (not_lt.2 (by positivity))
    · exact i.direct.symm.trans eAt
  · intro p
    refine ⟨by rw [hs], by rw [hs], ⟨hM, by rw [hs]; rfl, by rw [hs]; rfl⟩, ?_, ?_, ?_, ?_, ?_, ?_⟩
    · intro r hr c hc
      rw [eA r hr c hc]
      by_cases e : r = c
      · rw [if_pos e, ← e, p.hollow r hr, zero_mul]
      · rw [if_neg e, (clear_iff _).1 (p.states r hr c hc)]
    · intro r hr
      rw [eB r hr, (clear_iff _).1 (p.input r hr.le)]
    · exact ⟨_, gG, fun r hr => by rw [eG r hr, (clear_iff _).1 (p.feedback r hr)]⟩
    · refine ⟨_, gT, fun c hc => ?_⟩
      by_cases e : c = N - 1
      · rw [e, eL, if_pos ((p.quantiser (N - 1) (by omega)).resolve_left p.last)]
      · rw [eQ c (by omega), (clear_iff _).1 (p.quantiser c hc)]
    · rw [eD, (clear_iff _).1 (p.input N le_rfl)]
    · rw [eAt, p.direct]

/-- **C50 (partial).**  With local control the states, input and feedback of a matrix of order one to ten with zero diagonal
and no tiny coefficients are imported without change and every control observes its own state. -/
theorem C50_local_partial (N cols : ℕ) (X : ℕ → ℕ → K) (T dac : K) (q : ℕ) (h1 : 1 ≤ N) (h10 : N ≤ 10)
    (hc : N + 2 ≤ cols) (hT : 2 / 10 ^ 14 ≤ T) (hq : 1 ≤ q) (hh : ∀ r < N, X r r = 0)
    (hs : ∀ r < N, ∀ c < N + 2, Clear (X r c)) :
    ∃ fe, abcd2af (N + 1) cols X T q dac true = .ok fe ∧ fe.ml.dc.T = T ∧ (∀ m, fe.ml.n m = q) ∧
      ImportsLocal N X (1 / T) dac fe := by
  obtain ⟨fe, h, hM, he, hclk, hlev⟩ := dict2af_ok ⟨N, q, coefficients N X⟩ T dac true (some q) hT h1 hq
  refine ⟨fe, ?_, hclk, hlev, ?_⟩
  · unfold abcd2af
    rw [if_neg (by omega), if_neg (by omega)]
    exact h
  dsimp only at he hM
  rw [if_pos rfl] at hM
  refine ⟨by rw [he], by rw [he], ⟨hM, by rw [he]; rfl, by rw [he]; rfl⟩, ?_, ?_, ?_, ?_⟩
  · intro r hr c hc
    rw [he]
    change matA _ _ _ _ _ = _
    rw [matA_eq N h10 X _ r c hr hc]
    by_cases e : r = c
    · rw [if_pos e, ← e, hh r hr, zero_mul]
    · rw [if_neg e, (clear_iff _).1 (hs r hr c (by omega))]
  · intro r hr
    rw [he]
    change matB _ _ _ = _
    unfold matB
    rw [value_cut (coeff_b N X r hr.le), (clear_iff _).1 (hs r hr N (by omega))]
  · refine ⟨_, by rw [he], fun r hr m hm => ?_⟩
    unfold matGamma
    rw [if_pos rfl, value_cut (coeff_a N X r hr.le), (clear_iff _).1 (hs r hr (N + 1) (by omega))]
  · exact ⟨matGammaT N (coefficients N X) true, by rw [he], fun m hm c hc => rfl⟩

/-- **C50 (false from order eleven on).**  For every order from eleven on there is an ABCD matrix with zero diagonal and
coefficients 0 and 1 whose import has a wrong state matrix: the names of two coefficients coincide. -/
theorem C50_order_false (N : ℕ) (hN : 11 ≤ N) : ∃ X : ℕ → ℕ → K, Plain N X ∧
    ∀ (cols : ℕ) (T dac : K) (q : ℕ) (fe : MLFrontend K), N + 2 ≤ cols → 2 / 10 ^ 14 ≤ T → 1 ≤ q →
      abcd2af (N + 1) cols X T q dac false = .ok fe → ¬Imports N X (1 / T) dac fe := by
  have cl0 : Clear (0 : K) := .inl rfl
  have cl1 : Clear (1 : K) := .inr (by rw [abs_one]; norm_num)
  let X : ℕ → ℕ → K := fun r c => if r = 0 ∧ c = 10 ∨ r = N ∧ c = N - 1 then 1 else 0
  have hX : ∀ r c, Clear (X r c) := by
    intro r c
    change Clear (if _ then _ else _)
    split
    · exact cl1
    · exact cl0
  refine ⟨X, ⟨?_, fun r _ c _ => hX r c, fun r _ => hX r N, fun r _ => hX r _, fun c _ => hX N c, ?_, ?_⟩, ?_⟩
  · intro r hr
    exact if_neg (by omega)
  · change (if _ then _ else _) ≠ _
    rw [if_pos (by omega)]
    exact one_ne_zero
  · exact if_neg (by omega)
  · intro cols T dac q fe hc hT hq h i
    have hT0 : T ≠ 0 := (lt_of_lt_of_le (by positivity : (0 : K) < 2 / 10 ^ 14) hT).ne'
    obtain ⟨fe', h', -, hs, -⟩ := dict2af_ok ⟨N, q, coefficients N X⟩ T dac false (some q) hT (by simpa using by omega) hq
    have : fe = fe' := by
      unfold abcd2af at h
      rw [if_neg (by omega), if_neg (by omega), Nat.add_sub_cancel, h'] at h
      exact (Except.ok.inj h).symm
    subst this
    have a := i.states 10 (by omega) 0 (by omega)
    have x0 : X 10 0 = 0 := if_neg (by omega)
    have hx1 : X 0 10 = 1 := if_pos (by omega)
    rw [x0, zero_mul, hs] at a
    change matA _ _ _ _ _ = _ at a
    unfold matA at a
    have key : ∀ e ∈ inputEntries N X ++ stateEntries N X, e.1 = name2 'd' 1 11 → e.2 = 0 := by
      intro e he hn
      rcases (mem_entries N X e).1 he with ⟨k, -, rfl⟩ | ⟨k, -, rfl⟩ | ⟨k, -, rfl⟩ | ⟨k, hk, l, hl, hlt, rfl⟩ | ⟨k, hk, l, hl, -, rfl⟩
      · exact absurd hn (name12 (by decide))
      · exact absurd hn (name12 (by decide))
      · exact absurd hn (name12 (by decide))
      · exact if_neg (by omega)
      · exact absurd (List.cons.inj hn).1 (by decide)
    have hd : coefficients N X (name2 'd' 1 11) = none := by
      unfold coefficients
      rw [lookup_foldl _ 0 _ _ key, if_neg]
      rintro ⟨-, b⟩
      rw [abs_zero] at b
      exact absurd b (not_lt.2 (by positivity))
    have key2 : ∀ e ∈ inputEntries N X ++ stateEntries N X, e.1 = name2 'e' 11 1 → e.2 = 1 := by
      intro e he hn
      rcases (mem_entries N X e).1 he with ⟨k, -, rfl⟩ | ⟨k, -, rfl⟩ | ⟨k, -, rfl⟩ | ⟨k, hk, l, hl, hlt, rfl⟩ | ⟨k, hk, l, hl, hlt, rfl⟩
      · exact absurd hn (name12 (by decide))
      · exact absurd hn (name12 (by decide))
      · exact absurd hn (name12 (by decide))
      · exact absurd (List.cons.inj hn).1 (by decide)
      · obtain ⟨rfl, rfl⟩ := e111 hlt (List.cons.inj hn).2
        exact hx1
    have hm : (name2 'e' 11 1, (1 : K)) ∈ inputEntries N X ++ stateEntries N X :=
      (mem_entries N X _).2 (.inr (.inr (.inr (.inr ⟨0, by omega, 10, by omega, by omega,
        Prod.ext rfl hx1.symm⟩))))
    have he : coefficients N X (name2 'e' 1 11) = stored 1 := by
      have : name2 'e' 1 11 = name2 'e' 11 1 := by decide +kernel
      rw [this]
      exact coeff_some N X _ 1 key2 hm
    have h1 : (1 : K) > 1 / 10 ^ 8 := by norm_num
    rw [has_none hd, if_neg (by simp), has_stored he, value_stored he, abs_one,
      if_pos (decide_eq_true h1), if_pos h1, one_mul] at a
    exact one_div_ne_zero hT0 a

/-- **C50 (false).**  No import of order one to ten keeps a diagonal coefficient: whenever the given matrix has one, the
result is not the given loop filter. -/
theorem C50_diagonal_false (N cols : ℕ) (X : ℕ → ℕ → K) (T dac : K) (q : ℕ) (h1 : 1 ≤ N) (h10 : N ≤ 10)
    (hc : N + 2 ≤ cols) (hT : 2 / 10 ^ 14 ≤ T) (hq : 1 ≤ q) (hdac : dac ≠ 0) (r : ℕ) (hr : r < N) (hX : X r r ≠ 0) :
    ∃ fe, abcd2af (N + 1) cols X T q dac false = .ok fe ∧ ¬Imports N X (1 / T) dac fe := by
  obtain ⟨fe, h, -, -, hi⟩ := C50_iff_partial N cols X T dac q h1 h10 hc hT hq hdac
  exact ⟨fe, h, fun i => hX ((hi.1 i).hollow r hr)⟩

end

/-- a third-order matrix with zero diagonal, feedforward and a resonator (test) -/
def exX : ℕ → ℕ → ℚ := fun r c =>
  if (r, c) = (1, 0) ∨ (r, c) = (2, 1) ∨ (r, c) = (3, 2) then 1
  else if (r, c) = (2, 0) ∨ (r, c) = (0, 3) then 1 / 2
  else if (r, c) = (1, 2) then -1 / 50
  else if (r, c) = (0, 4) ∨ (r, c) = (2, 4) then -1
  else 0

theorem exX_clear (r c : ℕ) : Clear (exX r c) := by
  unfold exX Clear
  split
  · right; norm_num
  split
  · right; norm_num
  split
  · right; norm_num
  split
  · right; norm_num
  · left; rfl

-- C50_iff_partial, C50_local_partial: a third-order modulator meets the hypotheses and is plain; the import is faithful
example : Plain 3 exX := by
  refine ⟨?_, fun r _ c _ => exX_clear r c, fun r _ => exX_clear _ _, fun r _ => exX_clear _ _, fun c _ => exX_clear _ _,
    by decide, by decide⟩
  intro r hr
  have : r = 0 ∨ r = 1 ∨ r = 2 := by omega
  rcases this with rfl | rfl | rfl <;> decide
example : ∃ fe, abcd2af 4 5 exX (1 / 1000) 2 1 true = .ok fe ∧ fe.ml.dc.T = 1 / 1000 ∧ (∀ m, fe.ml.n m = 2) ∧
    ImportsLocal 3 exX (1 / (1 / 1000)) 1 fe :=
  C50_local_partial 3 5 exX (1 / 1000) 1 2 (by omega) (by omega) (by omega) (by norm_num) (by omega)
    (by
      intro r hr
      have : r = 0 ∨ r = 1 ∨ r = 2 := by omega
      rcases this with rfl | rfl | rfl <;> decide) fun r _ c _ => exX_clear r c

-- C50_diagonal_false: a leaky integrator is imported as a lossless one
example : ∃ fe, abcd2af 2 3 (fun _ _ => (1 : ℚ)) 1 2 1 false = .ok fe ∧
    ¬Imports 1 (fun _ _ => (1 : ℚ)) (1 / 1) 1 fe :=
  C50_diagonal_false 1 3 _ 1 1 2 (by omega) (by omega) (by omega) (by norm_num) (by omega) one_ne_zero 0
    (by omega) one_ne_zero

-- C50_order_false: order eleven
example : ∃ X : ℕ → ℕ → ℚ, Plain 11 X ∧ ∀ (cols : ℕ) (T dac : ℚ) (q : ℕ) (fe : MLFrontend ℚ), 11 + 2 ≤ cols →
    2 / 10 ^ 14 ≤ T → 1 ≤ q → abcd2af (11 + 1) cols X T q dac false = .ok fe → ¬Imports 11 X (1 / T) dac fe :=
  C50_order_false 11 le_rfl

/-! ### C83: import of an exported file -/

omit [LinearOrder K] in
theorem tidy_value {N : ℕ} {d : Dict K} (h : Tidy N d) (n : Name) : coeffValue d n = active d n := by
  unfold coeffValue active
  cases hd : d n with
  | none => rfl
  | some c =>
    obtain ⟨ha, v, hv⟩ := h.active n c hd
    obtain ⟨fv, ac⟩ := c
    dsimp only at ha hv
    subst ha hv
    rfl

theorem key1_eq : key1 = name1 := rfl

theorem key2_eq : key2 = name2 := rfl

omit [LinearOrder K] in
theorem active_none {d : Dict K} {n : Name} (h : d n = none) : active d n = 0 := by
  unfold active
  rw [h]

/-- **C83 (partial).**  The frontend built from a file in which all coefficients are active, no two connect the same pair of
states and the last `c` is there, is the modulator that the coefficients describe, at the requested period and with the
requested number of levels (that of the file by default). -/
theorem C83_partial [IsStrictOrderedRing K] (c : Ctsd K) (T dac : K) (ql : Option ℕ) (hN : 1 ≤ c.order)
    (hT : 2 / 10 ^ 14 ≤ T) (hq : 1 ≤ ql.getD c.level) (ht : Tidy c.order c.coefficient) :
    ∃ fe, dict2af c T dac false ql = .ok fe ∧ Describes c.order c.coefficient (1 / T) dac fe ∧ fe.ml.dc.T = T ∧
      ∀ m, fe.ml.n m = ql.getD c.level := by
  obtain ⟨fe, h, hM, hs, hclk, hlev⟩ := dict2af_ok c T dac false ql hT hN hq
  refine ⟨fe, h, ?_, hclk, hlev⟩
  rw [if_neg (by simp)] at hM
  obtain ⟨N, lv, d⟩ := c
  dsimp only at *
  have hv := tidy_value ht
  refine ⟨by rw [hs], by rw [hs], ⟨hM, by rw [hs]; rfl, by rw [hs]; rfl⟩, ?_, ?_, ?_, ?_, ?_⟩
  · intro r hr c hc
    rw [hs]
    rw [key1_eq, key2_eq]
    change matA N d (1 / T) r c = _
    unfold matA has
    rw [hv, hv, hv]
    have hcc : (d (name1 'c' r)).isSome = true ∧ c = (if r = 0 then N - 1 else r - 1) ↔
        r = c + 1 ∧ d (name1 'c' (c + 1)) ≠ none := by
      rcases Nat.eq_zero_or_pos r with rfl | h
      · have h0 : d (name1 'c' 0) = none := ht.first
        rw [h0]
        simp
      · rw [if_neg (by omega), Option.isSome_iff_ne_none]
        constructor
        · rintro ⟨h1, rfl⟩
          rw [Nat.sub_add_cancel h]
          exact ⟨rfl, h1⟩
        · rintro ⟨rfl, h2⟩
          exact ⟨h2, rfl⟩
    have sg := ht.single r hr c hc
    rw [key1_eq, key2_eq] at sg
    by_cases h1 : d (name2 'd' (c + 1) (r + 1)) = none
    · rw [h1, if_neg (by simp), active_none h1]
      by_cases h2 : d (name2 'e' (c + 1) (r + 1)) = none
      · rw [h2, if_neg (by simp), active_none h2]
        by_cases h3 : r = c + 1
        · by_cases h4 : d (name1 'c' (c + 1)) = none
          · rw [if_neg fun h => (hcc.1 h).2 h4, if_pos h3, active_none h4]
            simp
          · rw [if_pos (hcc.2 ⟨h3, h4⟩), if_pos h3, h3]
            simp
        · rw [if_neg fun h => h3 (hcc.1 h).1, if_neg h3]
          simp
      · rw [if_pos (Option.isSome_iff_ne_none.2 h2)]
        have : (if r = c + 1 then active d (name1 'c' (c + 1)) else 0) = 0 := by
          by_cases h3 : r = c + 1
          · rw [if_pos h3, active_none (sg.2 h2 h3)]
          · rw [if_neg h3]
        rw [this]
        simp
    · rw [if_pos (Option.isSome_iff_ne_none.2 h1), active_none (sg.1 h1).1]
      have : (if r = c + 1 then active d (name1 'c' (c + 1)) else 0) = 0 := by
        by_cases h3 : r = c + 1
        · rw [if_pos h3, active_none ((sg.1 h1).2 h3)]
        · rw [if_neg h3]
      rw [this]
      simp
  · intro r hr
    rw [hs]
    change matB d (1 / T) r = _
    rw [key1_eq]
    unfold matB
    rw [hv]
  · refine ⟨matGamma d (1 / T) dac false, by rw [hs], fun r hr => ?_⟩
    unfold matGamma
    rw [key1_eq, if_pos (by simp), hv]
  · refine ⟨matGammaT N d false, by rw [hs], fun c hc => ?_⟩
    unfold matGammaT
    rw [key1_eq, key2_eq, if_neg (by simp)]
    by_cases e : c + 1 = N
    · rw [if_pos (by omega), if_pos e]
      have hl := ht.last
      unfold coeffValue active
      cases hd : d (name1 'c' N) with
      | none => exact absurd hd hl
      | some w =>
        obtain ⟨ha, v, hv⟩ := ht.active _ w hd
        obtain ⟨fv, ac⟩ := w
        dsimp only at ha hv
        subst ha hv
        rfl
    · rw [if_neg (by omega), if_neg e, hv]
  · rw [hs]
    change matDt N d false = _
    unfold matDt
    rw [key1_eq, if_neg (by simp), hv]

/-- a second-order file (test) -/
def exFile : Ctsd ℚ where
  order := 2
  level := 3
  coefficient n :=
    if n = ['b', '1'] ∨ n = ['c', '1'] ∨ n = ['c', '2'] then some ⟨some 1, true⟩
    else if n = ['a', '1'] ∨ n = ['a', '2'] then some ⟨some (-1 / 2), true⟩
    else if n = ['e', '2', '1'] then some ⟨some (-1 / 100), true⟩
    else none

-- C83_partial: a second-order modulator with a resonator meets the hypotheses
example : Tidy 2 exFile.coefficient := by
  refine ⟨?_, by decide +kernel, by decide +kernel, ?_⟩
  · intro n c h
    unfold exFile at h
    dsimp only at h
    split at h
    · cases h; exact ⟨rfl, 1, rfl⟩
    split at h
    · cases h; exact ⟨rfl, -1 / 2, rfl⟩
    split at h
    · cases h; exact ⟨rfl, -1 / 100, rfl⟩
    · cases h
  · have : ∀ r : Fin 2, ∀ c : Fin 2, ((exFile.coefficient (key2 'd' (c.1 + 1) (r.1 + 1))).isSome = false) ∧
        ((exFile.coefficient (key2 'e' (c.1 + 1) (r.1 + 1))).isSome = true → r.1 ≠ c.1 + 1) := by decide +kernel
    intro r hr c hc
    have a := this ⟨r, hr⟩ ⟨c, hc⟩
    constructor
    · intro h
      rw [← Option.isSome_iff_ne_none, a.1] at h
      exact absurd h (by simp)
    · intro h e
      exact absurd e (a.2 (Option.isSome_iff_ne_none.2 h))

/-- **C83 (false).**  A coefficient that the file marks as inactive is imported as if it were active. -/
theorem C83_inactive_false : ∃ (c : Ctsd ℚ) (fe : MLFrontend ℚ), dict2af c 1 1 false none = .ok fe ∧
    c.coefficient ['b', '1'] = some ⟨some 5, false⟩ ∧ fe.sys.B 0 0 = 5 ∧
    ¬Describes c.order c.coefficient (1 / 1) 1 fe := by
  let c : Ctsd ℚ := ⟨1, 2, fun n => if n = ['b', '1'] then some ⟨some 5, false⟩ else
    if n = ['c', '1'] then some ⟨some 1, true⟩ else none⟩
  obtain ⟨fe, h, -, hs, -⟩ := dict2af_ok c 1 1 false none (by norm_num) (by decide) (by decide)
  have hB : fe.sys.B 0 0 = 5 := by
    rw [hs]
    change matB _ _ _ = _
    decide +kernel
  refine ⟨c, fe, h, by simp [c], hB, fun i => ?_⟩
  have a := i.input 0 (by decide)
  rw [hB] at a
  revert a
  decide +kernel

/-- `C50_refused`: an array of order one needs three columns. -/
example : abcd2af 2 2 (fun _ _ => (1 : ℚ)) 1 2 1 false = .error .indexError ∧
    ∃ fe, abcd2af 2 3 (fun _ _ => (1 : ℚ)) 1 2 1 false = .ok fe :=
  ⟨(C50_refused 2 2 _ 1 1 2 false).2.1 two_ne_zero le_rfl,
    (C50_refused 2 3 _ 1 1 2 false).2.2.2.2 le_rfl (by norm_num) (by norm_num) (by norm_num)⟩

end Cbadc.SigmaDelta
