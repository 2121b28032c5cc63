import Mathlib.Data.List.Basic
import Mathlib.Tactic.Common
import Verif.Spec.SigmaDelta

/-! # Lemmas about the coefficient dictionary of imported sigma-delta modulators -/

namespace Cbadc.SigmaDelta
open Analog Control Signal

variable {K : Type*} [Field K] [LinearOrder K]

theorem lookup_foldl (n : Name) (v : K) (es : List (Name × K)) : ∀ d : Dict K,
    (∀ e ∈ es, e.1 = n → e.2 = v) → es.foldl put d n =
      if (∃ e ∈ es, e.1 = n) ∧ |v| > 1 / 10 ^ 8 then some ⟨some v, true⟩ else d n := by
  induction es with
  | nil => intro d _; simp
  | cons e es ih =>
    intro d h
    rw [List.foldl_cons, ih _ fun e he => h e (List.mem_cons_of_mem _ he)]
    by_cases h1 : (∃ e ∈ es, e.1 = n) ∧ |v| > 1 / 10 ^ 8
    · rw [if_pos h1, if_pos ⟨⟨_, List.mem_cons_of_mem _ h1.1.choose_spec.1, h1.1.choose_spec.2⟩, h1.2⟩]
    rw [if_neg h1]
    by_cases h2 : e.1 = n
    · have hv := h e List.mem_cons_self h2
      by_cases h3 : |v| > 1 / 10 ^ 8
      · rw [if_pos ⟨⟨e, List.mem_cons_self, h2⟩, h3⟩]
        unfold put
        rw [hv, if_pos h3, if_pos h2.symm]
      · rw [if_neg fun h => h3 h.2]
        unfold put
        rw [hv, if_neg h3]
    · have : put d e n = d n := by
        unfold put
        by_cases h3 : |e.2| > 1 / 10 ^ 8
        · rw [if_pos h3, if_neg fun h => h2 h.symm]
        · rw [if_neg h3]
      rw [this, if_neg]
      rintro ⟨⟨e', he', hn⟩, hv⟩
      rcases List.mem_cons.1 he' with rfl | he'
      · exact h2 hn
      · exact h1 ⟨⟨e', he', hn⟩, hv⟩

/-- the value stored for a coefficient with value `v` -/
def stored (v : K) : Option (Coeff K) := if |v| > 1 / 10 ^ 8 then some ⟨some v, true⟩ else none

omit [Field K] [LinearOrder K] in
theorem mem_entries (N : ℕ) (X : ℕ → ℕ → K) (e : Name × K) :
    e ∈ inputEntries N X ++ stateEntries N X ↔
      (∃ n ≤ N, e = (name1 'b' (n + 1), X n N)) ∨ (∃ n ≤ N, e = (name1 'a' (n + 1), X n (N + 1))) ∨
      (∃ n < N, e = (name1 'c' (n + 1), X (n + 1) n)) ∨
      (∃ m ≤ N, ∃ n < N, n + 1 < m ∧ e = (name2 'd' (n + 1) (m + 1), X m n)) ∨
      (∃ m ≤ N, ∃ n < N, m < n ∧ e = (name2 'e' (n + 1) (m + 1), X m n)) := by
  rw [List.mem_append]
  have h1 : e ∈ inputEntries N X ↔
      (∃ n ≤ N, e = (name1 'b' (n + 1), X n N)) ∨ (∃ n ≤ N, e = (name1 'a' (n + 1), X n (N + 1))) := by
    unfold inputEntries
    simp only [List.mem_flatMap, List.mem_range, List.mem_cons, List.not_mem_nil, or_false, Nat.lt_succ_iff]
    constructor
    · rintro ⟨n, hn, h | h⟩
      · exact .inl ⟨n, hn, h⟩
      · exact .inr ⟨n, hn, h⟩
    · rintro (⟨n, hn, h⟩ | ⟨n, hn, h⟩)
      · exact ⟨n, hn, .inl h⟩
      · exact ⟨n, hn, .inr h⟩
  have h2 : e ∈ stateEntries N X ↔ (∃ n < N, e = (name1 'c' (n + 1), X (n + 1) n)) ∨
      (∃ m ≤ N, ∃ n < N, n + 1 < m ∧ e = (name2 'd' (n + 1) (m + 1), X m n)) ∨
      (∃ m ≤ N, ∃ n < N, m < n ∧ e = (name2 'e' (n + 1) (m + 1), X m n)) := by
    unfold stateEntries
    simp only [List.mem_flatMap, List.mem_range, Nat.lt_succ_iff]
    constructor
    · rintro ⟨m, hm, n, hn, h⟩
      unfold stateEntry at h
      by_cases a : m = n + 1
      · rw [if_pos a, List.mem_singleton] at h
        subst a
        exact .inl ⟨n, hn, h⟩
      rw [if_neg a] at h
      by_cases b : m > n + 1
      · rw [if_pos b, List.mem_singleton] at h
        exact .inr (.inl ⟨m, hm, n, hn, b, h⟩)
      rw [if_neg b] at h
      by_cases c : m < n
      · rw [if_pos c, List.mem_singleton] at h
        exact .inr (.inr ⟨m, hm, n, hn, c, h⟩)
      rw [if_neg c] at h
      exact absurd h List.not_mem_nil
    · rintro (⟨n, hn, h⟩ | ⟨m, hm, n, hn, b, h⟩ | ⟨m, hm, n, hn, c, h⟩)
      · refine ⟨n + 1, hn, n, hn, ?_⟩
        unfold stateEntry
        rw [if_pos rfl, h]; exact List.mem_singleton_self _
      · refine ⟨m, hm, n, hn, ?_⟩
        unfold stateEntry
        rw [if_neg (by omega), if_pos b, h]; exact List.mem_singleton_self _
      · refine ⟨m, hm, n, hn, ?_⟩
        unfold stateEntry
        rw [if_neg (by omega), if_neg (by omega), if_pos c, h]; exact List.mem_singleton_self _
  rw [h1, h2]
  simp only [or_assoc]

theorem coeff_some (N : ℕ) (X : ℕ → ℕ → K) (n : Name) (v : K)
    (h : ∀ e ∈ inputEntries N X ++ stateEntries N X, e.1 = n → e.2 = v)
    (hx : (n, v) ∈ inputEntries N X ++ stateEntries N X) : coefficients N X n = stored v := by
  unfold coefficients stored
  rw [lookup_foldl n v _ _ h]
  by_cases a : |v| > 1 / 10 ^ 8
  · rw [if_pos ⟨⟨_, hx, rfl⟩, a⟩, if_pos a]
  · rw [if_neg fun h => a h.2, if_neg a]

theorem coeff_none (N : ℕ) (X : ℕ → ℕ → K) (n : Name)
    (h : ∀ e ∈ inputEntries N X ++ stateEntries N X, e.1 ≠ n) : coefficients N X n = none := by
  unfold coefficients
  rw [lookup_foldl n 0 _ _ fun e he hn => absurd hn (h e he)]
  rw [if_neg]
  rintro ⟨⟨e, he, hn⟩, -⟩
  exact h e he hn

theorem toDigits_inj {i j : ℕ} (h : Nat.toDigits 10 i = Nat.toDigits 10 j) : i = j := by
  have a := Nat.ofDigitChars_toDigits (b := 10) (n := i) (by omega) (by omega)
  have b := Nat.ofDigitChars_toDigits (b := 10) (n := j) (by omega) (by omega)
  rw [← a, ← b, h]

theorem name1_inj {c c' : Char} {i j : ℕ} : name1 c i = name1 c' j ↔ c = c' ∧ i = j := by
  unfold name1
  rw [List.cons.injEq]
  exact ⟨fun h => ⟨h.1, toDigits_inj h.2⟩, fun h => ⟨h.1, by rw [h.2]⟩⟩

theorem name12 {c c' : Char} {i j k : ℕ} (h : c ≠ c') : name1 c i ≠ name2 c' j k := by
  unfold name1 name2
  rw [Ne, List.cons.injEq]
  exact fun a => h a.1

/-- two-index names up to order ten are unambiguous -/
theorem digits_pair : ∀ (i : Fin 10) (j : Fin 11) (k : Fin 10) (l : Fin 11),
    Nat.toDigits 10 (i.1 + 1) ++ Nat.toDigits 10 (j.1 + 1) = Nat.toDigits 10 (k.1 + 1) ++ Nat.toDigits 10 (l.1 + 1) →
      i.1 = k.1 ∧ j.1 = l.1 := by
  decide +kernel

theorem name2_inj {N : ℕ} (hN : N ≤ 10) {c c' : Char} {i j k l : ℕ} (hi : i < N) (hj : j ≤ N) (hk : k < N) (hl : l ≤ N) :
    name2 c (i + 1) (j + 1) = name2 c' (k + 1) (l + 1) ↔ c = c' ∧ i = k ∧ j = l := by
  unfold name2
  rw [List.cons.injEq]
  constructor
  · rintro ⟨h1, h2⟩
    exact ⟨h1, digits_pair ⟨i, by omega⟩ ⟨j, by omega⟩ ⟨k, by omega⟩ ⟨l, by omega⟩ h2⟩
  · rintro ⟨rfl, rfl, rfl⟩
    exact ⟨rfl, rfl⟩

theorem coeff_b (N : ℕ) (X : ℕ → ℕ → K) (n : ℕ) (hn : n ≤ N) :
    coefficients N X (name1 'b' (n + 1)) = stored (X n N) := by
  apply coeff_some
  · intro e he h
    rcases (mem_entries N X e).1 he with ⟨k, -, rfl⟩ | ⟨k, -, rfl⟩ | ⟨k, -, rfl⟩ | ⟨k, -, l, -, -, rfl⟩ | ⟨k, -, l, -, -, rfl⟩
    · have := (name1_inj.1 h).2
      have : k = n := by omega
      rw [this]
    · exact absurd (name1_inj.1 h).1 (by decide)
    · exact absurd (name1_inj.1 h).1 (by decide)
    · exact absurd h.symm (name12 (by decide))
    · exact absurd h.symm (name12 (by decide))
  · exact (mem_entries N X _).2 (.inl ⟨n, hn, rfl⟩)

theorem coeff_a (N : ℕ) (X : ℕ → ℕ → K) (n : ℕ) (hn : n ≤ N) :
    coefficients N X (name1 'a' (n + 1)) = stored (X n (N + 1)) := by
  apply coeff_some
  · intro e he h
    rcases (mem_entries N X e).1 he with ⟨k, -, rfl⟩ | ⟨k, -, rfl⟩ | ⟨k, -, rfl⟩ | ⟨k, -, l, -, -, rfl⟩ | ⟨k, -, l, -, -, rfl⟩
    · exact absurd (name1_inj.1 h).1 (by decide)
    · have := (name1_inj.1 h).2
      have : k = n := by omega
      rw [this]
    · exact absurd (name1_inj.1 h).1 (by decide)
    · exact absurd h.symm (name12 (by decide))
    · exact absurd h.symm (name12 (by decide))
  · exact (mem_entries N X _).2 (.inr (.inl ⟨n, hn, rfl⟩))

theorem coeff_c (N : ℕ) (X : ℕ → ℕ → K) (n : ℕ) (hn : n < N) :
    coefficients N X (name1 'c' (n + 1)) = stored (X (n + 1) n) := by
  apply coeff_some
  · intro e he h
    rcases (mem_entries N X e).1 he with ⟨k, -, rfl⟩ | ⟨k, -, rfl⟩ | ⟨k, -, rfl⟩ | ⟨k, -, l, -, -, rfl⟩ | ⟨k, -, l, -, -, rfl⟩
    · exact absurd (name1_inj.1 h).1 (by decide)
    · exact absurd (name1_inj.1 h).1 (by decide)
    · have := (name1_inj.1 h).2
      have : k = n := by omega
      rw [this]
    · exact absurd h.symm (name12 (by decide))
    · exact absurd h.symm (name12 (by decide))
  · exact (mem_entries N X _).2 (.inr (.inr (.inl ⟨n, hn, rfl⟩)))

theorem coeff_c0 (N : ℕ) (X : ℕ → ℕ → K) : coefficients N X (name1 'c' 0) = none := by
  apply coeff_none
  intro e he h
  rcases (mem_entries N X e).1 he with ⟨k, -, rfl⟩ | ⟨k, -, rfl⟩ | ⟨k, -, rfl⟩ | ⟨k, -, l, -, -, rfl⟩ | ⟨k, -, l, -, -, rfl⟩
  · exact absurd (name1_inj.1 h).1 (by decide)
  · exact absurd (name1_inj.1 h).1 (by decide)
  · exact absurd (name1_inj.1 h).2 (by omega)
  · exact absurd h.symm (name12 (by decide))
  · exact absurd h.symm (name12 (by decide))

theorem coeff_d (N : ℕ) (hN : N ≤ 10) (X : ℕ → ℕ → K) (m n : ℕ) (hm : m ≤ N) (hn : n < N) :
    coefficients N X (name2 'd' (n + 1) (m + 1)) = if n + 1 < m then stored (X m n) else none := by
  by_cases h0 : n + 1 < m
  · rw [if_pos h0]
    apply coeff_some
    · intro e he h
      rcases (mem_entries N X e).1 he with ⟨k, -, rfl⟩ | ⟨k, -, rfl⟩ | ⟨k, -, rfl⟩ | ⟨k, hk, l, hl, -, rfl⟩ | ⟨k, hk, l, hl, -, rfl⟩
      · exact absurd h (name12 (by decide))
      · exact absurd h (name12 (by decide))
      · exact absurd h (name12 (by decide))
      · obtain ⟨-, rfl, rfl⟩ := (name2_inj hN hl hk hn hm).1 h
        rfl
      · exact absurd ((name2_inj hN hl hk hn hm).1 h).1 (by decide)
    · exact (mem_entries N X _).2 (.inr (.inr (.inr (.inl ⟨m, hm, n, hn, h0, rfl⟩))))
  · rw [if_neg h0]
    apply coeff_none
    intro e he h
    rcases (mem_entries N X e).1 he with ⟨k, -, rfl⟩ | ⟨k, -, rfl⟩ | ⟨k, -, rfl⟩ | ⟨k, hk, l, hl, h1, rfl⟩ | ⟨k, hk, l, hl, -, rfl⟩
    · exact absurd h (name12 (by decide))
    · exact absurd h (name12 (by decide))
    · exact absurd h (name12 (by decide))
    · obtain ⟨-, rfl, rfl⟩ := (name2_inj hN hl hk hn hm).1 h
      exact h0 h1
    · exact absurd ((name2_inj hN hl hk hn hm).1 h).1 (by decide)

theorem coeff_e (N : ℕ) (hN : N ≤ 10) (X : ℕ → ℕ → K) (m n : ℕ) (hm : m ≤ N) (hn : n < N) :
    coefficients N X (name2 'e' (n + 1) (m + 1)) = if m < n then stored (X m n) else none := by
  by_cases h0 : m < n
  · rw [if_pos h0]
    apply coeff_some
    · intro e he h
      rcases (mem_entries N X e).1 he with ⟨k, -, rfl⟩ | ⟨k, -, rfl⟩ | ⟨k, -, rfl⟩ | ⟨k, hk, l, hl, -, rfl⟩ | ⟨k, hk, l, hl, -, rfl⟩
      · exact absurd h (name12 (by decide))
      · exact absurd h (name12 (by decide))
      · exact absurd h (name12 (by decide))
      · exact absurd ((name2_inj hN hl hk hn hm).1 h).1 (by decide)
      · obtain ⟨-, rfl, rfl⟩ := (name2_inj hN hl hk hn hm).1 h
        rfl
    · exact (mem_entries N X _).2 (.inr (.inr (.inr (.inr ⟨m, hm, n, hn, h0, rfl⟩))))
  · rw [if_neg h0]
    apply coeff_none
    intro e he h
    rcases (mem_entries N X e).1 he with ⟨k, -, rfl⟩ | ⟨k, -, rfl⟩ | ⟨k, -, rfl⟩ | ⟨k, hk, l, hl, -, rfl⟩ | ⟨k, hk, l, hl, h1, rfl⟩
    · exact absurd h (name12 (by decide))
    · exact absurd h (name12 (by decide))
    · exact absurd h (name12 (by decide))
    · exact absurd ((name2_inj hN hl hk hn hm).1 h).1 (by decide)
    · obtain ⟨-, rfl, rfl⟩ := (name2_inj hN hl hk hn hm).1 h
      exact h0 h1

/-- a value after the removal of tiny ones -/
def cut (v : K) : K := if |v| > 1 / 10 ^ 8 then v else 0

theorem value_stored {d : Dict K} {n : Name} {v : K} (h : d n = stored v) (df : K) :
    coeffValue d n df = if |v| > 1 / 10 ^ 8 then v else df := by
  unfold coeffValue
  rw [h]
  unfold stored
  by_cases a : |v| > 1 / 10 ^ 8
  · rw [if_pos a, if_pos a]; rfl
  · rw [if_neg a, if_neg a]

omit [LinearOrder K] in
theorem value_none {d : Dict K} {n : Name} (h : d n = none) (df : K) : coeffValue d n df = df := by
  unfold coeffValue
  rw [h]

theorem has_stored {d : Dict K} {n : Name} {v : K} (h : d n = stored v) : has d n = decide (|v| > 1 / 10 ^ 8) := by
  unfold has stored at *
  rw [h]
  by_cases a : |v| > 1 / 10 ^ 8
  · rw [if_pos a, decide_eq_true a]; rfl
  · rw [if_neg a, decide_eq_false a]; rfl

omit [Field K] [LinearOrder K] in
theorem has_none {d : Dict K} {n : Name} (h : d n = none) : has d n = false := by
  unfold has
  rw [h]; rfl

/-- the imported state matrix up to order ten: everything off the diagonal -/
theorem matA_eq (N : ℕ) (hN : N ≤ 10) (X : ℕ → ℕ → K) (fs : K) (r c : ℕ) (hr : r < N) (hc : c < N) :
    matA N (coefficients N X) fs r c = if r = c then 0 else cut (X r c) * fs := by
  unfold matA
  have hd := coeff_d N hN X r c hr.le hc
  have he := coeff_e N hN X r c hr.le hc
  have hcc : has (coefficients N X) (name1 'c' r) ∧ c = (if r = 0 then N - 1 else r - 1) ↔
      r = c + 1 ∧ |X r c| > 1 / 10 ^ 8 := by
    rcases Nat.eq_zero_or_pos r with rfl | h
    · rw [has_none (coeff_c0 N X)]
      simp
    · obtain ⟨r, rfl⟩ := Nat.exists_eq_add_of_lt h
      rw [Nat.zero_add, has_stored (coeff_c N X r (by omega)), if_neg (by omega)]
      simp only [decide_eq_true_eq, Nat.add_sub_cancel]
      constructor
      · rintro ⟨h1, rfl⟩
        exact ⟨rfl, h1⟩
      · rintro ⟨h1, h2⟩
        have : c = r := by omega
        subst this
        exact ⟨h2, rfl⟩
  by_cases h1 : c + 1 < r
  · rw [if_pos h1] at hd
    rw [if_neg (by omega : ¬r < c)] at he
    rw [has_stored hd, value_stored hd, has_none he, if_neg (by omega : ¬r = c)]
    unfold cut
    by_cases a : |X r c| > 1 / 10 ^ 8
    · rw [if_pos (decide_eq_true a), if_pos a]
    · rw [if_neg (by simpa using a), if_neg (by simp), if_neg (fun h => a (hcc.1 h).2), if_neg a, zero_mul]
  · rw [if_neg h1] at hd
    rw [has_none hd, if_neg (by simp)]
    by_cases h2 : r < c
    · rw [if_pos h2] at he
      rw [has_stored he, value_stored he, if_neg (by omega : ¬r = c)]
      unfold cut
      by_cases a : |X r c| > 1 / 10 ^ 8
      · rw [if_pos (decide_eq_true a), if_pos a]
      · rw [if_neg (by simpa using a), if_neg (fun h => a (hcc.1 h).2), if_neg a, zero_mul]
    · rw [if_neg h2] at he
      rw [has_none he, if_neg (by simp)]
      by_cases h3 : r = c
      · rw [if_pos h3, if_neg (fun h => absurd (hcc.1 h).1 (by omega))]
      · obtain rfl : r = c + 1 := by omega
        rw [if_neg h3, value_stored (coeff_c N X c (by omega))]
        unfold cut
        by_cases a : |X (c + 1) c| > 1 / 10 ^ 8
        · rw [if_pos (hcc.2 ⟨rfl, a⟩), if_pos a]
        · rw [if_neg (fun h => a (hcc.1 h).2), if_neg a, zero_mul]

omit [LinearOrder K] in
theorem new_ok (N M : ℕ) (A B CT G GT Bt : ℕ → ℕ → K) :
    Sys.new (.mat N N A) (.mat N 1 B) (.mat N N CT) (some (.mat N M G)) (some (.mat M N GT)) none
      (some (.mat M 1 Bt)) none = .ok ⟨N, 1, M, M, N, A, B, CT, some G, some GT, fun _ _ => 0, Bt, fun _ _ => 0⟩ := by
  simp [Sys.new, checkGamma, checkGammaT, checkB, checkCT, checkOpt, Arr.shape0, Arr.shape1, Arr.entries,
    bind, Except.bind]

theorem mlnew_ok (T tt2 : K) (M q : ℕ) (hq : 0 < q) : ∃ ml : ML K M,
    ML.new T tt2 M (List.replicate M q) none [] = .ok ml ∧ ml.dc.T = T ∧ ∀ m, ml.n m = q := by
  unfold ML.new
  rw [if_neg (by simp), dif_pos (List.length_replicate ..)]
  have : ¬(List.replicate M q).any (· == 0) = true := by
    rw [List.any_eq_true]
    rintro ⟨x, hx, h⟩
    rw [List.eq_of_mem_replicate hx] at h
    simp only [beq_iff_eq] at h
    omega
  rw [if_neg this]
  unfold DC.new initIR initOffsets
  rw [if_neg (lt_irrefl 0)]
  refine ⟨_, rfl, rfl, fun m => ?_⟩
  simp

end Cbadc.SigmaDelta
