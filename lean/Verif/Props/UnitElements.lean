import Mathlib.Tactic.NormNum
import Verif.Lemmas.UnitElements
import Verif.Spec.UnitElements

/-! # Properties of the sets of control directions -/

namespace Cbadc.UnitElements

open UnitElements.Spec

variable {K : Type*} [Field K] [LinearOrder K] [IsStrictOrderedRing K] {N M : ℕ}

omit [IsStrictOrderedRing K] in
/-- the outcome in terms of the list of candidates -/
theorem outcome (N M : ℕ) (cs : List K) : (∃ e, unitElementSet N M cs = .error e ∧
      (collect (product cs N) [] = [] ∨ (collect (product cs N) []).length < M)) ∨
    ∃ c r picks rest, collect (product cs N) [] = c :: r ∧ M ≤ (c :: r).length ∧ unitElementSet N M cs = .ok (c :: picks) ∧
      picks.length = M - 1 ∧ (picks ++ rest).Perm r ∧ ∀ j (hj : j < picks.length), ∀ v ∈ r, v ∉ picks.take j →
        cost (c :: picks.take j) picks[j] ≤ cost (c :: picks.take j) v := by
  unfold unitElementSet
  rcases hc : collect (product cs N) [] with _ | ⟨c, r⟩
  · refine Or.inl ?_
    by_cases h : ([] : List (Fin N → K)).length < M
    · exact ⟨_, by simp only [if_pos h]; rfl, Or.inl rfl⟩
    · exact ⟨_, by simp only [if_neg h]; rfl, Or.inl rfl⟩
  · by_cases h : (c :: r).length < M
    · exact Or.inl ⟨_, by simp only [if_pos h]; rfl, Or.inr h⟩
    · obtain ⟨picks, rest, e, h1, h2, h3⟩ := choose_ok (M - 1) [c] r (by rw [List.length_cons] at h; omega)
      exact Or.inr ⟨c, r, picks, rest, rfl, not_lt.1 h, by simp only [if_neg h]; exact e, h1, h2, h3⟩

/-- **C106**: a set of `M ≥ 1` vectors of length `N` with entries from the candidates, none of them zero and no two of them
equal or opposite. -/
theorem C106_columns {cs : List K} {R : List (Fin N → K)} (h : unitElementSet N M cs = .ok R) (hM : 1 ≤ M) :
    R.length = M ∧ (∀ v ∈ R, v ≠ 0 ∧ ∀ i, v i ∈ cs) ∧ R.Pairwise fun v w => v ≠ w ∧ v ≠ -w := by
  rcases outcome N M cs with ⟨e, he, -⟩ | ⟨c, r, picks, rest, hc, hl, e, hlen, hperm, -⟩
  · rw [h] at he
    cases he
  rw [h] at e
  obtain rfl := Except.ok.inj e
  obtain ⟨h1, h2, h3, -⟩ := collect_spec (product cs N) [] List.Pairwise.nil (by simp)
  rw [hc] at h1 h2 h3
  have hmem : ∀ v ∈ c :: picks, v ∈ c :: r := fun v hv => by
    rcases List.mem_cons.1 hv with rfl | hv
    · exact List.mem_cons_self
    · exact List.mem_cons_of_mem _ (hperm.mem_iff.1 (List.mem_append_left _ hv))
  refine ⟨by rw [List.length_cons, hlen]; omega, fun v hv => ⟨h2 v (hmem v hv), ?_⟩, ?_⟩
  · exact mem_product.1 ((h3 v (hmem v hv)).resolve_left List.not_mem_nil)
  · have hp : (c :: picks ++ rest).Pairwise fun v w => v ≠ w ∧ v ≠ -w :=
      ((hperm.cons c).pairwise_iff fun {a b} h => ⟨h.1.symm, fun hba => h.2 (by rw [hba, neg_neg])⟩).2 h1
    exact (List.pairwise_append.1 hp).1

/-- the candidates `-α, α, 0`: all vectors are considered -/
theorem collect_default {a : K} (ha : a ≠ 0) : 2 * (collect (product [-a, a, 0] N) []).length = 3 ^ N - 1 ∧
    ∀ v : Fin N → K, (∀ i, v i = -a ∨ v i = a ∨ v i = 0) → v ≠ 0 →
      v ∈ collect (product [-a, a, 0] N) [] ∨ -v ∈ collect (product [-a, a, 0] N) [] := by
  obtain ⟨pre, hpre⟩ := product_last [-a, a] N
  rw [show [-a, a] ++ [0] = [-a, a, 0] from rfl] at hpre
  have hna : -a ≠ a := fun h => ha (by linarith)
  have hnd : (pre ++ [0]).Nodup := hpre ▸ nodup_product (by simp [hna, ha]) N
  have hmem : ∀ v : Fin N → K, v ∈ pre ↔ (∀ i, v i = -a ∨ v i = a ∨ v i = 0) ∧ v ≠ 0 := fun v => by
    have h1 : v ∈ pre ++ [0] ↔ ∀ i, v i = -a ∨ v i = a ∨ v i = 0 := by
      rw [← hpre, mem_product]
      simp only [List.mem_cons, List.not_mem_nil, or_false]
    rw [← h1, List.mem_append, List.mem_singleton]
    constructor
    · exact fun h => ⟨Or.inl h, fun h0 => (List.nodup_append.1 hnd).2.2 v h 0 (List.mem_singleton_self _) h0⟩
    · exact fun h => h.1.resolve_right h.2
  have h0 : ∀ v ∈ pre, v ≠ 0 := fun v hv => ((hmem v).1 hv).2
  have hneg : ∀ v ∈ pre, -v ∈ pre := fun v hv => by
    obtain ⟨h1, h2⟩ := (hmem v).1 hv
    refine (hmem _).2 ⟨fun i => ?_, neg_ne_zero.2 h2⟩
    rcases h1 i with h | h | h
    · exact Or.inr (Or.inl (by rw [Pi.neg_apply, h, neg_neg]))
    · exact Or.inl (by rw [Pi.neg_apply, h])
    · exact Or.inr (Or.inr (by rw [Pi.neg_apply, h, neg_zero]))
  rw [hpre, collect_stop, collect_length (List.nodup_append.1 hnd).1 h0 hneg]
  constructor
  · have := length_product [-a, a, 0] N
    rw [hpre, List.length_append] at this
    have e : [-a, a, 0].length = 3 := rfl
    rw [e, List.length_singleton] at this
    omega
  · intro v hv hv0
    have := collect_complete pre [] [] h0 v ((hmem v).2 ⟨hv, hv0⟩) List.Pairwise.nil (by simp)
    rwa [List.append_nil] at this

/-- **C106**: for the candidates `-α, α, 0` there is a result if and only if there are at least `M` vectors apart from zero
and up to the sign, of which there are `(3 ^ N - 1) / 2`; otherwise an exception is raised. -/
theorem C106_accepts {a : K} (ha : a ≠ 0) (hM : 1 ≤ M) :
    (2 * M ≤ 3 ^ N - 1 → ∃ R, unitElementSet N M [-a, a, 0] = .ok R) ∧
    (3 ^ N - 1 < 2 * M → unitElementSet N M [-a, a, 0] = .error .exception) := by
  have hc := (collect_default (N := N) ha).1
  constructor
  · intro h
    rcases outcome N M [-a, a, 0] with ⟨e, -, he | he⟩ | ⟨c, r, picks, rest, -, -, e, -⟩
    · rw [he, List.length_nil] at hc
      omega
    · omega
    · exact ⟨_, e⟩
  · intro h
    unfold unitElementSet
    exact if_pos (by omega)

/-- **C106**: the vectors are chosen one by one to be least correlated with those before: each column but the first one is,
among all vectors with entries `-α, α, 0` that are not zero and not a previous column up to the sign, one whose scalar
products with the previous columns are smallest relative to its length. -/
theorem C106_greedy {N M : ℕ} {a : ℝ} (ha : a ≠ 0) {R : List (Fin N → ℝ)} (h : unitElementSet N M [-a, a, 0] = .ok R) {j : ℕ}
    (hj : j < R.length) (hj0 : 0 < j) {v : Fin N → ℝ} (hv : ∀ i, v i = -a ∨ v i = a ∨ v i = 0) (hv0 : v ≠ 0)
    (hn : ∀ w ∈ R.take j, v ≠ w ∧ v ≠ -w) : correlation (R.take j) R[j] ≤ correlation (R.take j) v := by
  have key : ∀ (set : List (Fin N → ℝ)) (v : Fin N → ℝ), correlation set v = √(cost set v) := fun set v => by
    rw [correlation, cost, Real.sqrt_div]
    exact List.sum_nonneg fun x hx => by
      obtain ⟨w, -, rfl⟩ := List.mem_map.1 hx
      exact sq_nonneg _
  rw [key, key]
  refine Real.sqrt_le_sqrt ?_
  rcases outcome N M [-a, a, 0] with ⟨e, he, -⟩ | ⟨c, r, picks, rest, hc, hl, e, hlen, hperm, hmin⟩
  · rw [h] at he
    cases he
  rw [h] at e
  obtain rfl := Except.ok.inj e
  obtain ⟨j, rfl⟩ : ∃ i, j = i + 1 := ⟨j - 1, by omega⟩
  rw [List.take_succ_cons] at hn ⊢
  rw [List.getElem_cons_succ]
  have hjp : j < picks.length := by simpa using hj
  have hd := (collect_default (N := N) ha).2 v hv hv0
  rw [hc] at hd
  rcases hd with hd | hd
  · refine hmin j hjp v ((List.mem_cons.1 hd).resolve_left fun h => (hn c List.mem_cons_self).1 h) fun h => ?_
    exact (hn v (List.mem_cons_of_mem _ h)).1 rfl
  · rw [← cost_neg _ v]
    refine hmin j hjp (-v) ((List.mem_cons.1 hd).resolve_left fun h => (hn c List.mem_cons_self).2 (by rw [← h, neg_neg])) fun h => ?_
    exact (hn (-v) (List.mem_cons_of_mem _ h)).2 (neg_neg v).symm

/-- `C106_columns`: the hypotheses are met: four vectors of length two -/
example : ∃ R : List (Fin 2 → ℝ), unitElementSet 2 4 [-1, 1, 0] = .ok R :=
  (C106_accepts one_ne_zero (by norm_num)).1 (by norm_num)

/-- these are the vectors, here with rational entries -/
example : (unitElementSet 2 4 [-1, 1, (0 : ℚ)]).toOption.map (List.map fun v => (v 0, v 1)) =
    some [(-1, -1), (-1, 1), (-1, 0), (0, -1)] := by decide +kernel

/-- **C106**: the order of the candidates matters: with zero in front there is no result whatever the numbers `N` and `M`. -/
theorem C106_order_false (cs : List K) (R : List (Fin N → K)) : unitElementSet N M (0 :: cs) ≠ .ok R := by
  intro h
  obtain ⟨post, hp⟩ := product_first cs N
  have hc : collect (product (0 :: cs) N) [] = [] := by rw [hp, collect_cons, if_pos rfl]
  rcases outcome N M (0 :: cs) with ⟨e, he, -⟩ | ⟨c, r, picks, rest, hc', -⟩
  · rw [h] at he
    cases he
  · rw [hc] at hc'
    cases hc'

omit [IsStrictOrderedRing K] in
/-- **C106**: the empty set is never returned: for `M = 0` the result has one column. -/
theorem C106_empty_false {cs : List K} {R : List (Fin N → K)} (h : unitElementSet N 0 cs = .ok R) : R.length = 1 := by
  rcases outcome N 0 cs with ⟨e, he, -⟩ | ⟨c, r, picks, rest, -, -, e, hlen, -⟩
  · rw [h] at he
    cases he
  · rw [h] at e
    obtain rfl := Except.ok.inj e
    rw [List.length_cons, hlen]

/-- there is such a result -/
example : ∃ R : List (Fin 1 → ℚ), unitElementSet 1 0 [-1, 1, 0] = .ok R := by
  have hc := (collect_default (K := ℚ) (N := 1) one_ne_zero).1
  rcases outcome 1 0 [-1, 1, (0 : ℚ)] with ⟨_, _, h | h⟩ | ⟨_, _, _, _, _, _, e, _⟩
  · rw [h] at hc
    norm_num at hc
  · exact absurd h (Nat.not_lt_zero _)
  · exact ⟨_, e⟩

end Cbadc.UnitElements
