import Mathlib.Algebra.Order.BigOperators.Group.List
import Mathlib.Data.List.Nodup
import Mathlib.Data.List.Perm.Basic
import Mathlib.Tactic.Ring
import Mathlib.Tactic.Linarith
import Mathlib.Tactic.TypeStar
import Verif.Model.UnitElements

/-! # Lemmas about the sets of control directions -/

namespace Cbadc.UnitElements

variable {K : Type*} [Field K] [LinearOrder K] [IsStrictOrderedRing K] {N : ℕ}

theorem l1_eq_zero {v : Fin N → K} : l1 v = 0 ↔ v = 0 := by
  rw [l1, Finset.sum_eq_zero_iff_of_nonneg fun i _ => abs_nonneg _]
  simp only [Finset.mem_univ, true_implies, abs_eq_zero, funext_iff, Pi.zero_apply]

/-- the loop in terms of vectors -/
theorem collect_cons (v : Fin N → K) (r acc : List (Fin N → K)) :
    collect (v :: r) acc = if v = 0 then acc else if ∃ w ∈ acc, w = v ∨ w = -v then collect r acc else collect r (acc ++ [v]) := by
  have e : ((acc.any fun w => decide (l1 (w - v) = 0 ∨ l1 (w + v) = 0)) = true) ↔ ∃ w ∈ acc, w = v ∨ w = -v := by
    simp only [List.any_eq_true, decide_eq_true_eq, l1_eq_zero, sub_eq_zero, add_eq_zero_iff_eq_neg]
  rw [collect]
  simp only [e]
  simp only [l1_eq_zero]

/-- the vectors of the list are not zero, come from the given ones and are pairwise neither equal nor opposite -/
theorem collect_spec (items acc : List (Fin N → K)) (hp : acc.Pairwise fun v w => v ≠ w ∧ v ≠ -w) (h0 : ∀ v ∈ acc, v ≠ 0) :
    (collect items acc).Pairwise (fun v w => v ≠ w ∧ v ≠ -w) ∧ (∀ v ∈ collect items acc, v ≠ 0) ∧
      (∀ v ∈ collect items acc, v ∈ acc ∨ v ∈ items) ∧ ∀ v ∈ acc, v ∈ collect items acc := by
  induction items generalizing acc with
  | nil => exact ⟨hp, h0, fun v h => Or.inl h, fun v h => h⟩
  | cons v r ih =>
    rw [collect_cons]
    by_cases hv : v = 0
    · rw [if_pos hv]
      exact ⟨hp, h0, fun v h => Or.inl h, fun v h => h⟩
    rw [if_neg hv]
    by_cases hd : ∃ w ∈ acc, w = v ∨ w = -v
    · rw [if_pos hd]
      obtain ⟨h1, h2, h3, h4⟩ := ih acc hp h0
      exact ⟨h1, h2, fun w hw => (h3 w hw).imp_right (List.mem_cons_of_mem _), h4⟩
    · rw [if_neg hd]
      obtain ⟨h1, h2, h3, h4⟩ := ih (acc ++ [v])
        (List.pairwise_append.2 ⟨hp, List.pairwise_singleton _ _, fun a ha b hb => by
          obtain rfl := List.mem_singleton.1 hb
          exact ⟨fun h => hd ⟨a, ha, Or.inl h⟩, fun h => hd ⟨a, ha, Or.inr h⟩⟩⟩)
        (fun w hw => (List.mem_append.1 hw).elim (h0 w) fun h => by rwa [List.mem_singleton.1 h])
      refine ⟨h1, h2, fun w hw => ?_, fun w hw => h4 w (List.mem_append_left _ hw)⟩
      rcases h3 w hw with h | h
      · rcases List.mem_append.1 h with h | h
        · exact Or.inl h
        · exact Or.inr (by rw [List.mem_singleton.1 h]; exact List.mem_cons_self)
      · exact Or.inr (List.mem_cons_of_mem _ h)

/-- vectors before the first zero vector are represented up to the sign -/
theorem collect_complete (pre post acc : List (Fin N → K)) (h0 : ∀ v ∈ pre, v ≠ 0) (v : Fin N → K) (hv : v ∈ pre)
    (hp : acc.Pairwise fun v w => v ≠ w ∧ v ≠ -w) (ha : ∀ v ∈ acc, v ≠ 0) :
    v ∈ collect (pre ++ post) acc ∨ -v ∈ collect (pre ++ post) acc := by
  induction pre generalizing acc with
  | nil => exact absurd hv List.not_mem_nil
  | cons w r ih =>
    rw [List.cons_append, collect_cons, if_neg (h0 w List.mem_cons_self)]
    have hr : ∀ v ∈ r, v ≠ 0 := fun v h => h0 v (List.mem_cons_of_mem _ h)
    by_cases hd : ∃ z ∈ acc, z = w ∨ z = -w
    · rw [if_pos hd]
      rcases List.mem_cons.1 hv with rfl | hv
      · obtain ⟨z, hz, rfl | rfl⟩ := hd
        · exact Or.inl ((collect_spec _ acc hp ha).2.2.2 _ hz)
        · exact Or.inr ((collect_spec _ acc hp ha).2.2.2 _ hz)
      · exact ih acc hr hv hp ha
    · rw [if_neg hd]
      have hp' : (acc ++ [w]).Pairwise fun v w => v ≠ w ∧ v ≠ -w :=
        List.pairwise_append.2 ⟨hp, List.pairwise_singleton _ _, fun a ha b hb => by
          obtain rfl := List.mem_singleton.1 hb
          exact ⟨fun h => hd ⟨a, ha, Or.inl h⟩, fun h => hd ⟨a, ha, Or.inr h⟩⟩⟩
      have ha' : ∀ v ∈ acc ++ [w], v ≠ 0 := fun z hz =>
        (List.mem_append.1 hz).elim (ha z) fun h => by rw [List.mem_singleton.1 h]; exact h0 w List.mem_cons_self
      rcases List.mem_cons.1 hv with rfl | hv
      · exact Or.inl ((collect_spec _ _ hp' ha').2.2.2 _ (List.mem_append_right _ (List.mem_singleton_self _)))
      · exact ih _ hr hv hp' ha'

theorem collect_stop (pre post acc : List (Fin N → K)) : collect (pre ++ 0 :: post) acc = collect pre acc := by
  induction pre generalizing acc with
  | nil => rw [List.nil_append, collect_cons, if_pos rfl, collect]
  | cons v r ih => rw [List.cons_append, collect_cons, collect_cons, ih, ih]

/-- the vectors of a list without zero that is closed under change of sign are twice as many as those kept -/
theorem collect_length {l : List (Fin N → K)} (hn : l.Nodup) (h0 : ∀ v ∈ l, v ≠ 0) (hneg : ∀ v ∈ l, -v ∈ l) :
    2 * (collect l []).length = l.length := by
  obtain ⟨h1, h2, h3, -⟩ := collect_spec l [] List.Pairwise.nil (by simp)
  have hc : ∀ v ∈ l, v ∈ collect l [] ∨ -v ∈ collect l [] := fun v hv => by
    have := collect_complete l [] [] h0 v hv List.Pairwise.nil (by simp)
    rwa [List.append_nil] at this
  have hmem : ∀ v ∈ collect l [], v ∈ l := fun v hv => (h3 v hv).resolve_left List.not_mem_nil
  have hnd : (collect l []).Nodup := h1.imp fun h => h.1
  have hopp : ∀ v ∈ collect l [], -v ∉ collect l [] := fun v hv hv' => by
    have hne : v ≠ -v := fun h => h2 v hv (by
      funext i
      have := congrFun h i
      rw [Pi.neg_apply] at this
      show v i = 0
      linarith)
    have : Std.Symm fun v w : Fin N → K => v ≠ w ∧ v ≠ -w :=
      ⟨fun a b h => ⟨h.1.symm, fun hba => h.2 (by rw [hba, neg_neg])⟩⟩
    exact (h1.forall hv hv' hne).2 (neg_neg v).symm
  have hperm : (collect l [] ++ (collect l []).map fun v => -v).Perm l := by
    refine (List.perm_ext_iff_of_nodup ?_ hn).2 fun v => ⟨fun hv => ?_, fun hv => ?_⟩
    · refine List.nodup_append.2 ⟨hnd, hnd.map neg_injective, fun a ha b hb hab => ?_⟩
      obtain ⟨w, hw, rfl⟩ := List.mem_map.1 hb
      exact hopp w hw (hab ▸ ha)
    · rcases List.mem_append.1 hv with h | h
      · exact hmem v h
      · obtain ⟨w, hw, rfl⟩ := List.mem_map.1 h
        exact hneg w (hmem w hw)
    · rcases hc v hv with h | h
      · exact List.mem_append_left _ h
      · exact List.mem_append_right _ (List.mem_map.2 ⟨-v, h, neg_neg v⟩)
  rw [← hperm.length_eq, List.length_append, List.length_map]
  ring

omit [IsStrictOrderedRing K] [LinearOrder K] [Field K] in
theorem mem_product {cs : List K} {n : ℕ} {v : Fin n → K} : v ∈ product cs n ↔ ∀ i, v i ∈ cs := by
  induction n with
  | zero => exact ⟨fun _ i => i.elim0, fun _ => by rw [product]; exact List.mem_singleton.2 (funext fun i => i.elim0)⟩
  | succ n ih =>
    rw [product, List.mem_flatMap]
    constructor
    · rintro ⟨c, hc, hv⟩
      obtain ⟨w, hw, rfl⟩ := List.mem_map.1 hv
      exact Fin.cases hc (ih.1 hw)
    · intro h
      exact ⟨v 0, h 0, List.mem_map.2 ⟨fun i => v i.succ, ih.2 fun i => h _, Fin.cons_self_tail v⟩⟩

omit [IsStrictOrderedRing K] [LinearOrder K] [Field K] in
theorem length_product (cs : List K) (n : ℕ) : (product cs n).length = cs.length ^ n := by
  induction n with
  | zero => rfl
  | succ n ih =>
    rw [product, List.length_flatMap]
    simp only [List.length_map, ih, List.map_const', List.sum_replicate, smul_eq_mul]
    rw [pow_succ, mul_comm]

omit [IsStrictOrderedRing K] [LinearOrder K] [Field K] in
theorem nodup_product {cs : List K} (h : cs.Nodup) (n : ℕ) : (product cs n).Nodup := by
  induction n with
  | zero => exact List.nodup_singleton _
  | succ n ih =>
    rw [product, List.nodup_flatMap]
    refine ⟨fun c _ => ih.map fun a b hab => ?_, h.imp fun {a b} hab v ha hb => ?_⟩
    · exact (Fin.cons_injective2 hab).2
    · obtain ⟨w, _, rfl⟩ := List.mem_map.1 ha
      obtain ⟨w', _, h'⟩ := List.mem_map.1 hb
      exact hab (Fin.cons_injective2 h').1.symm

omit [IsStrictOrderedRing K] [LinearOrder K] in
/-- when zero is the last of the candidates the zero vector is the last of the vectors -/
theorem product_last (cs : List K) (n : ℕ) : ∃ pre, product (cs ++ [0]) n = pre ++ [0] := by
  induction n with
  | zero => exact ⟨[], by rw [product, List.nil_append]; exact congrArg (· :: []) (funext fun i => i.elim0)⟩
  | succ n ih =>
    obtain ⟨pre, hpre⟩ := ih
    refine ⟨(cs.flatMap fun c => (product (cs ++ [0]) n).map fun v => Fin.cons c v) ++ pre.map (fun v => Fin.cons 0 v), ?_⟩
    rw [product, List.flatMap_append, List.append_assoc]
    congr 1
    rw [List.flatMap_cons, List.flatMap_nil, List.append_nil, hpre, List.map_append, List.map_cons, List.map_nil]
    congr 2
    exact funext fun i => Fin.cases rfl (fun _ => rfl) i

omit [IsStrictOrderedRing K] [LinearOrder K] in
/-- when zero is the first of the candidates the zero vector is the first of the vectors -/
theorem product_first (cs : List K) (n : ℕ) : ∃ post, product (0 :: cs) n = 0 :: post := by
  induction n with
  | zero => exact ⟨[], by rw [product]; exact congrArg (· :: []) (funext fun i => i.elim0)⟩
  | succ n ih =>
    obtain ⟨post, hpost⟩ := ih
    refine ⟨post.map (fun v => Fin.cons 0 v) ++ cs.flatMap fun c => (product (0 :: cs) n).map fun v => Fin.cons c v, ?_⟩
    rw [product, List.flatMap_cons, hpost, List.map_cons, List.cons_append]
    congr 1
    exact funext fun i => Fin.cases rfl (fun _ => rfl) i

omit [IsStrictOrderedRing K] [Field K] in
theorem pickMin_none {α : Type*} {f : α → K} {l : List α} : pickMin f l = none ↔ l = [] := by
  cases l with
  | nil => simp [pickMin]
  | cons a r =>
    rw [pickMin]
    rcases pickMin f r with _ | ⟨b, r'⟩
    · simp
    · by_cases h : f b < f a <;> simp [h]

omit [IsStrictOrderedRing K] [Field K] in
theorem pickMin_some {α : Type*} {f : α → K} {l : List α} {b : α} {r : List α} (h : pickMin f l = some (b, r)) :
    l.Perm (b :: r) ∧ ∀ a ∈ l, f b ≤ f a := by
  induction l generalizing b r with
  | nil => simp [pickMin] at h
  | cons a t ih =>
    rw [pickMin] at h
    rcases hp : pickMin f t with _ | ⟨c, t'⟩
    · rw [hp] at h
      obtain rfl := pickMin_none.1 hp
      simp only [Option.some.injEq, Prod.mk.injEq] at h
      obtain ⟨rfl, rfl⟩ := h
      exact ⟨List.Perm.refl _, fun a ha => by rw [List.mem_singleton.1 ha]⟩
    · rw [hp] at h
      obtain ⟨h1, h2⟩ := ih hp
      by_cases hlt : f c < f a
      · simp only [if_pos hlt, Option.some.injEq, Prod.mk.injEq] at h
        obtain ⟨rfl, rfl⟩ := h
        refine ⟨(h1.cons a).trans (List.Perm.swap _ _ _), fun z hz => ?_⟩
        rcases List.mem_cons.1 hz with rfl | hz
        · exact hlt.le
        · exact h2 z hz
      · simp only [if_neg hlt, Option.some.injEq, Prod.mk.injEq] at h
        obtain ⟨rfl, rfl⟩ := h
        refine ⟨List.Perm.refl _, fun z hz => ?_⟩
        rcases List.mem_cons.1 hz with rfl | hz
        · exact le_rfl
        · exact (not_lt.1 hlt).trans (h2 z hz)

omit [IsStrictOrderedRing K] in
/-- the loop succeeds as long as there are candidates, and keeps the columns -/
theorem choose_ok (n : ℕ) (set cands : List (Fin N → K)) (h : n ≤ cands.length) : ∃ picks rest,
    choose n set cands = .ok (set ++ picks) ∧ picks.length = n ∧ (picks ++ rest).Perm cands ∧
    ∀ j (hj : j < picks.length), ∀ v ∈ cands, v ∉ picks.take j →
      cost (set ++ picks.take j) picks[j] ≤ cost (set ++ picks.take j) v := by
  induction n generalizing set cands with
  | zero => exact ⟨[], cands, by rw [choose, List.append_nil], rfl, List.Perm.refl _, fun j hj => absurd hj (Nat.not_lt_zero _)⟩
  | succ n ih =>
    rcases hp : pickMin (cost set) cands with _ | ⟨b, r⟩
    · rw [pickMin_none.1 hp] at h
      exact absurd h (Nat.not_succ_le_zero _)
    · obtain ⟨h1, h2⟩ := pickMin_some hp
      have hl : n ≤ r.length := by
        have := h1.length_eq
        rw [List.length_cons] at this
        omega
      obtain ⟨picks, rest, e, hlen, hperm, hmin⟩ := ih (set ++ [b]) r hl
      refine ⟨b :: picks, rest, ?_, by rw [List.length_cons, hlen], (hperm.cons b).trans h1.symm, fun j hj v hv hvj => ?_⟩
      · rw [choose, hp]
        show choose n (set ++ [b]) r = _
        rw [e, List.append_assoc, List.singleton_append]
      · rcases j with _ | j
        · rw [List.take_zero, List.append_nil]
          exact h2 v hv
        · rw [List.take_succ_cons] at hvj ⊢
          have hvr : v ∈ r := (List.mem_cons.1 (h1.mem_iff.1 hv)).resolve_left fun h => hvj (h ▸ List.mem_cons_self)
          have := hmin j (by simpa using hj) v hvr fun h => hvj (List.mem_cons_of_mem _ h)
          rwa [List.append_assoc, List.singleton_append] at this

omit [LinearOrder K] [IsStrictOrderedRing K] in
theorem cost_neg (set : List (Fin N → K)) (v : Fin N → K) : cost set (-v) = cost set v := by
  have e : ∀ w : Fin N → K, (∑ i, (-v) i * w i) ^ 2 = (∑ i, v i * w i) ^ 2 := fun w => by
    simp only [Pi.neg_apply, neg_mul, Finset.sum_neg_distrib, neg_sq]
  simp only [cost, e]
  simp only [Pi.neg_apply, neg_sq]

end Cbadc.UnitElements
