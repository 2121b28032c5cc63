import Verif.Lemmas.FIRExport

/-! # Reading back array literals -/

namespace Cbadc.Estimator.Export

open Cbadc.Spec.Export

/-- Brackets that differ from each other and from the separators. -/
structure Brackets (o c : Char) : Prop where
  oc : o ≠ c
  o1 : o ≠ ','
  c1 : c ≠ ','
  o2 : o ≠ ';'
  c2 : c ≠ ';'

/-- Characters without a meaning in array literals. -/
def Plain (o c ch : Char) : Prop := ch ≠ o ∧ ch ≠ c ∧ ch ≠ ',' ∧ ch ≠ ';'

/-- The position after a value followed by a comma or a closing bracket. -/
def sep (ch : Char) (st : List (List Lit)) : Pos := if ch = ',' then .want st else close st

/-- The text `t` is read as the value `v`, inside any bracket. -/
def Val (o c : Char) (t : List Char) (v : Lit) : Prop :=
  ∀ f st ch, ch = ',' ∨ ch = c →
    (t ++ [ch]).foldl (step o c) (.want (f :: st)) = sep ch ((v :: f) :: st)

theorem fold_tok {o c : Char} (cs acc : List Char) (st : List (List Lit)) (h : ∀ ch ∈ cs, Plain o c ch) :
    cs.foldl (step o c) (.tok acc st) = .tok (cs.reverse ++ acc) st := by
  induction cs generalizing acc with
  | nil => rfl
  | cons a cs ih =>
    obtain ⟨h1, h2, h3, h4⟩ := h a List.mem_cons_self
    rw [List.foldl_cons, step, if_neg h3, if_neg h2, if_neg (by tauto),
      ih _ (fun ch hc => h ch (List.mem_cons_of_mem _ hc))]
    simp

theorem val_num {o c : Char} {t : List Char} (ht : t ≠ [])
    (h : ∀ ch ∈ t, Plain o c ch) : Val o c t (.num t) := by
  intro f st ch hch
  cases t with
  | nil => exact absurd rfl ht
  | cons a cs =>
    obtain ⟨h1, h2, h3, h4⟩ := h a List.mem_cons_self
    have e : (a :: cs).foldl (step o c) (.want (f :: st)) = .tok (cs.reverse ++ [a]) (f :: st) := by
      rw [List.foldl_cons, step, if_neg h1, if_neg (by simp [h2, h3, h4]),
        fold_tok _ _ _ (fun ch hc => h ch (List.mem_cons_of_mem _ hc))]
    rw [List.foldl_append, e, List.foldl_cons, List.foldl_nil, step]
    simp only [List.reverse_append, List.reverse_reverse, push, List.reverse_cons, List.reverse_nil,
      List.nil_append, List.singleton_append]
    unfold sep
    by_cases hc : ch = ','
    · rw [if_pos hc, if_pos hc]
    · rw [if_neg hc, if_neg hc, if_pos (by tauto)]

theorem fold_items {o c : Char} (n : ℕ) (t : ℕ → List Char) (v : ℕ → Lit) (h : ∀ k < n, Val o c (t k) (v k))
    (f : List Lit) (st : List (List Lit)) :
    ((List.range n).flatMap fun k => t k ++ [',']).foldl (step o c) (.want (f :: st)) =
      .want ((((List.range n).map v).reverse ++ f) :: st) := by
  induction n with
  | zero => rfl
  | succ n ih =>
    rw [List.range_succ, List.flatMap_append, List.foldl_append, ih (fun k hk => h k (by omega)),
      List.flatMap_singleton, h n (by omega) _ _ _ (Or.inl rfl)]
    simp [sep]

/-- The text of a list of values. -/
def listText (o c : Char) (n : ℕ) (t : ℕ → List Char) : List Char :=
  [o] ++ ((List.range (n - 1)).flatMap (fun k => t k ++ [',']) ++ (t (n - 1) ++ [c]))

theorem fold_list {o c : Char} (hb : Brackets o c) {n : ℕ} (hn : 1 ≤ n) (t : ℕ → List Char) (v : ℕ → Lit)
    (h : ∀ k < n, Val o c (t k) (v k)) (st : List (List Lit)) :
    (listText o c n t).foldl (step o c) (.want st) = close (((List.range n).map v).reverse :: st) := by
  obtain ⟨m, rfl⟩ : ∃ m, n = m + 1 := ⟨n - 1, by omega⟩
  unfold listText
  rw [List.foldl_append, List.foldl_append, List.foldl_cons, step, if_pos rfl, List.foldl_nil,
    Nat.add_sub_cancel, fold_items m t v (fun k hk => h k (by omega)), h m (by omega) _ _ _ (Or.inr rfl)]
  unfold sep
  rw [if_neg hb.c1, List.range_succ]
  simp

theorem val_list {o c : Char} (hb : Brackets o c) {n : ℕ} (hn : 1 ≤ n) (t : ℕ → List Char) (v : ℕ → Lit)
    (h : ∀ k < n, Val o c (t k) (v k)) : Val o c (listText o c n t) (.arr ((List.range n).map v)) := by
  intro f st ch hch
  rw [List.foldl_append, fold_list hb hn t v h, List.foldl_cons, List.foldl_nil, close, step]
  unfold sep
  rw [List.reverse_reverse]
  by_cases hc : ch = ','
  · rw [if_pos hc, if_pos hc]
  · rw [if_neg hc, if_neg hc, if_pos (by tauto)]

theorem flatMap_comma (n : ℕ) (hn : 1 ≤ n) (t : ℕ → List Char) :
    (List.range n).flatMap (fun k => t k ++ if k < n - 1 then [','] else []) =
      (List.range (n - 1)).flatMap (fun k => t k ++ [',']) ++ t (n - 1) := by
  obtain ⟨m, rfl⟩ : ∃ m, n = m + 1 := ⟨n - 1, by omega⟩
  rw [Nat.add_sub_cancel, List.range_succ, List.flatMap_append, List.flatMap_singleton, if_neg (by omega),
    List.append_nil]
  congr 1
  apply List.flatMap_congr
  intro k hk
  rw [if_pos (List.mem_range.mp hk)]

theorem rowText_eq (o c : Char) (K3 : ℕ) (cell : ℕ → List Char) :
    rowText o c K3 cell = listText o c K3 cell := rfl

theorem matText_eq (o c : Char) {M : ℕ} (hM : 1 ≤ M) (K3 : ℕ) (cell : ℕ → ℕ → List Char) :
    matText o c M K3 cell = listText o c M fun m => rowText o c K3 fun k => cell k m := by
  unfold matText listText
  rw [flatMap_comma M hM]
  simp

theorem arrayText_eq (o c : Char) {L : ℕ} (hL : 1 ≤ L) (M K3 : ℕ) (cell : ℕ → ℕ → ℕ → List Char) :
    arrayText o c L M K3 cell = listText o c L (fun l => matText o c M K3 (cell l)) ++ [';'] := by
  unfold arrayText listText
  rw [flatMap_comma L hL]
  simp

theorem literal_array {o c : Char} (hb : Brackets o c) {L M K3 : ℕ} (hL : 1 ≤ L) (hM : 1 ≤ M)
    (hK : 1 ≤ K3) (cell : ℕ → ℕ → ℕ → List Char)
    (h : ∀ l k m, cell l k m ≠ [] ∧ ∀ ch ∈ cell l k m, Plain o c ch) :
    literal o c (arrayText o c L M K3 cell) = some (.arr ((List.range L).map fun l =>
      .arr ((List.range M).map fun m => .arr ((List.range K3).map fun k => .num (cell l k m))))) := by
  have h1 : ∀ l m, Val o c (rowText o c K3 fun k => cell l k m)
      (.arr ((List.range K3).map fun k => .num (cell l k m))) := fun l m =>
    val_list hb hK _ _ fun k _ => val_num (h l k m).1 (h l k m).2
  have h2 : ∀ l, Val o c (matText o c M K3 (cell l))
      (.arr ((List.range M).map fun m => .arr ((List.range K3).map fun k => .num (cell l k m)))) := by
    intro l
    rw [matText_eq o c hM]
    exact val_list hb hM _ _ fun m _ => h1 l m
  unfold literal
  rw [arrayText_eq o c hL, List.foldl_append, fold_list hb hL _ _ (fun l _ => h2 l), close,
    List.reverse_reverse, List.foldl_cons, List.foldl_nil, step, if_pos rfl]

theorem allOf_range {α β : Type} (f : α → Option β) (g : ℕ → α) (r : ℕ → β) (n : ℕ)
    (h : ∀ k, f (g k) = some (r k)) : allOf f ((List.range n).map g) = some ((List.range n).map r) := by
  induction List.range n with
  | nil => rfl
  | cons b bs ih => rw [List.map_cons, allOf, h b, ih]; rfl

theorem cube_array {α : Type} (rd : List Char → Option α) (cell : ℕ → ℕ → ℕ → List Char)
    (r : ℕ → ℕ → ℕ → α) (L M K3 : ℕ) (h : ∀ l k m, rd (cell l k m) = some (r l k m)) :
    cube rd (.arr ((List.range L).map fun l =>
      .arr ((List.range M).map fun m => .arr ((List.range K3).map fun k => .num (cell l k m))))) =
      some (nested L M K3 r) := by
  unfold cube nested
  rw [listOf]
  apply allOf_range
  intro l
  rw [listOf]
  apply allOf_range
  intro m
  rw [listOf]
  apply allOf_range
  intro k
  exact h l k m

/-! ### Characters of the literal -/

theorem arrayText_notMem {o c x : Char} {L M K3 : ℕ} {cell : ℕ → ℕ → ℕ → List Char}
    (h : ∀ l k m, x ∉ cell l k m) (ho : x ≠ o) (hc : x ≠ c) (h1 : x ≠ ',') (h2 : x ≠ ';') :
    x ∉ arrayText o c L M K3 cell := by
  have hr : ∀ l m, x ∉ rowText o c K3 fun k => cell l k m := by
    intro l m hx
    unfold rowText at hx
    simp only [List.mem_append, List.mem_singleton, List.mem_flatMap, ho, hc, h1, or_false, false_or] at hx
    rcases hx with ⟨k, -, hx⟩ | hx
    · exact h _ _ _ hx
    · exact h _ _ _ hx
  have hm : ∀ l, x ∉ matText o c M K3 (cell l) := by
    intro l hx
    unfold matText at hx
    simp only [List.mem_append, List.mem_singleton, List.mem_flatMap, ho, hc, or_false, false_or] at hx
    obtain ⟨m, -, hx | hx⟩ := hx
    · exact hr _ _ hx
    · split_ifs at hx <;> simp [h1] at hx
  intro hx
  unfold arrayText at hx
  simp only [List.mem_append, List.mem_flatMap, List.mem_cons, List.not_mem_nil, ho, hc, h2, or_false, false_or] at hx
  obtain ⟨l, -, hx | hx⟩ := hx
  · exact hm _ hx
  · split_ifs at hx <;> simp [h1] at hx

end Cbadc.Estimator.Export
