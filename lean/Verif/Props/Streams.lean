import Mathlib.Data.List.Basic
import Mathlib.Tactic.NormNum
import Verif.Model.Streams

/-! # C05, C06: generators and iterator helpers -/

namespace Cbadc.Streams

theorem rand_stateAfter {V : Type*} (limit : ℕ) (draw : ℕ → V) (k : ℕ) :
    stateAfter (randNext limit draw) randInit k =
      if k ≤ limit then ⟨k, false⟩ else ⟨limit, true⟩ := by
  induction k with
  | zero => simp [stateAfter, randInit]
  | succ k ih =>
    simp only [stateAfter, ih]
    by_cases h : k ≤ limit
    · rw [if_pos h]
      by_cases h2 : k < limit
      · rw [if_pos (by omega)]; simp [randNext, h2]
      · rw [if_neg (by omega)]; simp [randNext, h2]; omega
    · rw [if_neg h, if_neg (by omega)]; simp [randNext]

/-- **C05** `random_control_signal(M, n)`: the first `n` calls deliver the `n` drawn vectors, the next one
raises `RuntimeError`, and no later call returns a value. -/
theorem C05_random_control_signal {V : Type*} (limit : ℕ) (draw : ℕ → V) (k : ℕ) :
    call (randNext limit draw) randInit k =
      if k < limit then .ok (draw k)
      else if k = limit then .error .runtimeError else .error .stopIteration := by
  unfold call
  rw [rand_stateAfter]
  by_cases h : k < limit
  · rw [if_pos (by omega), if_pos h]; simp [randNext, h]
  · by_cases h2 : k = limit
    · subst h2; simp [randNext, pep479]
    · rw [if_neg (by omega), if_neg h, if_neg h2]; simp [randNext]

example : (List.range 5).map (call (randNext 3 fun k => k * k) randInit) =
    [.ok 0, .ok 1, .ok 4, .error .runtimeError, .error .stopIteration] := by decide

theorem show_stateAfter {V : Type*} (length : ℕ) (src : ℕ → Res V) (k : ℕ) (hk : k ≤ length)
    (hsrc : ∀ j < k, ∃ v, src j = .ok v) :
    stateAfter (showNext length src) showInit k = ⟨k, false⟩ := by
  induction k with
  | zero => rfl
  | succ k ih =>
    obtain ⟨v, hv⟩ := hsrc k (by omega)
    simp only [stateAfter, ih (by omega) (fun j hj => hsrc j (by omega))]
    simp [showNext, hv, show k < length by omega]

theorem showNext_finished {V : Type*} (length : ℕ) (src : ℕ → Res V) (st : ShowState)
    (h : st.finished = true) : showNext length src st = (.error .stopIteration, st) := by
  unfold showNext; rw [if_pos h]

theorem show_finished {V : Type*} (length : ℕ) (src : ℕ → Res V) (k d : ℕ)
    (h : (stateAfter (showNext length src) showInit k).finished = true) :
    (stateAfter (showNext length src) showInit (k + d)).finished = true ∧
    (stateAfter (showNext length src) showInit (k + d)).calls =
      (stateAfter (showNext length src) showInit k).calls := by
  induction d with
  | zero => exact ⟨h, rfl⟩
  | succ d ih =>
    rw [← add_assoc]
    simp only [stateAfter]
    rw [showNext_finished _ _ _ ih.1]
    exact ih

/-- **C05** `show_status(it, n)` passes the first `n` items of any iterator on unchanged (including an
exception raised by the iterator on the way). -/
theorem C05_show_status_passes {V : Type*} (length : ℕ) (src : ℕ → Res V) (k : ℕ) (hk : k < length)
    (hsrc : ∀ j < k, ∃ v, src j = .ok v) :
    call (showNext length src) showInit k = src k := by
  unfold call
  rw [show_stateAfter length src k hk.le hsrc]
  cases h : src k with
  | ok v => simp [showNext, h, hk]
  | error e => simp [showNext, h]

/-- **C05** `show_status(it, n)` never delivers more than `n` items: the call number `n` raises
`RuntimeError` when the iterator goes on and passes its exception on otherwise, and every later call raises
`StopIteration`; the iterator has been asked for exactly `n + 1` items. -/
theorem C05_show_status_ends {V : Type*} (length : ℕ) (src : ℕ → Res V)
    (hsrc : ∀ j < length, ∃ v, src j = .ok v) :
    (call (showNext length src) showInit length =
      match src length with
      | .ok _ => .error .runtimeError
      | .error e => .error e) ∧
    ∀ k, length < k →
      call (showNext length src) showInit k = .error .stopIteration ∧
      (stateAfter (showNext length src) showInit k).calls = length + 1 := by
  have h0 := show_stateAfter length src length le_rfl hsrc
  have h1 : stateAfter (showNext length src) showInit (length + 1) = ⟨length + 1, true⟩ := by
    simp only [stateAfter, h0]
    cases h : src length <;> simp [showNext, h]
  constructor
  · unfold call
    rw [h0]
    cases h : src length <;> simp [showNext, h, pep479]
  · intro k hk
    obtain ⟨d, rfl⟩ : ∃ d, k = length + 1 + d := ⟨k - (length + 1), by omega⟩
    have h2 := show_finished length src (length + 1) d (by rw [h1])
    refine ⟨?_, by rw [h2.2, h1]⟩
    unfold call
    rw [showNext_finished _ _ _ h2.1]

/-- `C05_show_status_passes` -/
example : (List.range 4).map (call (showNext 2 fun k => (.ok (k + 7) : Res ℕ)) showInit) =
    [.ok 7, .ok 8, .error .runtimeError, .error .stopIteration] := by decide

/-- rows produced by the fill loop -/
theorem fillRows_spec {K : Type*} (src : ℕ → Res (List K)) (L start n : ℕ) (rows : List (List K))
    (h : (fillRows src L start n).1 = .ok rows) :
    rows.length = n ∧ (fillRows src L start n).2 = n ∧
      ∀ k < n, ∃ item, src (start + k) = .ok item ∧ ∃ row, rows[k]? = some row ∧
        (row = item ∧ item.length = L ∨ ∃ v, item = [v] ∧ row = List.replicate L v) := by
  induction n generalizing start rows with
  | zero => simp [fillRows] at h; subst h; simp [fillRows]
  | succ n ih =>
    simp only [fillRows] at h ⊢
    cases hs : src start with
    | error e => simp [hs] at h
    | ok item =>
      rw [hs] at h
      simp only at h ⊢
      cases ha : assignRow L item with
      | error e => simp [ha] at h
      | ok row =>
        rw [ha] at h
        simp only at h ⊢
        cases hr : (fillRows src L (start + 1) n).1 with
        | error e => simp [hr] at h
        | ok rs =>
          rw [hr] at h
          simp only [Except.ok.injEq] at h
          subst h
          obtain ⟨h1, h2, h3⟩ := ih (start + 1) rs hr
          refine ⟨by simp [h1], by simp [h2], ?_⟩
          intro k hk
          rcases k with _ | k
          · refine ⟨item, by simpa using hs, row, rfl, ?_⟩
            unfold assignRow at ha
            split_ifs at ha with hl
            · simp only [Except.ok.injEq] at ha
              exact Or.inl ⟨ha.symm, hl⟩
            · rcases item with _ | ⟨v, _ | ⟨w, t⟩⟩
              · simp at ha
              · simp only [Except.ok.injEq] at ha
                exact Or.inr ⟨v, rfl, ha.symm⟩
              · simp at ha
          · obtain ⟨it, h4, row', h5, h6⟩ := h3 k (by omega)
            refine ⟨it, ?_, row', by simpa using h5, h6⟩
            rw [show start + (k + 1) = start + 1 + k by omega]; exact h4

/-- **C06** `iterator_to_numpy_array` returns the first `size` items as rows, in order, having consumed
exactly `size` items; items are stored unchanged (a one-entry item fills its row). -/
theorem C06_rows (K : Type*) (src : ℕ → Res (List K)) (size L : ℤ) (rows : List (List K))
    (h : (iteratorToArray src size L).1 = .ok rows) :
    1 ≤ size ∧ 1 ≤ L ∧ (rows.length : ℤ) = size ∧ ((iteratorToArray src size L).2 : ℤ) = size ∧
      ∀ k : ℕ, (k : ℤ) < size → ∃ item, src k = .ok item ∧ ∃ row, rows[k]? = some row ∧
        (row = item ∧ (item.length : ℤ) = L ∨ ∃ v, item = [v] ∧ row = List.replicate L.toNat v) := by
  unfold iteratorToArray at h ⊢
  split_ifs at h ⊢ with hc
  obtain ⟨h1, h2, h3⟩ := fillRows_spec src L.toNat 0 size.toNat rows h
  refine ⟨by omega, by omega, by omega, by rw [h2]; omega, ?_⟩
  intro k hk
  obtain ⟨item, h4, row, h5, h6⟩ := h3 k (by omega)
  refine ⟨item, by simpa using h4, row, h5, ?_⟩
  rcases h6 with ⟨h7, h8⟩ | h6
  · exact Or.inl ⟨h7, by omega⟩
  · exact Or.inr h6

example : (iteratorToArray (fun k => .ok [k, k + 1]) 3 2) = (.ok [[0, 1], [1, 2], [2, 3]], 3) := by
  decide

/-- **C06** an iterator that ends too early makes the call fail with the iterator's exception, never return
a shorter array. -/
theorem C06_early_end (K : Type*) (src : ℕ → Res (List K)) (size L : ℤ) (hs : 1 ≤ size) (hL : 1 ≤ L)
    (k : ℕ) (hk : (k : ℤ) < size) (e : Exc) (he : src k = .error e)
    (hok : ∀ j < k, ∃ item, src j = .ok item ∧ (item.length : ℤ) = L) :
    (iteratorToArray src size L) = (.error e, k + 1) := by
  unfold iteratorToArray
  rw [if_neg (by omega)]
  have key : ∀ (n start d : ℕ), d < n → start + d = k →
      fillRows src L.toNat start n = (.error e, d + 1) := by
    intro n
    induction n with
    | zero => intro start d hd; omega
    | succ n ih =>
      intro start d hd hsd
      rcases d with _ | d
      · have : start = k := by omega
        subst this
        simp [fillRows, he]
      · obtain ⟨item, h1, h2⟩ := hok start (by omega)
        have ha : assignRow L.toNat item = .ok item := by
          unfold assignRow; rw [if_pos (by omega)]
        simp [fillRows, h1, ha, ih (start + 1) d (by omega) (by omega)]
  exact key size.toNat 0 k (by omega) (by omega)

example : iteratorToArray (fun k => if k < 2 then .ok [k] else .error .stopIteration) 3 1 =
    (.error .stopIteration, 3) := by decide

/-- **C06** the size checks. -/
theorem C06_rejects (K : Type*) (src : ℕ → Res (List K)) (size L : ℤ) :
    (iteratorToArray src size L) = (.error .exception, 0) ↔ (size < 1 ∨ L < 1) := by
  constructor
  · intro h
    by_contra hc
    unfold iteratorToArray at h
    rw [if_neg hc] at h
    obtain ⟨n, hn⟩ : ∃ n, size.toNat = n + 1 := ⟨size.toNat - 1, by omega⟩
    rw [hn] at h
    have h2 := congrArg Prod.snd h
    simp only [fillRows] at h2
    cases hs : src 0 with
    | error e => simp [hs] at h2
    | ok item =>
      rw [hs] at h2
      simp only at h2
      cases ha : assignRow L.toNat item <;> simp [ha] at h2
  · intro h; unfold iteratorToArray; rw [if_pos h]

end Cbadc.Streams
