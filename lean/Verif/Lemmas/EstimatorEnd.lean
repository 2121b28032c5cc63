import Verif.Lemmas.EstimatorBatch

/-! Helper lemmas about iteration limits and the end of the control stream. -/

namespace Cbadc.Estimator
open Matrix Cbadc.Spec Cbadc.Streams

variable {K : Type*} [CommRing K] {N M L : ℕ}

/-- `FIRFilter` counts `downsample` iterations per call, whatever happens in the call. -/
theorem fir_iteration (f : FIR K M L) (src : ℕ → Res (Fin M → K)) (st : FIRState K M) :
    (f.next src st).2.iteration = st.iteration + f.ds := by
  unfold FIR.next
  simp only
  split_ifs
  · rfl
  · split <;> rfl
  · split <;> rfl

theorem fir_iteration_after (f : FIR K M L) (src : ℕ → Res (Fin M → K)) (st : FIRState K M) (n : ℕ) :
    (stateAfter (f.next src) st n).iteration = st.iteration + f.ds * n := by
  induction n with
  | zero => simp [stateAfter]
  | succ n ih =>
    simp only [stateAfter]
    rw [fir_iteration, ih]; ring

theorem fir_limit_stop (f : FIR K M L) (src : ℕ → Res (Fin M → K)) (st : FIRState K M)
    (h0 : f.limit ≠ 0) (h : f.limit < st.iteration + f.ds) : (f.next src st).1 = .error .stopIteration := by
  unfold FIR.next
  simp only
  rw [if_pos ⟨h0, h⟩]

theorem fir_pull_stop (f : FIR K M L) (src : ℕ → Res (Fin M → K)) (st : FIRState K M) (k : ℕ)
    (hp : firPull src st.calls f.ds = (.error .runtimeError, k)) :
    (f.next src st).1 = .error .stopIteration := by
  unfold FIR.next
  simp only
  by_cases h : f.limit ≠ 0 ∧ f.limit < st.iteration + f.ds
  · rw [if_pos h]
  · rw [if_neg h, hp]

theorem firPull_ok_inv (src : ℕ → Res (Fin M → K)) (start n : ℕ) (rows : ℕ → Fin M → K) (k : ℕ)
    (h : firPull src start n = (.ok rows, k)) : k = n ∧ ∀ j < n, ∃ s, src (start + j) = .ok s := by
  induction n generalizing rows k with
  | zero => simp [firPull] at h; exact ⟨h.2.symm, fun j hj => by omega⟩
  | succ n ih =>
    simp only [firPull] at h
    rcases hp : firPull src start n with ⟨_ | r, k'⟩
    · rw [hp] at h; simp at h
    · rw [hp] at h
      obtain ⟨h1, h2⟩ := ih _ _ hp
      rcases hs : src (start + n) with _ | s
      · rw [hs] at h; simp at h
      · rw [hs] at h
        simp at h
        refine ⟨by omega, ?_⟩
        intro j hj
        by_cases hjn : j = n
        · subst hjn; exact ⟨s, hs⟩
        · exact h2 j (by omega)

theorem fir_ok_inv (f : FIR K M L) (src : ℕ → Res (Fin M → K)) (st : FIRState K M) (v : Fin L → K)
    (h : (f.next src st).1 = .ok v) :
    (f.next src st).2.calls = st.calls + f.ds ∧ ∀ j < f.ds, ∃ s, src (st.calls + j) = .ok s := by
  unfold FIR.next at h ⊢
  simp only at h ⊢
  by_cases h1 : f.limit ≠ 0 ∧ f.limit < st.iteration + f.ds
  · rw [if_pos h1] at h; simp at h
  rw [if_neg h1] at h ⊢
  rcases hp : firPull src st.calls f.ds with ⟨e | r, k'⟩
  · rw [hp] at h
    cases e <;> simp at h
  · rw [hp] at h
    obtain ⟨h2, h3⟩ := firPull_ok_inv _ _ _ _ _ hp
    by_cases h4 : f.K1 + f.K2 < f.ds
    · simp only at h; rw [if_pos h4] at h; simp at h
    · simp only
      rw [if_neg h4]
      exact ⟨by simp only; rw [h2], h3⟩

theorem fir_all_ok (f : FIR K M L) (src : ℕ → Res (Fin M → K)) (st : FIRState K M) (n : ℕ)
    (h : ∀ m < n, ∃ v, call (f.next src) st m = .ok v) :
    (stateAfter (f.next src) st n).calls = st.calls + f.ds * n ∧
      ∀ j < f.ds * n, ∃ s, src (st.calls + j) = .ok s := by
  induction n with
  | zero => exact ⟨by simp [stateAfter], fun j hj => by omega⟩
  | succ n ih =>
    have hmul : f.ds * (n + 1) = f.ds * n + f.ds := by ring
    obtain ⟨h1, h2⟩ := ih (fun m hm => h m (by omega))
    obtain ⟨v, hv⟩ := h n (by omega)
    obtain ⟨h3, h4⟩ := fir_ok_inv f src _ v hv
    rw [h1] at h3 h4
    refine ⟨by simp only [stateAfter]; rw [h3]; omega, ?_⟩
    intro j hj
    by_cases hjn : j < f.ds * n
    · exact h2 j hjn
    · obtain ⟨s, hs⟩ := h4 (j - f.ds * n) (by omega)
      exact ⟨s, by rw [← hs]; congr 1; omega⟩

/-! IIR -/

theorem iir_pass_none (f : IIR K N M L) (src : ℕ → Res (Fin M → K)) (st st' : IIRState K N M)
    (o : Option (Fin L → K)) (h : f.pass src st = (.ok o, st')) :
    (∃ s, src st.calls = .ok s) ∧ st'.calls = st.calls + 1 ∧ st'.iteration = st.iteration + 1 ∧
      (o.isSome ↔ st.iteration % f.ds = 0) := by
  unfold IIR.pass at h
  simp only at h
  by_cases h1 : f.limit ≠ 0 ∧ f.limit < st.iteration + 1
  · rw [if_pos h1] at h; simp at h
  rw [if_neg h1] at h
  rcases hs : src st.calls with e | s
  · rw [hs] at h
    cases e <;> simp at h
  rw [hs] at h
  simp only at h
  by_cases h2 : f.K2 = 0
  · rw [if_pos h2] at h; simp at h
  rw [if_neg h2] at h
  by_cases h3 : f.ds = 0
  · rw [if_pos h3] at h; simp at h
  rw [if_neg h3] at h
  by_cases h4 : (st.iteration + 1 - 1) % f.ds = 0
  · rw [if_pos h4] at h
    simp only [Prod.mk.injEq, Except.ok.injEq] at h
    obtain ⟨rfl, rfl⟩ := h
    exact ⟨⟨s, rfl⟩, rfl, rfl, by simpa using h4⟩
  · rw [if_neg h4] at h
    simp only [Prod.mk.injEq, Except.ok.injEq] at h
    obtain ⟨rfl, rfl⟩ := h
    exact ⟨⟨s, rfl⟩, rfl, rfl, by simpa using h4⟩

theorem iir_nextFuel_inv (f : IIR K N M L) (src : ℕ → Res (Fin M → K)) (fuel : ℕ) :
    ∀ (st st' : IIRState K N M) (v : Fin L → K), st.iteration = st.calls →
      f.nextFuel src fuel st = (.ok v, st') →
      ∃ q, st.calls ≤ q ∧ st'.calls = q + 1 ∧ st'.iteration = q + 1 ∧ q % f.ds = 0 ∧
        (∀ j, st.calls ≤ j → j < q → j % f.ds ≠ 0) ∧ (∀ j, st.calls ≤ j → j ≤ q → ∃ s, src j = .ok s) := by
  induction fuel with
  | zero => intro st st' v _ h; simp [IIR.nextFuel] at h
  | succ fuel ih =>
    intro st st' v hI h
    simp only [IIR.nextFuel] at h
    rcases hp : f.pass src st with ⟨e | o, st1⟩
    · rw [hp] at h; simp at h
    rw [hp] at h
    obtain ⟨⟨s, hs⟩, h2, h3, h4⟩ := iir_pass_none f src st st1 o hp
    cases o with
    | some w =>
      simp only [Prod.mk.injEq, Except.ok.injEq] at h
      obtain ⟨rfl, rfl⟩ := h
      refine ⟨st.calls, le_rfl, h2, by rw [h3, hI], ?_, fun j h5 h6 => by omega, ?_⟩
      · rw [← hI]; exact h4.mp rfl
      · intro j h5 h6
        obtain rfl : j = st.calls := by omega
        exact ⟨s, hs⟩
    | none =>
      simp only at h
      obtain ⟨q, h5, h6, h7, h8, h9, h10⟩ := ih st1 st' v (by rw [h2, h3, hI]) h
      refine ⟨q, by omega, h6, h7, h8, ?_, ?_⟩
      · intro j h11 h12
        by_cases hj : j = st.calls
        · intro h13
          rw [hj, ← hI] at h13
          have := h4.mpr h13
          simp at this
        · exact h9 j (by omega) h12
      · intro j h11 h12
        by_cases hj : j = st.calls
        · exact ⟨s, by rw [hj, hs]⟩
        · exact h10 j (by omega) h12

theorem iir_all_ok (f : IIR K N M L) (hds : f.ds ≠ 0) (src : ℕ → Res (Fin M → K)) (n : ℕ)
    (h : ∀ m < n, ∃ v, call (f.next src) IIRState.init m = .ok v) :
    (stateAfter (f.next src) IIRState.init n).calls = iirPasses f.ds n ∧
    (stateAfter (f.next src) IIRState.init n).iteration = iirPasses f.ds n ∧
      ∀ j < iirPasses f.ds n, ∃ s, src j = .ok s := by
  induction n with
  | zero => exact ⟨rfl, rfl, fun j hj => by simp [iirPasses] at hj⟩
  | succ n ih =>
    obtain ⟨h1, h1', h2⟩ := ih (fun m hm => h m (by omega))
    obtain ⟨v, hv⟩ := h n (by omega)
    unfold call at hv
    obtain ⟨q, h3, h4, h5, h6, h7, h8⟩ := iir_nextFuel_inv f src (f.ds + 1)
      (stateAfter (f.next src) IIRState.init n) (f.next src (stateAfter (f.next src) IIRState.init n)).2 v
      (by rw [h1, h1']) (Prod.ext hv rfl)
    rw [h1] at h3 h7 h8
    have hq : q = f.ds * n := by
      obtain ⟨t, ht⟩ := Nat.dvd_of_mod_eq_zero h6
      have hle : iirPasses f.ds n ≤ f.ds * n := by
        cases n with
        | zero => simp [iirPasses]
        | succ n => simp only [iirPasses]; have : f.ds * (n + 1) = f.ds * n + f.ds := by ring
                    omega
      by_contra hne
      rcases Nat.lt_or_gt_of_ne hne with hlt | hgt
      · -- q < ds * n although q ≥ ds * (n - 1) + 1
        cases n with
        | zero => simp at hlt
        | succ n =>
          simp only [iirPasses] at h3
          rw [ht] at hlt h3
          have h9 : t < n + 1 := Nat.lt_of_mul_lt_mul_left hlt
          have h10 : f.ds * t ≤ f.ds * n := Nat.mul_le_mul_left _ (by omega)
          omega
      · exact h7 (f.ds * n) hle hgt (by simp)
    subst hq
    simp only [stateAfter, iirPasses]
    refine ⟨h4, h5, ?_⟩
    intro j hj
    by_cases hjn : j < iirPasses f.ds n
    · exact h2 j hjn
    · exact h8 j (by omega) (by omega)

/-- With `downsample = 1` every call of `IIRFilter` counts one iteration, whatever happens in the call. -/
theorem iir_iteration (f : IIR K N M L) (hds : f.ds = 1) (src : ℕ → Res (Fin M → K)) (st : IIRState K N M) :
    (f.next src st).2.iteration = st.iteration + 1 := by
  have hp : (f.pass src st).2.iteration = st.iteration + 1 ∧ ∀ st', f.pass src st ≠ (.ok none, st') := by
    unfold IIR.pass
    simp only [hds, Nat.mod_one]
    split_ifs
    · exact ⟨rfl, by simp⟩
    · split <;> exact ⟨rfl, by simp⟩
    · rename_i h1 h2 h3; exact absurd h3 (by norm_num)
    · split <;> exact ⟨rfl, by simp⟩
  unfold IIR.next
  rw [hds]
  simp only [IIR.nextFuel]
  obtain ⟨h1, h2⟩ := hp
  rcases h : f.pass src st with ⟨e | _ | v, st'⟩
  · rw [h] at h1; simpa using h1
  · exact absurd h (h2 st')
  · rw [h] at h1; simpa using h1

theorem iir_iteration_after (f : IIR K N M L) (hds : f.ds = 1) (src : ℕ → Res (Fin M → K))
    (st : IIRState K N M) (n : ℕ) :
    (stateAfter (f.next src) st n).iteration = st.iteration + n := by
  induction n with
  | zero => simp [stateAfter]
  | succ n ih =>
    simp only [stateAfter]
    rw [iir_iteration f hds, ih]; ring

theorem iir_limit_stop (f : IIR K N M L) (src : ℕ → Res (Fin M → K)) (st : IIRState K N M)
    (h0 : f.limit ≠ 0) (h : f.limit < st.iteration + 1) : (f.next src st).1 = .error .stopIteration := by
  unfold IIR.next
  simp only [IIR.nextFuel]
  have : f.pass src st = (.error .stopIteration, { st with iteration := st.iteration + 1 }) := by
    unfold IIR.pass
    simp only
    rw [if_pos ⟨h0, h⟩]
  rw [this]

/-! Batch -/

theorem batch_limit_stop (f : Batch K N M L) (src : ℕ → Res (Fin M → K)) (s : ℕ → Fin M → K)
    (n : ℕ) (st : BatchState K N M L) (hK : 0 < f.K1) (hI : BatchAt f s n st)
    (hlim : f.limit < n + n / f.K1 + 1)
    (hs : ∀ j < n / f.K1 * f.K1 + (f.K1 + f.K2), src j = .ok (s j)) :
    (f.next src st).1 = .error .stopIteration := by
  have hdm := Nat.div_add_mod n f.K1
  have hexp : n / f.K1 * (f.K1 + 1) = f.K1 * (n / f.K1) + n / f.K1 := by ring
  rcases hI with ⟨h0, h1, h2, h3, h4⟩ | ⟨h0, h1⟩
  · by_cases hl : f.limit < st.iteration
    · simp only [Batch.next, Batch.nextFuel]
      rw [if_pos hl]
    · have hin : st.inBuffer < f.K1 + f.K2 := by
        rw [h1.inBuffer]; split_ifs <;> omega
      obtain ⟨cs, hc1, hc2⟩ := batch_fill_ok f src s (n / f.K1 * f.K1) (f.K1 + f.K2 - st.inBuffer - 1)
        (f.K1 + f.K2 + 1) { st with iteration := st.iteration + 1 } (by omega) (by simp only; omega)
        h1.calls h1.cs hs
      obtain ⟨st3, g1, g2, g3, g4, g5, g6⟩ := batch_compute_ok f s (n / f.K1)
        { st with iteration := st.iteration + 1, cs := cs, inBuffer := f.K1 + f.K2,
                  calls := n / f.K1 * f.K1 + (f.K1 + f.K2) } hK rfl hc1 rfl h1.mean0 h1.meanK1
      simp only [Batch.next, Batch.nextFuel]
      rw [if_neg hl, if_neg (by omega), h3]
      simp only [Bool.false_eq_true, if_false]
      simp only [h3] at hc2
      rw [hc2]
      simp only
      simp only [h3] at g1
      rw [g1]
      simp only
      rw [if_pos (by rw [g6]; simp only; omega)]
  · simp only [Batch.next, Batch.nextFuel]
    rw [if_pos (by rw [h1.iteration]; omega)]

/-- the pass that meets the end of the stream -/
theorem iir_pass_end (f : IIR K N M L) (src : ℕ → Res (Fin M → K)) (st : IIRState K N M)
    (h : src st.calls = .error .runtimeError) : (f.pass src st).1 = .error .stopIteration := by
  unfold IIR.pass
  simp only [h]
  split_ifs <;> rfl

theorem iir_nextFuel_end (f : IIR K N M L) (hh : f.h = (iirLookahead f.c f.K2).1)
    (src : ℕ → Res (Fin M → K)) (s : ℕ → Fin M → K) (hK : f.K2 ≠ 0) (hds : f.ds ≠ 0) (d : ℕ) :
    ∀ (fuel p : ℕ) (st : IIRState K N M), d < fuel → (f.limit = 0 ∨ p + d ≤ f.limit) →
      (∀ j < p + d, src j = .ok (s j)) → src (p + d) = .error .runtimeError → IIRInv f s p st →
      (∀ j < d, (p + j) % f.ds ≠ 0) →
      (f.nextFuel src fuel st).1 = .error .stopIteration := by
  induction d with
  | zero =>
    intro fuel p st hf hlim hs hr hI _
    obtain ⟨fuel, rfl⟩ : ∃ k, fuel = k + 1 := ⟨fuel - 1, by omega⟩
    have h := iir_pass_end f src st (by rw [hI.calls]; exact hr)
    simp only [IIR.nextFuel]
    rcases hp : f.pass src st with ⟨e | o, st1⟩
    · rw [hp] at h; simp only at h; cases h; rfl
    · rw [hp] at h; cases h
  | succ d ih =>
    intro fuel p st hf hlim hs hr hI hd
    obtain ⟨fuel, rfl⟩ : ∃ k, fuel = k + 1 := ⟨fuel - 1, by omega⟩
    obtain ⟨st', h1, h2⟩ := iir_pass_ok f hh src s st p hK hds (by omega) (hs p (by omega)) hI
    rw [if_neg (by simpa using hd 0 (by omega))] at h1
    simp only [IIR.nextFuel, h1]
    exact ih fuel (p + 1) st' (by omega) (by omega) (fun j hj => hs j (by omega))
      (by rw [← hr]; congr 1; omega) h2 (fun j hj => by
        have := hd (j + 1) (by omega)
        rwa [show p + 1 + j = p + (j + 1) by omega])

theorem iir_end (f : IIR K N M L) (hh : f.h = (iirLookahead f.c f.K2).1)
    (src : ℕ → Res (Fin M → K)) (s : ℕ → Fin M → K) (hK : f.K2 ≠ 0) (hds : f.ds ≠ 0) (n r : ℕ)
    (hlim : f.limit = 0 ∨ r ≤ f.limit) (hs : ∀ j < r, src j = .ok (s j)) (hr : src r = .error .runtimeError)
    (h1 : iirPasses f.ds n ≤ r) (h2 : r ≤ f.ds * n) :
    call (f.next src) IIRState.init n = .error .stopIteration := by
  have hI := iir_stateAfter f hh src s hK hds n (by omega) (fun j hj => hs j (by omega))
  unfold call IIR.next
  refine iir_nextFuel_end f hh src s hK hds (r - iirPasses f.ds n) (f.ds + 1) (iirPasses f.ds n) _ ?_ (by omega)
    (fun j hj => hs j (by omega)) (by rw [← hr]; congr 1; omega) hI ?_
  · cases n with
    | zero => simp only [iirPasses] at h1 ⊢; omega
    | succ n =>
      simp only [iirPasses]
      have : f.ds * (n + 1) = f.ds * n + f.ds := by ring
      omega
  · intro j hj
    cases n with
    | zero => simp only [iirPasses] at hj; omega
    | succ n =>
      simp only [iirPasses] at hj ⊢
      have : f.ds * (n + 1) = f.ds * n + f.ds := by ring
      rw [show f.ds * n + 1 + j = (1 + j) + f.ds * n by omega, Nat.add_mul_mod_self_left, Nat.mod_eq_of_lt (by omega)]
      omega

/-! ### The batch in which the stream ends -/

/-- filling the buffer across the end of the stream, which is padded with zero vectors -/
theorem batch_fill_pad (f : Batch K N M L) (src : ℕ → Res (Fin M → K)) (s : ℕ → Fin M → K) (r o d : ℕ)
    (hs : ∀ j < r, src j = .ok (s j))
    (hr : ∀ j, r ≤ j → j < o + (f.K1 + f.K2) → src j = .error .runtimeError ∧ s j = 0) :
    ∀ (fuel : ℕ) (st : BatchState K N M L), d < fuel → st.inBuffer + (d + 1) = f.K1 + f.K2 →
      st.calls = o + st.inBuffer → st.calls ≤ r ∨ st.stop = true → r < o + (f.K1 + f.K2) →
      (∀ k < st.inBuffer, st.cs k = Spec.ext s ((o + k : ℕ))) →
      ∃ cs, (∀ k < f.K1 + f.K2, cs k = Spec.ext s ((o + k : ℕ))) ∧
        f.fill src fuel st = (.ok (),
          { st with cs := cs, inBuffer := f.K1 + f.K2, calls := o + (f.K1 + f.K2), stop := true }) := by
  induction d with
  | zero =>
    intro fuel st hf hb hc hstop hro hcs
    obtain ⟨fuel, rfl⟩ : ∃ k, fuel = k + 1 := ⟨fuel - 1, by omega⟩
    refine ⟨Function.update st.cs st.inBuffer (valued (s (o + st.inBuffer))), ?_, ?_⟩
    · intro k hk
      rw [Function.update_apply]
      by_cases h : k = st.inBuffer
      · rw [if_pos h, ext_of_nonneg, h]
      · rw [if_neg h, hcs k (by omega)]
    · have e : o + st.inBuffer + 1 = o + (f.K1 + f.K2) := by omega
      have e' : st.inBuffer + 1 = f.K1 + f.K2 := by omega
      have hne : ¬ st.inBuffer = f.K1 + f.K2 := by omega
      obtain ⟨h1, h2⟩ := hr (o + st.inBuffer) (by omega) (by omega)
      simp only [Batch.fill, hc, h1, Batch.input, if_neg hne]
      rw [if_pos (by simp; omega), h2]
      simp only [e, e']
  | succ d ih =>
    intro fuel st hf hb hc hstop hro hcs
    obtain ⟨fuel, rfl⟩ : ∃ k, fuel = k + 1 := ⟨fuel - 1, by omega⟩
    have hne : ¬ st.inBuffer = f.K1 + f.K2 := by omega
    have hupd : ∀ k < st.inBuffer + 1,
        Function.update st.cs st.inBuffer (valued (s (o + st.inBuffer))) k = Spec.ext s ((o + k : ℕ)) := by
      intro k hk
      rw [Function.update_apply]
      by_cases h : k = st.inBuffer
      · rw [if_pos h, ext_of_nonneg, h]
      · rw [if_neg h, hcs k (by omega)]
    by_cases hlt : o + st.inBuffer < r
    · obtain ⟨cs, h1, h2⟩ := ih fuel
        { st with cs := Function.update st.cs st.inBuffer (valued (s (o + st.inBuffer))),
                  inBuffer := st.inBuffer + 1, calls := o + st.inBuffer + 1 }
        (by omega) (by simp only; omega) (by simp only; omega) (Or.inl (by simp only; omega)) hro hupd
      refine ⟨cs, h1, ?_⟩
      simp only [Batch.fill, hc, hs _ hlt, Batch.input, if_neg hne]
      rw [if_neg (by simp; omega)]
      exact h2
    · obtain ⟨g1, g2⟩ := hr (o + st.inBuffer) (by omega) (by omega)
      obtain ⟨cs, h1, h2⟩ := ih fuel
        { st with cs := Function.update st.cs st.inBuffer (valued (s (o + st.inBuffer))),
                  inBuffer := st.inBuffer + 1, calls := o + st.inBuffer + 1, stop := true }
        (by omega) (by simp only; omega) (by simp only; omega) (Or.inr rfl) hro hupd
      refine ⟨cs, h1, ?_⟩
      simp only [Batch.fill, hc, g1, Batch.input, if_neg hne]
      rw [if_neg (by simp; omega)]
      rw [g2] at h2
      exact h2

/-- state while the last batch is being handed out -/
structure BatchEnd (f : Batch K N M L) (s : ℕ → Fin M → K) (b p : ℕ) (st : BatchState K N M L) : Prop where
  est : ∀ q < f.K1, st.estimate q = batchOut f s b q
  pointer : st.pointer = p
  stop : st.stop = true
  iteration : st.iteration = b * (f.K1 + 1) + 1 + p

theorem batchEnd_deliver (f : Batch K N M L) (src : ℕ → Res (Fin M → K)) (s : ℕ → Fin M → K)
    (b p fuel : ℕ) (st : BatchState K N M L) (hp : p < f.K1) (hI : BatchEnd f s b p st)
    (hlim : b * (f.K1 + 1) + 1 + p ≤ f.limit) :
    ∃ st', f.nextFuel src (fuel + 1) st = (.ok (batchOut f s b p), st') ∧ BatchEnd f s b (p + 1) st' := by
  refine ⟨{ st with iteration := st.iteration + 1, pointer := st.pointer + 1 }, ?_, ?_⟩
  · simp only [Batch.nextFuel]
    rw [if_neg (by rw [hI.iteration]; omega), if_pos (by rw [hI.pointer]; exact hp), hI.pointer, hI.est p hp]
  · refine ⟨hI.est, ?_, hI.stop, ?_⟩
    · simp only; rw [hI.pointer]
    · simp only; rw [hI.iteration]; omega

theorem batchEnd_first (f : Batch K N M L) (src : ℕ → Res (Fin M → K)) (s : ℕ → Fin M → K)
    (b r : ℕ) (st : BatchState K N M L) (hK : 0 < f.K1) (hI : BatchInv f s b st)
    (hpt : st.pointer = f.K1) (hstop : st.stop = false) (hit : st.iteration = b * (f.K1 + 1))
    (hlim : b * (f.K1 + 1) + 1 ≤ f.limit)
    (hs : ∀ j < r, src j = .ok (s j))
    (hr : ∀ j, r ≤ j → j < b * f.K1 + (f.K1 + f.K2) → src j = .error .runtimeError ∧ s j = 0)
    (h1 : st.calls ≤ r) (h2 : r < b * f.K1 + (f.K1 + f.K2)) :
    ∃ st', f.next src st = (.ok (batchOut f s b 0), st') ∧ BatchEnd f s b 1 st' := by
  have hin : st.inBuffer < f.K1 + f.K2 := by
    rw [hI.inBuffer]; split_ifs <;> omega
  obtain ⟨cs, hc1, hc2⟩ := batch_fill_pad f src s r (b * f.K1) (f.K1 + f.K2 - st.inBuffer - 1) hs hr
    (f.K1 + f.K2 + 1) { st with iteration := st.iteration + 1 } (by omega) (by simp only; omega)
    hI.calls (Or.inl h1) h2 hI.cs
  obtain ⟨st3, g1, g2, g3, g4, g5, g6⟩ := batch_compute_ok f s b
    { st with iteration := st.iteration + 1, cs := cs, inBuffer := f.K1 + f.K2,
              calls := b * f.K1 + (f.K1 + f.K2), stop := true } hK rfl hc1 rfl hI.mean0 hI.meanK1
  have hO : BatchEnd f s b 0 { st3 with pointer := st3.pointer - f.K1 } := by
    refine ⟨g3, ?_, ?_, ?_⟩
    · simp only; rw [g4]; simp only; omega
    · simp only; rw [g5]
    · simp only; rw [g6]; simp only; omega
  obtain ⟨st', h7, h8⟩ := batchEnd_deliver f src s b 0 0 _ hK hO (by omega)
  refine ⟨st', ?_, h8⟩
  simp only [Batch.next, Batch.nextFuel]
  rw [if_neg (by omega), if_neg (by omega), hstop]
  simp only [Bool.false_eq_true, if_false]
  simp only [hstop] at hc2
  rw [hc2]
  simp only
  rw [g1]
  simpa only [Batch.nextFuel] using h7

/-- after the last batch every call raises `StopIteration` -/
theorem batchEnd_stop (f : Batch K N M L) (src : ℕ → Res (Fin M → K)) (st : BatchState K N M L)
    (hp : st.pointer = f.K1) (hs : st.stop = true) :
    (f.next src st).1 = .error .stopIteration ∧ (f.next src st).2.pointer = f.K1 ∧
      (f.next src st).2.stop = true := by
  simp only [Batch.next, Batch.nextFuel]
  split_ifs with h1 h2
  · exact ⟨rfl, hp, hs⟩
  · rw [hp] at h2; exact absurd h2 (lt_irrefl _)
  · exact ⟨rfl, hp, hs⟩

/-- the states after the call that starts the last batch -/
theorem batchEnd_stateAfter (f : Batch K N M L) (src : ℕ → Res (Fin M → K)) (s : ℕ → Fin M → K)
    (b r : ℕ) (hK : 0 < f.K1) (hlim : (b + 1) * (f.K1 + 1) ≤ f.limit)
    (hs : ∀ j < r, src j = .ok (s j))
    (hr : ∀ j, r ≤ j → j < b * f.K1 + (f.K1 + f.K2) → src j = .error .runtimeError ∧ s j = 0)
    (h1 : b = 0 ∨ b * f.K1 + f.K2 ≤ r) (h2 : r < b * f.K1 + (f.K1 + f.K2)) :
    (∀ p < f.K1, call (f.next src) f.init (b * f.K1 + p) = .ok (batchOut f s b p) ∧
      BatchEnd f s b (p + 1) (stateAfter (f.next src) f.init (b * f.K1 + p + 1))) := by
  have hexp : (b + 1) * (f.K1 + 1) = b * (f.K1 + 1) + (f.K1 + 1) := by ring
  have hb0 : ∀ m < b * f.K1, m / f.K1 + 1 ≤ b := by
    intro m hm
    have := (Nat.div_lt_iff_lt_mul hK).2 hm
    omega
  have hAt := batch_stateAfter f src s hK (b * f.K1)
    (fun m hm => by
      have := hb0 m hm
      have e : b * (f.K1 + 1) = b * f.K1 + b := by ring
      omega)
    (fun m hm j hj => hs j (by
      have h := Nat.mul_le_mul_right f.K1 (hb0 m hm)
      have e : (m / f.K1 + 1) * f.K1 = m / f.K1 * f.K1 + f.K1 := by ring
      have hb : b ≠ 0 := by rintro rfl; simp at hm
      omega))
  intro p
  induction p with
  | zero =>
    intro _
    rcases hAt with ⟨-, g2, g3, g4, g5⟩ | ⟨g1, -⟩
    · rw [Nat.mul_div_cancel _ hK] at g2 g5
      obtain ⟨st', k1, k2⟩ := batchEnd_first f src s b r _ hK g2 g3 g4 g5 (by omega) hs hr
        (by
          rw [g2.calls, g2.inBuffer]
          split_ifs with hb
          · subst hb; omega
          · omega) h2
      rw [Nat.add_zero]
      refine ⟨by simp only [call, k1], ?_⟩
      simp only [stateAfter, k1]
      exact k2
    · simp at g1
  | succ p ih =>
    intro hp
    obtain ⟨-, g⟩ := ih (by omega)
    obtain ⟨st', k1, k2⟩ := batchEnd_deliver f src s b (p + 1) 1 _ (by omega) g (by omega)
    have k1' : f.next src (stateAfter (f.next src) f.init (b * f.K1 + p + 1)) = _ := k1
    refine ⟨by rw [← Nat.add_assoc]; simp only [call, k1'], ?_⟩
    rw [show b * f.K1 + (p + 1) + 1 = (b * f.K1 + p + 1) + 1 by omega]
    simp only [stateAfter] at k1' ⊢
    rw [k1']
    exact k2

theorem batchEnd_after (f : Batch K N M L) (src : ℕ → Res (Fin M → K)) (n k : ℕ)
    (hp : (stateAfter (f.next src) f.init n).pointer = f.K1) (hs : (stateAfter (f.next src) f.init n).stop = true) :
    call (f.next src) f.init (n + k) = .error .stopIteration ∧
      (stateAfter (f.next src) f.init (n + k)).pointer = f.K1 ∧
      (stateAfter (f.next src) f.init (n + k)).stop = true := by
  induction k with
  | zero => exact ⟨(batchEnd_stop f src _ hp hs).1, hp, hs⟩
  | succ k ih =>
    obtain ⟨-, h2, h3⟩ := ih
    obtain ⟨-, g2, g3⟩ := batchEnd_stop f src _ h2 h3
    have e : stateAfter (f.next src) f.init (n + (k + 1)) =
      (f.next src (stateAfter (f.next src) f.init (n + k))).2 := rfl
    refine ⟨?_, by rw [e]; exact g2, by rw [e]; exact g3⟩
    unfold call
    rw [e]
    exact (batchEnd_stop f src _ g2 g3).1

end Cbadc.Estimator
