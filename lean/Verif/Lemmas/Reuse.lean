import Mathlib.Tactic.Ring
import Verif.Model.Reuse
import Verif.Lemmas.EstimatorIIR
import Verif.Lemmas.EstimatorEnd

/-! # Estimators read their control signal one after the other -/

namespace Cbadc.Estimator
open Matrix Cbadc.Streams

/-- an iterator that reads a signal from where it is, and nothing else of it -/
structure Reader {V W S : Type*} (next : (ℕ → Res V) → S → Res W × S) (calls : S → ℕ) (put : ℕ → S → S) : Prop where
  put_calls : ∀ st, put (calls st) st = st
  put_put : ∀ n m st, put n (put m st) = put n st
  calls_put : ∀ n st, calls (put n st) = n
  mono : ∀ src st, calls st ≤ calls (next src st).2
  step : ∀ n src src2 st, (∀ i, calls st ≤ i → i < calls (next src st).2 → src2 (n + i) = src i) →
    next src2 (put (n + calls st) st) = ((next src st).1, put (n + calls (next src st).2) (next src st).2)

namespace Reader

variable {V W S : Type*} {next : (ℕ → Res V) → S → Res W × S} {calls : S → ℕ} {put : ℕ → S → S}

theorem mono_after (h : Reader next calls put) (src : ℕ → Res V) (st : S) (k : ℕ) :
    ∀ j, calls (stateAfter (next src) st k) ≤ calls (stateAfter (next src) st (k + j)) := by
  intro j
  induction j with
  | zero => exact le_rfl
  | succ j ih => exact ih.trans (h.mono src _)

/-- the first calls see only what they read -/
theorem first (h : Reader next calls put) (src src2 : ℕ → Res V) (st : S) (k : ℕ)
    (hs : ∀ i, i < calls (stateAfter (next src) st k) → src2 i = src i) :
    stateAfter (next src2) st k = stateAfter (next src) st k ∧
      ∀ i < k, call (next src2) st i = call (next src) st i := by
  induction k with
  | zero => exact ⟨rfl, fun i hi => absurd hi (Nat.not_lt_zero i)⟩
  | succ k ih =>
    obtain ⟨h1, h2⟩ := ih fun i hi => hs i (hi.trans_le (h.mono src _))
    have e : next src2 (stateAfter (next src) st k) = next src (stateAfter (next src) st k) := by
      have := h.step 0 src src2 (stateAfter (next src) st k) fun i _ hi => by rw [Nat.zero_add]; exact hs i hi
      rwa [Nat.zero_add, Nat.zero_add, h.put_calls, h.put_calls] at this
    refine ⟨?_, fun i hi => ?_⟩
    · show (next src2 (stateAfter (next src2) st k)).2 = (next src (stateAfter (next src) st k)).2
      rw [h1, e]
    · rcases Nat.lt_succ_iff_lt_or_eq.1 hi with hi | rfl
      · exact h2 i hi
      · show (next src2 (stateAfter (next src2) st i)).1 = (next src (stateAfter (next src) st i)).1
        rw [h1, e]

/-- where the signal starts does not matter -/
theorem shift (h : Reader next calls put) (n : ℕ) (src src2 : ℕ → Res V) (hs : ∀ i, src2 (n + i) = src i) (st : S)
    (j : ℕ) :
    stateAfter (next src2) (put (n + calls st) st) j =
        put (n + calls (stateAfter (next src) st j)) (stateAfter (next src) st j) ∧
      call (next src2) (put (n + calls st) st) j = call (next src) st j := by
  have key : ∀ j, stateAfter (next src2) (put (n + calls st) st) j =
      put (n + calls (stateAfter (next src) st j)) (stateAfter (next src) st j) := by
    intro j
    induction j with
    | zero => rfl
    | succ j ih =>
      show (next src2 (stateAfter (next src2) (put (n + calls st) st) j)).2 = _
      rw [ih, h.step n src src2 _ fun i _ _ => hs i]
      rfl
  refine ⟨key j, ?_⟩
  show (next src2 (stateAfter (next src2) (put (n + calls st) st) j)).1 = _
  rw [key j, h.step n src src2 _ fun i _ _ => hs i]
  rfl

theorem stateAfter_add {S W : Type*} (next : S → Res W × S) (st : S) (k : ℕ) :
    ∀ j, stateAfter next st (k + j) = stateAfter next (stateAfter next st k) j := by
  intro j
  induction j with
  | zero => rfl
  | succ j ih =>
    show (next (stateAfter next st (k + j))).2 = _
    rw [ih]; rfl

theorem call_add {S W : Type*} (next : S → Res W × S) (st : S) (k j : ℕ) :
    call next st (k + j) = call next (stateAfter next st k) j := by
  unfold call
  rw [stateAfter_add]

/-- another signal is read as the continuation of the one before -/
theorem switch (h : Reader next calls put) (src src' src2 : ℕ → Res V) (st0 : S) (k : ℕ)
    (h1 : ∀ i, i < calls (stateAfter (next src) st0 k) → src2 i = src i)
    (h2 : ∀ i, src2 (calls (stateAfter (next src) st0 k) + i) = src' i) :
    (∀ i < k, call (next src2) st0 i = call (next src) st0 i) ∧
    ∀ j, call (next src2) st0 (k + j) = call (next src') (put 0 (stateAfter (next src) st0 k)) j := by
  obtain ⟨g1, g2⟩ := h.first src src2 st0 k h1
  refine ⟨g2, fun j => ?_⟩
  rw [call_add, g1]
  have := (h.shift (calls (stateAfter (next src) st0 k)) src' src2 h2 (put 0 (stateAfter (next src) st0 k)) j).2
  rwa [h.calls_put, Nat.add_zero, h.put_put, h.put_calls] at this

end Reader

variable {K : Type*} [CommRing K] {N M L : ℕ}

theorem firPull_mono (src : ℕ → Res (Fin M → K)) (start d : ℕ) :
    (firPull src start d).2 ≤ (firPull src start (d + 1)).2 := by
  rw [firPull]
  split
  · next h => rw [h]
  · next h => rw [h]; split <;> simp

theorem firPull_count (src : ℕ → Res (Fin M → K)) (start d : ℕ) :
    ∀ rows k, firPull src start d = (.ok rows, k) → k = d := by
  induction d with
  | zero =>
    intro rows k h
    rw [firPull] at h
    exact (Prod.mk.inj h).2.symm
  | succ d ih =>
    intro rows k h
    rw [firPull] at h
    split at h
    · cases (Prod.mk.inj h).1
    · next rows' k' h' =>
      split at h
      · cases (Prod.mk.inj h).1
      · rw [ih _ _ h'] at h
        exact (Prod.mk.inj h).2.symm

theorem firPull_shift (n : ℕ) (src src2 : ℕ → Res (Fin M → K)) (start : ℕ) (d : ℕ)
    (h : ∀ i, start ≤ i → i < start + (firPull src start d).2 → src2 (n + i) = src i) :
    firPull src2 (n + start) d = firPull src start d := by
  induction d with
  | zero => rfl
  | succ d ih =>
    have ih := ih fun i h1 h2 => h i h1 (h2.trans_le (Nat.add_le_add_left (firPull_mono src start d) _))
    rw [firPull, ih]
    conv_rhs => rw [firPull]
    cases hp : firPull src start d with
    | mk r k =>
      cases r with
      | error e => rfl
      | ok rows =>
        dsimp only
        have hk := firPull_count src start d rows k hp
        have : src2 (n + (start + d)) = src (start + d) := by
          refine h _ (by omega) ?_
          rw [firPull, hp]
          dsimp only
          split <;> dsimp only <;> omega
        rw [Nat.add_assoc, this]

theorem fir_reader (f : FIR K M L) :
    Reader (fun src => f.next src) FIRState.calls fun n st => { st with calls := n } := by
  refine ⟨fun _ => rfl, fun _ _ _ => rfl, fun _ _ => rfl, fun src st => ?_, fun n src src2 st h => ?_⟩
  · dsimp only [FIR.next]
    split_ifs
    · exact le_rfl
    · split <;> simp
    · split <;> simp
  · dsimp only [FIR.next] at h ⊢
    by_cases hl : f.limit ≠ 0 ∧ f.limit < st.iteration + f.ds
    · rw [if_pos hl, if_pos hl]
    · rw [if_neg hl] at h
      rw [if_neg hl, if_neg hl, firPull_shift n src src2 st.calls f.ds]
      · cases hp : firPull src st.calls f.ds with
        | mk r k =>
          cases r with
          | error e => cases e <;> simp [Nat.add_assoc]
          | ok rows =>
            dsimp only
            split_ifs <;> simp [Nat.add_assoc]
      · intro i h1 h2
        refine h i h1 (h2.trans_le ?_)
        cases hp : firPull src st.calls f.ds with
        | mk r k =>
          cases r with
          | error e => cases e <;> simp
          | ok rows =>
            dsimp only
            split_ifs <;> simp

/-! IIR -/

theorem iir_pass_calls (f : IIR K N M L) (src : ℕ → Res (Fin M → K)) (st : IIRState K N M) :
    (f.pass src st).2.calls = st.calls ∨ (f.pass src st).2.calls = st.calls + 1 := by
  rw [IIR.pass.eq_def]
  dsimp only
  split_ifs
  · exact Or.inl rfl
  all_goals (right; split <;> rfl)

theorem iir_pass_shift (f : IIR K N M L) (n : ℕ) (src src2 : ℕ → Res (Fin M → K)) (st : IIRState K N M)
    (h : ∀ i, st.calls ≤ i → i < (f.pass src st).2.calls → src2 (n + i) = src i) :
    f.pass src2 { st with calls := n + st.calls } =
      ((f.pass src st).1, { (f.pass src st).2 with calls := n + (f.pass src st).2.calls }) := by
  by_cases hl : f.limit ≠ 0 ∧ f.limit < st.iteration + 1
  · simp only [IIR.pass, if_pos hl]
  · have hs : src2 (n + st.calls) = src st.calls := by
      refine h _ le_rfl ?_
      rw [IIR.pass.eq_def]
      dsimp only
      rw [if_neg hl]
      split
      · exact Nat.lt_succ_self _
      · exact Nat.lt_succ_self _
      · split_ifs <;> exact Nat.lt_succ_self _
    rw [IIR.pass.eq_def, IIR.pass.eq_def]
    dsimp only
    rw [if_neg hl, if_neg hl, hs]
    cases hv : src st.calls with
    | error e => cases e <;> rfl
    | ok s =>
      dsimp only
      split_ifs <;> rfl

theorem iir_nextFuel_mono (f : IIR K N M L) (src : ℕ → Res (Fin M → K)) (fuel : ℕ) :
    ∀ st, st.calls ≤ (f.nextFuel src fuel st).2.calls := by
  induction fuel with
  | zero => intro st; exact le_rfl
  | succ fuel ih =>
    intro st
    have hp := iir_pass_calls f src st
    rw [IIR.nextFuel]
    cases hv : f.pass src st with
    | mk r st' =>
      rw [hv] at hp
      dsimp only at hp
      cases r with
      | error e => dsimp only; omega
      | ok o =>
        cases o with
        | some v => dsimp only; omega
        | none => dsimp only; have := ih st'; omega

theorem iir_nextFuel_shift (f : IIR K N M L) (n : ℕ) (src src2 : ℕ → Res (Fin M → K)) (fuel : ℕ) :
    ∀ st : IIRState K N M, (∀ i, st.calls ≤ i → i < (f.nextFuel src fuel st).2.calls → src2 (n + i) = src i) →
    f.nextFuel src2 fuel { st with calls := n + st.calls } =
      ((f.nextFuel src fuel st).1, { (f.nextFuel src fuel st).2 with calls := n + (f.nextFuel src fuel st).2.calls }) := by
  induction fuel with
  | zero => intro st _; rfl
  | succ fuel ih =>
    intro st h
    have hp := iir_pass_calls f src st
    have hm : (f.pass src st).2.calls ≤ (f.nextFuel src (fuel + 1) st).2.calls := by
      rw [IIR.nextFuel]
      cases hv : f.pass src st with
      | mk r st' =>
        cases r with
        | error e => exact le_rfl
        | ok o =>
          cases o with
          | some v => exact le_rfl
          | none => exact iir_nextFuel_mono f src fuel st'
    have hq := iir_pass_shift f n src src2 st fun i h1 h2 => h i h1 (h2.trans_le hm)
    rw [IIR.nextFuel, hq]
    rw [IIR.nextFuel] at h ⊢
    cases hv : f.pass src st with
    | mk r st' =>
      rw [hv] at h hp
      cases r with
      | error e => rfl
      | ok o =>
        cases o with
        | some v => rfl
        | none =>
          dsimp only at h hp ⊢
          exact ih st' fun i h1 h2 => h i (by omega) h2

theorem iir_reader (f : IIR K N M L) :
    Reader (fun src => f.next src) IIRState.calls fun n st => { st with calls := n } :=
  ⟨fun _ => rfl, fun _ _ _ => rfl, fun _ _ => rfl, fun src st => iir_nextFuel_mono f src _ st,
    fun n src src2 st h => iir_nextFuel_shift f n src src2 _ st h⟩

/-! Batch -/

theorem batch_fill_mono (f : Batch K N M L) (src : ℕ → Res (Fin M → K)) (fuel : ℕ) :
    ∀ st, st.calls ≤ (f.fill src fuel st).2.calls := by
  induction fuel with
  | zero => intro st; exact le_rfl
  | succ fuel ih =>
    intro st
    have go : ∀ (s : Fin M → K) (st' : BatchState K N M L), st'.calls = st.calls + 1 →
        st.calls ≤ (match f.input st' s with
          | .error e => ((.error e, st') : Res Unit × BatchState K N M L)
          | .ok (full, st'') => if full then (.ok (), st'') else Batch.fill f src fuel st'').2.calls := by
      intro s st' hc
      rw [Batch.input.eq_def]
      dsimp only
      by_cases hi : st'.inBuffer = f.K1 + f.K2
      · rw [if_pos hi]; dsimp only; omega
      · rw [if_neg hi]; dsimp only
        split
        · dsimp only; omega
        · refine le_trans ?_ (ih _)
          dsimp only; omega
    rw [Batch.fill.eq_def]
    dsimp only
    cases hv : src st.calls with
    | ok s => exact go s _ rfl
    | error e => cases e <;> first | exact go 0 _ rfl | exact Nat.le_succ _

theorem batch_fill_shift (f : Batch K N M L) (n : ℕ) (src src2 : ℕ → Res (Fin M → K)) (fuel : ℕ) :
    ∀ st : BatchState K N M L, (∀ i, st.calls ≤ i → i < (f.fill src fuel st).2.calls → src2 (n + i) = src i) →
    f.fill src2 fuel { st with calls := n + st.calls } =
      ((f.fill src fuel st).1, { (f.fill src fuel st).2 with calls := n + (f.fill src fuel st).2.calls }) := by
  induction fuel with
  | zero => intro st _; rfl
  | succ fuel ih =>
    intro st h
    have lt : ∀ (s : Fin M → K) (st' : BatchState K N M L), st'.calls = st.calls + 1 →
        st.calls < (match f.input st' s with
          | .error e => ((.error e, st') : Res Unit × BatchState K N M L)
          | .ok (full, st'') => if full then (.ok (), st'') else Batch.fill f src fuel st'').2.calls := by
      intro s st' hc
      rw [Batch.input.eq_def]
      dsimp only
      by_cases hi : st'.inBuffer = f.K1 + f.K2
      · rw [if_pos hi]; dsimp only; omega
      · rw [if_neg hi]; dsimp only
        split
        · dsimp only; omega
        · refine lt_of_lt_of_le ?_ (batch_fill_mono f src fuel _)
          dsimp only; omega
    have hs : src2 (n + st.calls) = src st.calls := by
      refine h _ le_rfl ?_
      rw [Batch.fill.eq_def]
      dsimp only
      cases hv : src st.calls with
      | ok s => exact lt s _ rfl
      | error e => cases e <;> first | exact lt 0 _ rfl | exact Nat.lt_succ_self _
    have go : ∀ (s : Fin M → K) (st' : BatchState K N M L), st'.calls = st.calls + 1 →
        (∀ i, st.calls ≤ i → i < (match f.input st' s with
          | .error e => ((.error e, st') : Res Unit × BatchState K N M L)
          | .ok (full, st'') => if full then (.ok (), st'') else Batch.fill f src fuel st'').2.calls →
          src2 (n + i) = src i) →
        (match f.input { st' with calls := n + st'.calls } s with
          | .error e => ((.error e, { st' with calls := n + st'.calls }) : Res Unit × BatchState K N M L)
          | .ok (full, st'') => if full then (.ok (), st'') else Batch.fill f src2 fuel st'') =
        (((match f.input st' s with
          | .error e => ((.error e, st') : Res Unit × BatchState K N M L)
          | .ok (full, st'') => if full then (.ok (), st'') else Batch.fill f src fuel st'')).1,
        { (match f.input st' s with
          | .error e => ((.error e, st') : Res Unit × BatchState K N M L)
          | .ok (full, st'') => if full then (.ok (), st'') else Batch.fill f src fuel st'').2 with
          calls := n + (match f.input st' s with
          | .error e => ((.error e, st') : Res Unit × BatchState K N M L)
          | .ok (full, st'') => if full then (.ok (), st'') else Batch.fill f src fuel st'').2.calls }) := by
      intro s st' hc hh
      rw [Batch.input.eq_def, Batch.input.eq_def] at *
      dsimp only at hh ⊢
      by_cases hi : st'.inBuffer = f.K1 + f.K2
      · rw [if_pos hi, if_pos hi]
      · rw [if_neg hi] at hh
        rw [if_neg hi, if_neg hi]
        dsimp only at hh ⊢
        by_cases hd : decide (f.K1 + f.K2 - 1 < st'.inBuffer + 1) = true
        · rw [if_pos hd, if_pos hd]
        · rw [if_neg hd] at hh
          rw [if_neg hd, if_neg hd]
          exact ih { st' with cs := Function.update st'.cs st'.inBuffer (valued s), inBuffer := st'.inBuffer + 1 }
            fun i h1 h2 => hh i (by dsimp only at h1; omega) h2
    rw [Batch.fill.eq_def] at h
    rw [Batch.fill.eq_def, Batch.fill.eq_def f src]
    dsimp only at h ⊢
    rw [hs]
    cases hv : src st.calls with
    | ok s =>
      rw [hv] at h
      exact go s { st with calls := st.calls + 1 } rfl h
    | error e =>
      rw [hv] at h
      cases e <;> first | exact go 0 { st with calls := st.calls + 1, stop := true } rfl h | rfl

theorem batch_compute_put (f : Batch K N M L) (n : ℕ) (st : BatchState K N M L) :
    f.computeBatch { st with calls := n } =
      (f.computeBatch st).map fun st' => { st' with calls := n } := by
  rw [Batch.computeBatch.eq_def, Batch.computeBatch.eq_def]
  dsimp only
  split_ifs <;> rfl

theorem batch_compute_calls (f : Batch K N M L) (st st' : BatchState K N M L) (h : f.computeBatch st = .ok st') :
    st'.calls = st.calls := by
  rw [Batch.computeBatch.eq_def] at h
  dsimp only at h
  split_ifs at h
  rw [← Except.ok.inj h]

theorem batch_nextFuel_mono (f : Batch K N M L) (src : ℕ → Res (Fin M → K)) (fuel : ℕ) :
    ∀ st, st.calls ≤ (f.nextFuel src fuel st).2.calls := by
  induction fuel with
  | zero => intro st; exact le_rfl
  | succ fuel ih =>
    intro st
    rw [Batch.nextFuel.eq_def]
    dsimp only
    split_ifs
    · exact le_rfl
    · exact le_rfl
    · exact le_rfl
    · have hm := batch_fill_mono f src (f.K1 + f.K2 + 1) { st with iteration := st.iteration + 1 }
      cases hv : f.fill src (f.K1 + f.K2 + 1) { st with iteration := st.iteration + 1 } with
      | mk r st2 =>
        rw [hv] at hm
        dsimp only at hm
        cases r with
        | error e => exact hm
        | ok u =>
          dsimp only
          cases hc : f.computeBatch st2 with
          | error e => exact hm
          | ok st3 =>
            have h3 := batch_compute_calls f _ _ hc
            exact (h3 ▸ hm).trans (ih { st3 with pointer := st3.pointer - f.K1 })

theorem batch_nextFuel_shift (f : Batch K N M L) (n : ℕ) (src src2 : ℕ → Res (Fin M → K)) (fuel : ℕ) :
    ∀ st : BatchState K N M L, (∀ i, st.calls ≤ i → i < (f.nextFuel src fuel st).2.calls → src2 (n + i) = src i) →
    f.nextFuel src2 fuel { st with calls := n + st.calls } =
      ((f.nextFuel src fuel st).1, { (f.nextFuel src fuel st).2 with calls := n + (f.nextFuel src fuel st).2.calls }) := by
  induction fuel with
  | zero => intro st _; rfl
  | succ fuel ih =>
    intro st h
    rw [Batch.nextFuel.eq_def] at h
    rw [Batch.nextFuel.eq_def, Batch.nextFuel.eq_def f src]
    dsimp only at h ⊢
    by_cases h1 : f.limit < st.iteration
    · rw [if_pos h1, if_pos h1]
    rw [if_neg h1] at h
    rw [if_neg h1, if_neg h1]
    by_cases h2 : st.pointer < f.K1
    · rw [if_pos h2, if_pos h2]
    rw [if_neg h2] at h
    rw [if_neg h2, if_neg h2]
    by_cases h3 : st.stop = true
    · rw [if_pos h3, if_pos h3]
    rw [if_neg h3] at h
    rw [if_neg h3, if_neg h3]
    have hf := batch_fill_shift f n src src2 (f.K1 + f.K2 + 1) { st with iteration := st.iteration + 1 }
    have hm := batch_fill_mono f src (f.K1 + f.K2 + 1) { st with iteration := st.iteration + 1 }
    dsimp only at hf hm
    cases hv : f.fill src (f.K1 + f.K2 + 1) { st with iteration := st.iteration + 1 } with
    | mk r st2 =>
      rw [hv] at h hf hm
      cases r with
      | error e =>
        rw [hf h]
      | ok u =>
        dsimp only at h hf hm ⊢
        cases hc : f.computeBatch st2 with
        | error e =>
          rw [hc] at h
          rw [hf h]
          dsimp only
          rw [batch_compute_put, hc]
          rfl
        | ok st3 =>
          rw [hc] at h
          dsimp only at h
          have hcc := batch_compute_calls f _ _ hc
          have hn := batch_nextFuel_mono f src fuel { st3 with pointer := st3.pointer - f.K1 }
          dsimp only at hn
          rw [hf fun i g1 g2 => h i g1 (by omega)]
          dsimp only
          rw [batch_compute_put, hc, ← hcc]
          exact ih { st3 with pointer := st3.pointer - f.K1 } fun i g1 g2 => h i (by dsimp only at g1; omega) g2

theorem batch_reader (f : Batch K N M L) :
    Reader (fun src => f.next src) BatchState.calls fun n st => { st with calls := n } :=
  ⟨fun _ => rfl, fun _ _ _ => rfl, fun _ _ => rfl, fun src st => batch_nextFuel_mono f src _ st,
    fun n src src2 st h => batch_nextFuel_shift f n src src2 _ st h⟩

/-! Parallel -/

theorem par_fill_mono (f : Parallel N M L) (src : ℕ → Res (Fin M → ℝ)) (fuel : ℕ) :
    ∀ st, st.calls ≤ (f.fill src fuel st).2.calls := by
  induction fuel with
  | zero => intro st; exact le_rfl
  | succ fuel ih =>
    intro st
    have go : ∀ (s : Fin M → ℝ) (st' : ParState N M L), st'.calls = st.calls + 1 →
        st.calls ≤ (match f.input st' s with
          | .error e => ((.error e, st') : Res Unit × ParState N M L)
          | .ok (full, st'') => if full then (.ok (), st'') else Parallel.fill f src fuel st'').2.calls := by
      intro s st' hc
      rw [Parallel.input.eq_def]
      dsimp only
      by_cases hi : st'.inBuffer = f.K1 + f.K2
      · rw [if_pos hi]; dsimp only; omega
      · rw [if_neg hi]; dsimp only
        split
        · dsimp only; omega
        · refine le_trans ?_ (ih _)
          dsimp only; omega
    rw [Parallel.fill.eq_def]
    dsimp only
    cases hv : src st.calls with
    | ok s => exact go s _ rfl
    | error e => cases e <;> first | exact go 0 _ rfl | exact Nat.le_succ _

theorem par_fill_shift (f : Parallel N M L) (n : ℕ) (src src2 : ℕ → Res (Fin M → ℝ)) (fuel : ℕ) :
    ∀ st : ParState N M L, (∀ i, st.calls ≤ i → i < (f.fill src fuel st).2.calls → src2 (n + i) = src i) →
    f.fill src2 fuel { st with calls := n + st.calls } =
      ((f.fill src fuel st).1, { (f.fill src fuel st).2 with calls := n + (f.fill src fuel st).2.calls }) := by
  induction fuel with
  | zero => intro st _; rfl
  | succ fuel ih =>
    intro st h
    have lt : ∀ (s : Fin M → ℝ) (st' : ParState N M L), st'.calls = st.calls + 1 →
        st.calls < (match f.input st' s with
          | .error e => ((.error e, st') : Res Unit × ParState N M L)
          | .ok (full, st'') => if full then (.ok (), st'') else Parallel.fill f src fuel st'').2.calls := by
      intro s st' hc
      rw [Parallel.input.eq_def]
      dsimp only
      by_cases hi : st'.inBuffer = f.K1 + f.K2
      · rw [if_pos hi]; dsimp only; omega
      · rw [if_neg hi]; dsimp only
        split
        · dsimp only; omega
        · refine lt_of_lt_of_le ?_ (par_fill_mono f src fuel _)
          dsimp only; omega
    have hs : src2 (n + st.calls) = src st.calls := by
      refine h _ le_rfl ?_
      rw [Parallel.fill.eq_def]
      dsimp only
      cases hv : src st.calls with
      | ok s => exact lt s _ rfl
      | error e => cases e <;> first | exact lt 0 _ rfl | exact Nat.lt_succ_self _
    have go : ∀ (s : Fin M → ℝ) (st' : ParState N M L), st'.calls = st.calls + 1 →
        (∀ i, st.calls ≤ i → i < (match f.input st' s with
          | .error e => ((.error e, st') : Res Unit × ParState N M L)
          | .ok (full, st'') => if full then (.ok (), st'') else Parallel.fill f src fuel st'').2.calls →
          src2 (n + i) = src i) →
        (match f.input { st' with calls := n + st'.calls } s with
          | .error e => ((.error e, { st' with calls := n + st'.calls }) : Res Unit × ParState N M L)
          | .ok (full, st'') => if full then (.ok (), st'') else Parallel.fill f src2 fuel st'') =
        (((match f.input st' s with
          | .error e => ((.error e, st') : Res Unit × ParState N M L)
          | .ok (full, st'') => if full then (.ok (), st'') else Parallel.fill f src fuel st'')).1,
        { (match f.input st' s with
          | .error e => ((.error e, st') : Res Unit × ParState N M L)
          | .ok (full, st'') => if full then (.ok (), st'') else Parallel.fill f src fuel st'').2 with
          calls := n + (match f.input st' s with
          | .error e => ((.error e, st') : Res Unit × ParState N M L)
          | .ok (full, st'') => if full then (.ok (), st'') else Parallel.fill f src fuel st'').2.calls }) := by
      intro s st' hc hh
      rw [Parallel.input.eq_def, Parallel.input.eq_def] at *
      dsimp only at hh ⊢
      by_cases hi : st'.inBuffer = f.K1 + f.K2
      · rw [if_pos hi, if_pos hi]
      · rw [if_neg hi] at hh
        rw [if_neg hi, if_neg hi]
        dsimp only at hh ⊢
        by_cases hd : decide (f.K1 + f.K2 - 1 < st'.inBuffer + 1) = true
        · rw [if_pos hd, if_pos hd]
        · rw [if_neg hd] at hh
          rw [if_neg hd, if_neg hd]
          exact ih { st' with cs := Function.update st'.cs st'.inBuffer s, inBuffer := st'.inBuffer + 1 }
            fun i h1 h2 => hh i (by dsimp only at h1; omega) h2
    rw [Parallel.fill.eq_def] at h
    rw [Parallel.fill.eq_def, Parallel.fill.eq_def f src]
    dsimp only at h ⊢
    rw [hs]
    cases hv : src st.calls with
    | ok s =>
      rw [hv] at h
      exact go s { st with calls := st.calls + 1 } rfl h
    | error e =>
      rw [hv] at h
      cases e <;> first | exact go 0 { st with calls := st.calls + 1, stop := true } rfl h | rfl

theorem par_compute_put (f : Parallel N M L) (n : ℕ) (st : ParState N M L) :
    f.computeBatch { st with calls := n } =
      (f.computeBatch st).map fun st' => { st' with calls := n } := by
  rw [Parallel.computeBatch.eq_def, Parallel.computeBatch.eq_def]
  dsimp only
  split_ifs <;> rfl

theorem par_compute_calls (f : Parallel N M L) (st st' : ParState N M L) (h : f.computeBatch st = .ok st') :
    st'.calls = st.calls := by
  rw [Parallel.computeBatch.eq_def] at h
  dsimp only at h
  split_ifs at h
  rw [← Except.ok.inj h]

theorem par_nextFuel_mono (f : Parallel N M L) (src : ℕ → Res (Fin M → ℝ)) (fuel : ℕ) :
    ∀ st, st.calls ≤ (f.nextFuel src fuel st).2.calls := by
  induction fuel with
  | zero => intro st; exact le_rfl
  | succ fuel ih =>
    intro st
    rw [Parallel.nextFuel.eq_def]
    dsimp only
    split_ifs
    · exact le_rfl
    · exact le_rfl
    · exact le_rfl
    · have hm := par_fill_mono f src (f.K1 + f.K2 + 1) { st with iteration := st.iteration + 1 }
      cases hv : f.fill src (f.K1 + f.K2 + 1) { st with iteration := st.iteration + 1 } with
      | mk r st2 =>
        rw [hv] at hm
        dsimp only at hm
        cases r with
        | error e => exact hm
        | ok u =>
          dsimp only
          cases hc : f.computeBatch st2 with
          | error e => exact hm
          | ok st3 =>
            have h3 := par_compute_calls f _ _ hc
            exact (h3 ▸ hm).trans (ih { st3 with pointer := st3.pointer - f.K1 })

theorem par_nextFuel_shift (f : Parallel N M L) (n : ℕ) (src src2 : ℕ → Res (Fin M → ℝ)) (fuel : ℕ) :
    ∀ st : ParState N M L, (∀ i, st.calls ≤ i → i < (f.nextFuel src fuel st).2.calls → src2 (n + i) = src i) →
    f.nextFuel src2 fuel { st with calls := n + st.calls } =
      ((f.nextFuel src fuel st).1, { (f.nextFuel src fuel st).2 with calls := n + (f.nextFuel src fuel st).2.calls }) := by
  induction fuel with
  | zero => intro st _; rfl
  | succ fuel ih =>
    intro st h
    rw [Parallel.nextFuel.eq_def] at h
    rw [Parallel.nextFuel.eq_def, Parallel.nextFuel.eq_def f src]
    dsimp only at h ⊢
    by_cases h1 : f.limit < st.iteration
    · rw [if_pos h1, if_pos h1]
    rw [if_neg h1] at h
    rw [if_neg h1, if_neg h1]
    by_cases h2 : st.pointer < f.K1
    · rw [if_pos h2, if_pos h2]
    rw [if_neg h2] at h
    rw [if_neg h2, if_neg h2]
    by_cases h3 : st.stop = true
    · rw [if_pos h3, if_pos h3]
    rw [if_neg h3] at h
    rw [if_neg h3, if_neg h3]
    have hf := par_fill_shift f n src src2 (f.K1 + f.K2 + 1) { st with iteration := st.iteration + 1 }
    have hm := par_fill_mono f src (f.K1 + f.K2 + 1) { st with iteration := st.iteration + 1 }
    dsimp only at hf hm
    cases hv : f.fill src (f.K1 + f.K2 + 1) { st with iteration := st.iteration + 1 } with
    | mk r st2 =>
      rw [hv] at h hf hm
      cases r with
      | error e =>
        rw [hf h]
      | ok u =>
        dsimp only at h hf hm ⊢
        cases hc : f.computeBatch st2 with
        | error e =>
          rw [hc] at h
          rw [hf h]
          dsimp only
          rw [par_compute_put, hc]
          rfl
        | ok st3 =>
          rw [hc] at h
          dsimp only at h
          have hcc := par_compute_calls f _ _ hc
          have hn := par_nextFuel_mono f src fuel { st3 with pointer := st3.pointer - f.K1 }
          dsimp only at hn
          rw [hf fun i g1 g2 => h i g1 (by omega)]
          dsimp only
          rw [par_compute_put, hc, ← hcc]
          exact ih { st3 with pointer := st3.pointer - f.K1 } fun i g1 g2 => h i (by dsimp only at g1; omega) g2

theorem par_reader (f : Parallel N M L) :
    Reader (fun src => f.next src) ParState.calls fun n st => { st with calls := n } :=
  ⟨fun _ => rfl, fun _ _ _ => rfl, fun _ _ => rfl, fun src st => par_nextFuel_mono f src _ st,
    fun n src src2 st h => par_nextFuel_shift f n src src2 _ st h⟩

end Cbadc.Estimator
