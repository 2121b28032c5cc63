import Verif.Lemmas.NuvBatch

/-! Helper lemmas for the NUV estimator: what its results depend on, and how it ends. -/

namespace Cbadc.Nuv

open Matrix Cbadc.Estimator Cbadc.Streams

variable {N P M L : ℕ}

/-! ### Causality -/

theorem solved_congr (f : Est N P M L) (hPN : P = N) (hK : 0 < f.K3) (n : ℕ) (p : Prior N P) {w w' : ℕ → Fin M → ℝ}
    (h : ∀ k < f.K3, w k = w' k) : AgreeR f.K3 (solved f n p w) (solved f n p w') := by
  obtain ⟨r, r', h1, h2, h3⟩ := solve_congr f hPN hK n (a := base p w) (b := base p w')
    ⟨rfl, rfl, fun _ _ => rfl, fun _ _ => rfl, h⟩
  unfold solved
  rw [h1, h2]
  exact h3

theorem out_congr (f : Est N P M L) (hPN : P = N) (p : Prior N P) {w w' : ℕ → Fin M → ℝ}
    (h : ∀ k < f.K3, w k = w' k) {j : ℕ} (hj : j < f.K1) : out f p w j = out f p w' j := by
  have hle : f.K1 ≤ f.K3 := by unfold Est.K3; omega
  unfold out
  rw [(solved_congr f hPN (by omega) f.iters p h).xi j (by omega)]

theorem after_congr (f : Est N P M L) (hPN : P = N) (hK1 : 0 < f.K1) (p : Prior N P) {w w' : ℕ → Fin M → ℝ}
    (h : ∀ k < f.K3, w k = w' k) : after f p w = after f p w' := by
  have hle : f.K1 ≤ f.K3 := by unfold Est.K3; omega
  have hc := solved_congr f hPN (by omega) f.iters p h
  unfold after
  dsimp only
  rw [hc.means _ (by omega), hc.covs _ (by omega), hc.s1 _ (by omega), hc.s2 _ (by omega)]

theorem before_mono (f : Est N P M L) : ∀ c, before f c ≤ before f (c + 1) := by
  intro c
  rcases c with _ | c
  · exact Nat.zero_le _
  · exact Nat.div_le_div_right (by rw [Nat.succ_mul]; omega)

theorem index_lt (f : Est N P M L) (hf : Fits f) (b k : ℕ) (hk : k < f.K3) : (b * f.K1 + k) / f.os < before f (b + 1) := by
  have hd : f.os ∣ b * f.K1 + f.K3 := by
    unfold Est.K3
    exact (hf.d1.mul_left b).add (hf.d1.add hf.d2)
  rw [before, Nat.div_lt_iff_lt_mul hf.os, Nat.div_mul_cancel hd]
  omega

theorem window_congr (f : Est N P M L) (hf : Fits f) {src src' : ℕ → Res (Fin M → ℝ)} (b : ℕ)
    (h : ∀ i < before f (b + 1), smp src i = smp src' i) : ∀ k < f.K3, window f src b k = window f src' b k := by
  intro k hk
  unfold window
  rw [h _ (index_lt f hf b k hk)]

theorem prior_congr (f : Est N P M L) (hf : Fits f) (hPN : P = N) {src src' : ℕ → Res (Fin M → ℝ)} : ∀ b,
    (∀ i < before f b, smp src i = smp src' i) → prior f src b = prior f src' b := by
  intro b
  induction b with
  | zero => intro _; rfl
  | succ b ih =>
    intro h
    rw [prior, prior, ih fun i hi => h i (lt_of_lt_of_le hi (before_mono f b))]
    exact after_congr f hPN hf.K1 _ (window_congr f hf b h)

theorem out_stream (f : Est N P M L) (hf : Fits f) (hPN : P = N) {src src' : ℕ → Res (Fin M → ℝ)} (b : ℕ)
    (h : ∀ i < before f (b + 1), smp src i = smp src' i) {j : ℕ} (hj : j < f.K1) :
    out f (prior f src b) (window f src b) j = out f (prior f src' b) (window f src' b) j := by
  rw [prior_congr f hf hPN b fun i hi => h i (lt_of_lt_of_le hi (before_mono f b))]
  exact out_congr f hPN _ (window_congr f hf b h) hj

/-- The number of decisions read. -/
theorem calls_after (f : Est N P M L) (hf : Fits f) (hPN : P = N) (src : ℕ → Res (Fin M → ℝ)) (b : ℕ)
    (hs : ∀ i < before f (b + 1), Soft src i) (ho : ∀ i < before f b, ∃ s, src i = .ok s) (j : ℕ) (hj : j < f.K1) :
    (stateAfter (f.next src) f.init (b * f.K1 + j + 1)).calls = before f (b + 1) := by
  have hI := inv_after f hf hPN src b (fun i hi => hs i (lt_of_lt_of_le hi (before_mono f b))) (fun i hb hi => ho i (by
    obtain ⟨c, rfl⟩ : ∃ c, b = c + 1 := ⟨b - 1, by omega⟩
    exact lt_of_lt_of_le hi (before_mono f c)))
  have hstop : (stateAfter (f.next src) f.init (b * f.K1)).stop = false := by
    rw [hI.stop, List.any_eq_false]
    intro i hi
    obtain ⟨s, hsrc⟩ := ho i (List.mem_range.mp hi)
    simp [dead, hsrc]
  obtain ⟨st', h1, _, h3⟩ := next_batch f hf.K1 hPN src b _ hI hstop (reads_of_inv f hf src b _ hI hs)
  rw [add_assoc, stateAfter_add, stateAfter_batch f src _ st' h1 (j + 1) (by omega) (by omega)]
  exact h3.calls

/-! ### Ends -/

/-- A state that is left unchanged by a call is left unchanged by all. -/
theorem stateAfter_stuck {V S : Type*} (next : S → Res V × S) (I : S → Prop) (hI : ∀ s, I s → I (next s).2) (s0 : S)
    (h0 : I s0) (n : ℕ) : I (stateAfter next s0 n) := by
  induction n with
  | zero => exact h0
  | succ n ih => rw [stateAfter]; exact hI _ ih

theorem call_add {V S : Type*} (next : S → Res V × S) (s0 : S) (a b : ℕ) :
    call next s0 (a + b) = call next (stateAfter next s0 a) b := by
  unfold call
  rw [stateAfter_add]

/-- The end of a stream by `RuntimeError`. -/
theorem call_stopped (f : Est N P M L) (hf : Fits f) (hPN : P = N) (src : ℕ → Res (Fin M → ℝ)) (b : ℕ)
    (hs : ∀ i < before f (b + 1), Soft src i) (ho : ∀ i < before f b, ∃ s, src i = .ok s)
    (hd : ∃ i < before f (b + 1), src i = .error .runtimeError) (n : ℕ) (hn : (b + 1) * f.K1 ≤ n) :
    call (f.next src) f.init n = .error .stopIteration := by
  have hI := inv_after f hf hPN src (b + 1) hs (fun i _ hi => ho i hi)
  obtain ⟨i, hi, hsrc⟩ := hd
  have hstop : (stateAfter (f.next src) f.init ((b + 1) * f.K1)).stop = true := by
    rw [hI.stop, List.any_eq_true]
    exact ⟨i, List.mem_range.2 hi, by simp [dead, hsrc]⟩
  obtain ⟨c, rfl⟩ := Nat.exists_eq_add_of_le hn
  rw [call_add]
  have hst : ∀ st : State N P M L, st.pointer = f.K1 ∧ st.stop = true → f.next src st = (.error .stopIteration, st) := by
    rintro st ⟨h1, h2⟩
    rw [Est.next, Est.nextFuel, if_neg (by omega), h2, if_pos rfl]
  have := stateAfter_stuck (f.next src) (fun st => st.pointer = f.K1 ∧ st.stop = true)
    (fun st h => by rw [hst st h]; exact h) _ ⟨hI.pointer, hstop⟩ c
  unfold call
  rw [hst _ this]

/-- The end of a stream by another exception. -/
theorem call_hard (f : Est N P M L) (hf : Fits f) (hPN : P = N) (src : ℕ → Res (Fin M → ℝ)) (b r : ℕ) (e : Exc)
    (he : e ≠ .runtimeError) (ho : ∀ i < r, ∃ s, src i = .ok s) (hr : ∀ i, r ≤ i → src i = .error e) (h1 : before f b ≤ r)
    (h2 : r < before f (b + 1)) (n : ℕ) (hn : b * f.K1 ≤ n) : call (f.next src) f.init n = .error e := by
  have hI := inv_after f hf hPN src b (fun i hi => Or.inr (ho i (by omega))) (fun i hb hi => ho i (by
    obtain ⟨c, rfl⟩ : ∃ c, b = c + 1 := ⟨b - 1, by omega⟩
    have := before_mono f c
    have hi : i < before f c := hi
    omega))
  have hstop : (stateAfter (f.next src) f.init (b * f.K1)).stop = false := by
    rw [hI.stop, List.any_eq_false]
    intro i hi
    obtain ⟨s, hsrc⟩ := ho i (by have := List.mem_range.mp hi; omega)
    simp [dead, hsrc]
  have hos := hf.os
  have hcalls : (before f (b + 1)) * f.os = b * f.K1 + f.K3 := by
    rw [before]
    refine Nat.div_mul_cancel ?_
    unfold Est.K3
    exact (hf.d1.mul_left b).add (hf.d1.add hf.d2)
  have hcount : (stateAfter (f.next src) f.init (b * f.K1)).count + (r - before f b) * f.os < f.K3 := by
    have hb : (before f b) * f.os + f.K3 = b * f.K1 + f.K3 + (f.K3 - (f.K3 - (if b = 0 then 0 else f.K2))) := by
      rcases b with _ | c
      · simp [before]
      · rw [if_neg (by omega), before, Nat.div_mul_cancel (show f.os ∣ c * f.K1 + f.K3 by
          unfold Est.K3
          exact (hf.d1.mul_left c).add (hf.d1.add hf.d2)), Nat.succ_mul]
        unfold Est.K3
        omega
    rw [hI.count, Nat.sub_mul]
    have h3 : r * f.os < before f (b + 1) * f.os := Nat.mul_lt_mul_of_pos_right h2 hos
    have h4 : before f b * f.os ≤ r * f.os := Nat.mul_le_mul_right _ h1
    have h5 : (if b = 0 then 0 else f.K2) ≤ f.K3 := by
      split
      · omega
      · unfold Est.K3; omega
    omega
  obtain ⟨c, rfl⟩ := Nat.exists_eq_add_of_le hn
  rw [call_add]
  -- the first call
  have hfill : ∀ st : State N P M L, st.pointer = f.K1 → st.stop = false → ∀ q, st.count + q * f.os < f.K3 →
      (∀ i < q, Soft src (st.calls + i)) → src (st.calls + q) = .error e →
      f.next src st = (.error e, { reads src f.os q st with calls := st.calls + q + 1 }) := by
    intro st hp hst q hq hso hsr
    have hqf : q < f.K3 + 1 := by
      have : q ≤ q * f.os := Nat.le_mul_of_pos_right q hos
      omega
    rw [Est.next, Est.nextFuel, if_neg (by omega), hst, if_neg (by simp),
      fill_hard f src hos q (f.K3 + 1) st hqf hq hso e he hsr]
  obtain ⟨st0, hst0⟩ : ∃ st0, st0 = stateAfter (f.next src) f.init (b * f.K1) := ⟨_, rfl⟩
  rw [← hst0] at hI hstop hcount ⊢
  have hsoft : ∀ i < r - before f b, Soft src (st0.calls + i) := fun i hi => Or.inr (ho _ (by rw [hI.calls]; omega))
  have hfirst := hfill st0 hI.pointer hstop _ hcount hsoft (hr _ (by rw [hI.calls]; omega))
  rcases c with _ | c
  · show (f.next src st0).1 = _
    rw [hfirst]
  · rw [show c + 1 = 1 + c by omega, call_add]
    show call _ (f.next src st0).2 c = _
    rw [hfirst]
    have hstuck : ∀ st : State N P M L, (st.pointer = f.K1 ∧ st.stop = false ∧ st.count < f.K3 ∧ r ≤ st.calls) →
        f.next src st = (.error e, { reads src f.os 0 st with calls := st.calls + 0 + 1 }) := by
      rintro st ⟨g1, g2, g3, g4⟩
      exact hfill st g1 g2 0 (by omega) (fun i hi => absurd hi (Nat.not_lt_zero i)) (hr _ (by omega))
    have := stateAfter_stuck (f.next src) (fun st => st.pointer = f.K1 ∧ st.stop = false ∧ st.count < f.K3 ∧ r ≤ st.calls)
      (fun st h => by
        rw [hstuck st h, reads_zero]
        exact ⟨h.1, h.2.1, h.2.2.1, by have := h.2.2.2; show r ≤ st.calls + 0 + 1; omega⟩)
      { reads src f.os (r - before f b) st0 with calls := st0.calls + (r - before f b) + 1 }
      ⟨hI.pointer, by
        show (st0.stop || _) = false
        rw [hstop, Bool.false_or, List.any_eq_false]
        intro i hi
        obtain ⟨s, hsrc⟩ := ho (st0.calls + i) (by have := List.mem_range.mp hi; rw [hI.calls]; omega)
        simp [dead, hsrc], hcount, by
        show r ≤ st0.calls + (r - before f b) + 1
        rw [hI.calls]; omega⟩ c
    unfold call
    rw [hstuck _ this]

/-! ### Rejected parameters -/

/-- A first window that the rounds of an oversampled decision do not fill exactly. -/
theorem call_over_first (f : Est N P M L) (hos : 0 < f.os) (h3 : ¬ f.os ∣ f.K3) (src : ℕ → Res (Fin M → ℝ))
    (ho : ∀ i, ∃ s, src i = .ok s) : call (f.next src) f.init 0 = .error .exception := by
  have h1 : f.K3 / f.os * f.os < f.K3 := by
    refine lt_of_le_of_ne (Nat.div_mul_le_self _ _) fun h => h3 ?_
    exact ⟨f.K3 / f.os, by rw [Nat.mul_comm]; exact h.symm⟩
  have h2 : f.K3 < (f.K3 / f.os + 1) * f.os := by
    rw [Nat.mul_comm]
    exact Nat.lt_mul_div_succ _ hos
  have hq : f.K3 / f.os < f.K3 + 1 := Nat.lt_succ_of_le (Nat.div_le_self _ _)
  obtain ⟨cs, h⟩ := fill_over f src hos (f.K3 / f.os) (f.K3 + 1) f.init hq (by show 0 + _ < _; omega)
    (by show _ < 0 + _; omega) (fun i _ => Or.inr (ho _))
  show (f.next src f.init).1 = _
  rw [Est.next, Est.nextFuel, if_neg (by show ¬ f.K1 < f.K1; omega), if_neg (by show ¬ (false = true); simp), h]

/-- The same for the second window. -/
theorem call_over_second (f : Est N P M L) (hos : 0 < f.os) (hK1 : 0 < f.K1) (hPN : P = N) (h3 : f.os ∣ f.K3)
    (h4 : ¬ f.os ∣ f.K1) (src : ℕ → Res (Fin M → ℝ)) (ho : ∀ i, ∃ s, src i = .ok s) :
    call (f.next src) f.init f.K1 = .error .exception := by
  have hI := inv_init f src
  have hfl := reads_first f hos hK1 h3 src f.init hI (fun i _ => Or.inr (ho i))
  obtain ⟨st', e1, -, hI1⟩ := next_batch f hK1 hPN src 0 f.init hI rfl hfl
  have hst := stateAfter_batch f src _ st' e1 f.K1 hK1 le_rfl
  show (f.next src (stateAfter (f.next src) f.init f.K1)).1 = _
  rw [hst]
  obtain ⟨st1, hst1⟩ : ∃ st1, st1 = At st' f.K1 := ⟨_, rfl⟩
  rw [← hst1] at hI1 ⊢
  have hc : st1.count = f.K2 := by rw [hI1.count, if_neg (by omega)]
  have hstop : st1.stop = false := by
    rw [hI1.stop, List.any_eq_false]
    intro i _
    obtain ⟨s, hsrc⟩ := ho i
    simp [dead, hsrc]
  have h1 : f.K1 / f.os * f.os < f.K1 := by
    refine lt_of_le_of_ne (Nat.div_mul_le_self _ _) fun h => h4 ?_
    exact ⟨f.K1 / f.os, by rw [Nat.mul_comm]; exact h.symm⟩
  have h2 : f.K1 < (f.K1 / f.os + 1) * f.os := by
    rw [Nat.mul_comm]
    exact Nat.lt_mul_div_succ _ hos
  have hq : f.K1 / f.os < f.K3 + 1 := by
    have := Nat.div_le_self f.K1 f.os
    unfold Est.K3
    omega
  obtain ⟨cs, h⟩ := fill_over f src hos (f.K1 / f.os) (f.K3 + 1) st1 hq (by rw [hc]; unfold Est.K3; omega)
    (by rw [hc]; unfold Est.K3; omega) (fun i _ => Or.inr (ho _))
  rw [Est.next, Est.nextFuel, if_neg (by rw [hI1.pointer]; omega), hstop, if_neg (by simp), h]

theorem solve_shape (f : Est N P M L) (h : P ≠ N) (n : ℕ) (st : State N P M L) : f.solve n st = .error .valueError := by
  induction n with
  | zero => rw [Est.solve, Est.mbf, dif_neg h]
  | succ n ih => rw [Est.solve, ih]

/-- A control observation of the wrong size. -/
theorem call_shape (f : Est N P M L) (hos : 0 < f.os) (hK1 : 0 < f.K1) (h3 : f.os ∣ f.K3) (hPN : P ≠ N)
    (src : ℕ → Res (Fin M → ℝ)) (ho : ∀ i, ∃ s, src i = .ok s) (n : ℕ) :
    call (f.next src) f.init n = .error (if n = 0 then .valueError else .exception) := by
  have hI := inv_init f src
  obtain ⟨st2, hfill, hcount, -, hstop, hptr, -⟩ := reads_first f hos hK1 h3 src f.init hI (fun i _ => Or.inr (ho i))
  have hstop : st2.stop = false := by
    rw [hstop, List.any_eq_false]
    intro i _
    obtain ⟨s, hsrc⟩ := ho i
    simp [dead, hsrc]
  have hb : f.computeBatch (reset st2) = .error .valueError := by
    unfold Est.computeBatch
    rw [if_neg (by show ¬ st2.count < _; omega), solve_shape f hPN]
  have hfirst : f.next src f.init = (.error .valueError, st2) := by
    rw [Est.next, Est.nextFuel, if_neg (by show ¬ f.K1 < f.K1; omega), if_neg (by show ¬ (false = true); simp), hfill]
    dsimp only
    rw [hb]
  rcases n with _ | n
  · show (f.next src f.init).1 = _
    rw [hfirst]
    rfl
  · rw [show n + 1 = 1 + n by omega, call_add, if_neg (by omega)]
    show call _ (f.next src f.init).2 n = _
    rw [hfirst]
    have hstuck : ∀ st : State N P M L, (st.pointer = f.K1 ∧ st.stop = false ∧ st.count = f.K3) →
        ∃ st', f.next src st = (.error .exception, st') ∧ st'.pointer = f.K1 ∧ st'.stop = false ∧ st'.count = f.K3 := by
      rintro st ⟨g1, g2, g3⟩
      obtain ⟨s, hsrc⟩ := ho st.calls
      obtain ⟨cs, hin⟩ := inputs_over f (smp src st.calls) f.os (read src st) (by show st.count ≤ _; omega)
        (by show _ < st.count + _; omega)
      have hf := fill_step f src f.K3 st (Or.inr ⟨s, hsrc⟩) hin
      refine ⟨{ read src st with cs := cs, count := f.K3 }, ?_, ?_, ?_, ?_⟩
      · rw [Est.next, Est.nextFuel, if_neg (by omega), g2, if_neg (by simp), hf]
      · exact g1
      · show (st.stop || dead src st.calls) = false
        rw [g2]
        simp [dead, hsrc]
      · rfl
    have := stateAfter_stuck (f.next src) (fun st => st.pointer = f.K1 ∧ st.stop = false ∧ st.count = f.K3)
      (fun st h => by
        obtain ⟨st', h1, h2⟩ := hstuck st h
        rw [h1]
        exact h2) st2 ⟨hptr, hstop, hcount⟩ n
    obtain ⟨st', h1, -⟩ := hstuck _ this
    unfold call
    rw [h1]

end Cbadc.Nuv
