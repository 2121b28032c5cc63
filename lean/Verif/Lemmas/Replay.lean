import Mathlib.Algebra.Order.Ring.Defs
import Mathlib.Data.List.OfFn
import Mathlib.Tactic.Ring
import Verif.Model.Replay
import Verif.Spec.Replay
import Verif.Props.Bytes
import Verif.Lemmas.Reuse

/-! # Reading back stored control signals; estimators whose source ends -/

namespace Cbadc.Replay
open Cbadc.Bytes Cbadc.Estimator Cbadc.Streams

theorem chunksGo_flatten (n : ℕ) (hn : 1 ≤ n) (ws : List (List ℕ)) (hw : ∀ w ∈ ws, w.length = n) :
    ∀ fuel, ws.length ≤ fuel → chunksGo n fuel ws.flatten = ws := by
  induction ws with
  | nil => intro fuel _; cases fuel <;> simp [chunksGo]
  | cons w ws ih =>
    intro fuel hf
    obtain ⟨k, rfl⟩ : ∃ k, fuel = k + 1 := ⟨fuel - 1, by simp at hf; omega⟩
    have h1 := hw w (by simp)
    have hne : ¬ (w :: ws).flatten = [] := by
      intro h
      have := congrArg List.length h
      simp at this
      rw [this.1] at h1
      simp at h1
      omega
    rw [chunksGo, if_neg hne, List.flatten_cons, ← h1, List.take_left, List.drop_left, h1,
      ih (fun v hv => hw v (by simp [hv])) k (by simp at hf; omega)]

theorem chunks_flatten (n : ℕ) (hn : 1 ≤ n) (ws : List (List ℕ)) (hw : ∀ w ∈ ws, w.length = n) :
    chunks n ws.flatten = ws :=
  chunksGo_flatten n hn ws hw _ (length_le_flatten n hn ws hw)

/-- files written word by word, read in pieces of the same size -/
theorem writeFilesGo_chunks (n wpf : ℕ) (hn : 1 ≤ n) (ws : List (List ℕ)) (hw : ∀ w ∈ ws, w.length = n) :
    ∀ (c : ℕ) (pre : List (List ℕ)), (∀ w ∈ pre, w.length = n) →
      (writeFilesGo wpf c pre.flatten ws).flatMap (chunks n) = pre ++ ws := by
  induction ws with
  | nil => intro c pre hp; simp [writeFilesGo, chunks_flatten n hn pre hp]
  | cons w ws ih =>
    intro c pre hp
    have hp' : ∀ v ∈ pre ++ [w], v.length = n := by
      intro v hv
      rcases List.mem_append.mp hv with h | h
      · exact hp v h
      · exact hw v (by simp at h; simp [h])
    have hws : ∀ v ∈ ws, v.length = n := fun v hv => hw v (by simp [hv])
    have e : pre.flatten ++ w = (pre ++ [w]).flatten := by simp
    rw [writeFilesGo, e]
    split_ifs
    · rw [ih hws _ _ hp']; simp
    · rw [List.flatMap_cons, chunks_flatten n hn _ hp']
      have := ih hws 0 [] (by simp)
      simp only [List.flatten_nil, List.nil_append] at this
      rw [this]; simp

theorem selector_ok (M : ℕ) (hM : M ≤ 128) : ∃ f, numberOfBytesSelector M = .ok f := by
  unfold numberOfBytesSelector
  split_ifs
  · exact ⟨_, rfl⟩
  · exact ⟨_, rfl⟩
  · exact ⟨_, rfl⟩
  · exact ⟨_, rfl⟩
  · omega

/-- decoding what the addresses deliver -/
theorem decode_urls {K : Type*} [Zero K] [LT K] [DecidableLT K] (M : ℕ) (hM : M ≤ 128) (wpf : ℕ) (src : Trace (List K)) :
    decodeStream M (readUrls M (writeFiles wpf (encodeStream M src))) =
      ⟨(src.items.take (encodeStream M src).items.length).map (Spec.bits M), .runtimeError⟩ := by
  obtain ⟨f, hf⟩ := selector_ok M hM
  have h := writeFilesGo_chunks f.nbytes wpf (selector_nbytes_pos M f hf) _ (encodeStream_word_length M f hf src) 0 []
    (by simp)
  simp only [List.flatten_nil, List.nil_append] at h
  simp only [decodeStream, readUrls, hf, writeFiles]
  rw [h, genMap_ok _ (decodeD M), map_decodeD_encoded]
  · rfl
  · intro w hw
    obtain ⟨s, hs⟩ := decodeWord_of_encoded M src w hw
    simp [decodeD, hs]

section
variable {K : Type*} [CommRing K] [LinearOrder K] [IsStrictOrderedRing K] {M : ℕ}

omit [IsStrictOrderedRing K] in
/-- every storable vector is written -/
theorem encode_recording (hM : M ≤ 128) (s : ℕ → Fin M → K) (n : ℕ) (fin : Exc) (hs : Storable s n) :
    (encodeStream M (recording s n fin)).items.length = n := by
  obtain ⟨f, hf⟩ := selector_ok M hM
  have h : ∀ v ∈ (recording s n fin).items, ∃ w, encodeWord M v = .ok w := by
    intro v hv
    obtain ⟨k, hk, rfl⟩ := List.mem_map.mp hv
    rw [C02_accept_iff_partial M hM _ (by simp)]
    intro j x hj hx h0
    rw [List.getElem?_ofFn] at hx
    rw [dif_pos hj] at hx
    obtain rfl := Option.some.inj hx
    rcases hs k (List.mem_range.mp hk) ⟨j, hj⟩ with h | h
    · rw [h] at h0; exact absurd h0 (lt_irrefl _)
    · exact h.2
  have : encodeStream M (recording s n fin) = genMap (encodeWord M) (recording s n fin).items (recording s n fin).fin := by
    simp only [encodeStream, hf]
  rw [this, genMap_ok _ (fun v => match encodeWord M v with | .ok w => w | .error _ => [])]
  · simp [recording]
  · intro v hv
    obtain ⟨w, hw⟩ := h v hv
    simp only [hw]

omit [IsStrictOrderedRing K] in
theorem bits_ofFn (v : Fin M → K) : Spec.bits M (List.ofFn v) = List.ofFn fun m => if 0 < v m then (1 : ℤ) else 0 := by
  have : (List.ofFn v).take M = List.ofFn v := List.take_of_length_le (by simp)
  rw [Spec.bits, this, List.map_ofFn]
  rfl

/-- the decoded words as a source of control vectors -/
theorem source_ending (s : ℕ → Fin M → K) (n : ℕ) (fin e : Exc) (hs : Storable s n) (d : ℕ) (hd : d ≤ n) :
    (source M ⟨(((recording s n fin).items.take d).map (Spec.bits M)), e⟩ : ℕ → Res (Fin M → K)) = ending s d e := by
  funext k
  unfold source ending
  have hlen : (((recording s n fin).items.take d).map (Spec.bits M)).length = d := by simp [recording, hd]
  dsimp only
  by_cases hk : k < d
  · have hget : (((recording s n fin).items.take d).map (Spec.bits M))[k]? = some (Spec.bits M (List.ofFn (s k))) := by
      rw [List.getElem?_map, List.getElem?_take_of_lt hk]
      simp [recording, List.getElem?_range (show k < n by omega)]
    rw [hget, if_pos hk, bits_ofFn]
    simp only [Except.ok.injEq]
    funext m
    rw [List.getD_eq_getElem?_getD, List.getElem?_ofFn, dif_pos m.2, Option.getD_some]
    rcases hs k (by omega) m with h | ⟨h, -⟩
    · rw [h, if_neg (lt_irrefl _), Int.cast_zero]
    · rw [h, if_pos zero_lt_one, Int.cast_one]
  · rw [List.getElem?_eq_none (by rw [hlen]; omega), if_neg hk]
    dsimp only
    rw [hlen]
end

/-! ### Estimators reading a source that ends -/

variable {K : Type*} [CommRing K] {N M L : ℕ}

omit [CommRing K] in
theorem ending_lt (s : ℕ → Fin M → K) (n : ℕ) (e : Exc) {k : ℕ} (h : k < n) : ending s n e k = .ok (s k) := if_pos h

omit [CommRing K] in
theorem ending_at (s : ℕ → Fin M → K) (n : ℕ) (e : Exc) : ending s n e n = .error e := by
  unfold ending; rw [if_neg (lt_irrefl n), if_pos rfl]

omit [CommRing K] in
theorem ending_gt (s : ℕ → Fin M → K) (n : ℕ) (e : Exc) {k : ℕ} (h : n < k) : ending s n e k = .error .stopIteration := by
  unfold ending; rw [if_neg (by omega), if_neg (by omega)]

theorem firPull_le (src : ℕ → Res (Fin M → K)) (start d : ℕ) : (firPull src start d).2 ≤ d := by
  induction d with
  | zero => simp [firPull]
  | succ d ih =>
    rw [firPull]
    split
    · next h => rw [h] at ih; exact le_trans ih (Nat.le_succ d)
    · next h => rw [h] at ih; split <;> exact Nat.succ_le_succ ih

theorem fir_reads_le (f : FIR K M L) (src : ℕ → Res (Fin M → K)) (k : ℕ) :
    (stateAfter (f.next src) FIRState.init k).calls ≤ f.ds * k := by
  induction k with
  | zero => simp [stateAfter, FIRState.init]
  | succ k ih =>
    have key : ∀ st : FIRState K M, (f.next src st).2.calls ≤ st.calls + f.ds := by
      intro st
      have hp := firPull_le src st.calls f.ds
      unfold FIR.next
      simp only
      split_ifs
      · exact Nat.le_add_right _ _
      all_goals (split <;> rename_i h <;> rw [h] at hp <;> exact Nat.add_le_add_left hp _)
    have := key (stateAfter (f.next src) FIRState.init k)
    have e : f.ds * (k + 1) = f.ds * k + f.ds := by ring
    simp only [stateAfter]
    omega

/-- a FIR filter whose source is used up -/
theorem fir_dead (f : FIR K M L) (hds : 1 ≤ f.ds) (s : ℕ → Fin M → K) (n : ℕ) (e : Exc) (st : FIRState K M) (h : n < st.calls) :
    (f.next (ending s n e) st).1 = .error .stopIteration ∧ n < (f.next (ending s n e) st).2.calls := by
  refine ⟨?_, lt_of_lt_of_le h ((fir_reader f).mono (ending s n e) st)⟩
  have hp := firPull_error (ending s n e) s st.calls f.ds 0 .stopIteration (by omega) (fun j hj => absurd hj (Nat.not_lt_zero j))
    (ending_gt s n e (by omega))
  unfold FIR.next
  simp only
  by_cases hl : f.limit ≠ 0 ∧ f.limit < st.iteration + f.ds
  · rw [if_pos hl]
  · rw [if_neg hl, hp]

theorem iir_dead (f : IIR K N M L) (s : ℕ → Fin M → K) (n : ℕ) (e : Exc) (st : IIRState K N M) (h : n < st.calls) :
    (f.next (ending s n e) st).1 = .error .stopIteration ∧ n < (f.next (ending s n e) st).2.calls := by
  refine ⟨?_, lt_of_lt_of_le h ((iir_reader f).mono (ending s n e) st)⟩
  have hp : ∃ st', f.pass (ending s n e) st = (.error .stopIteration, st') := by
    unfold IIR.pass
    simp only
    by_cases hl : f.limit ≠ 0 ∧ f.limit < st.iteration + 1
    · rw [if_pos hl]; exact ⟨_, rfl⟩
    · rw [if_neg hl, ending_gt s n e h]; exact ⟨_, rfl⟩
  obtain ⟨st', hp⟩ := hp
  unfold IIR.next
  simp only [IIR.nextFuel]
  rw [hp]

/-- an iterator that stays dead once it is dead -/
theorem dead_after {S W : Type*} (next : S → Res W × S) (P : S → Prop)
    (h : ∀ st, P st → (next st).1 = .error .stopIteration ∧ P (next st).2) (st : S) (k : ℕ) (hk : P (stateAfter next st k))
    (j : ℕ) : call next st (k + j) = .error .stopIteration := by
  have key : ∀ j, P (stateAfter next st (k + j)) := by
    intro j
    induction j with
    | zero => exact hk
    | succ j ih => exact (h _ ih).2
  exact (h _ (key j)).1

/-- the call of a FIR filter that meets the end of its source -/
theorem fir_meets (f : FIR K M L) (hds : f.ds ≤ f.K1 + f.K2) (s : ℕ → Fin M → K) (n : ℕ) (e : Exc) (k : ℕ)
    (hlim : f.limit = 0 ∨ f.ds * (k + 1) ≤ f.limit) (h1 : f.ds * k ≤ n) (h2 : n < f.ds * (k + 1)) :
    call (f.next (ending s n e)) FIRState.init k = .error (relayed e) ∧
      n < (stateAfter (f.next (ending s n e)) FIRState.init (k + 1)).calls := by
  have hmul : f.ds * (k + 1) = f.ds * k + f.ds := by ring
  obtain ⟨g1, g2, -, -⟩ := fir_stateAfter f (ending s n e) s FIRState.init hds k
    (by simp only [FIRState.init]; omega) (fun j hj => by
      simp only [FIRState.init, zero_add]; exact ending_lt s n e (by omega))
  simp only [FIRState.init, zero_add] at g1 g2
  have hp := firPull_error (ending s n e) s (stateAfter (f.next (ending s n e)) FIRState.init k).calls f.ds (n - f.ds * k)
    e (by omega) (fun j hj => by
      simp only [FIRState.init] at hj ⊢
      rw [g2]; exact ending_lt s n e (by omega))
    (by
      simp only [FIRState.init]
      rw [g2, show f.ds * k + (n - f.ds * k) = n by omega]; exact ending_at s n e)
  have hn : ¬ (f.limit ≠ 0 ∧ f.limit < (stateAfter (f.next (ending s n e)) FIRState.init k).iteration + f.ds) := by
    simp only [FIRState.init]
    rw [g1]; omega
  have hc : (stateAfter (f.next (ending s n e)) FIRState.init k).calls = f.ds * k := g2
  have key : ∃ st', f.next (ending s n e) (stateAfter (f.next (ending s n e)) FIRState.init k) = (.error (relayed e), st') ∧
      st'.calls = n + 1 := by
    rw [FIR.next]
    simp only
    rw [if_neg hn, hp]
    have hcalls : (stateAfter (f.next (ending s n e)) FIRState.init k).calls + (n - f.ds * k + 1) = n + 1 := by
      rw [hc]; omega
    cases e <;> exact ⟨_, rfl, hcalls⟩
  obtain ⟨st', k1, k2⟩ := key
  refine ⟨?_, ?_⟩
  · unfold call; rw [k1]
  · simp only [stateAfter]; rw [k1]; show n < st'.calls; omega

theorem iir_pass_meets (f : IIR K N M L) (src : ℕ → Res (Fin M → K)) (st : IIRState K N M) (e : Exc)
    (hlim : f.limit = 0 ∨ st.iteration + 1 ≤ f.limit) (h : src st.calls = .error e) :
    ∃ st', f.pass src st = (.error (relayed e), st') ∧ st'.calls = st.calls + 1 := by
  unfold IIR.pass
  simp only
  rw [if_neg (by omega), h]
  cases e <;> exact ⟨_, rfl, rfl⟩

theorem iir_nextFuel_meets (f : IIR K N M L) (hh : f.h = (iirLookahead f.c f.K2).1)
    (src : ℕ → Res (Fin M → K)) (s : ℕ → Fin M → K) (e : Exc) (hK : f.K2 ≠ 0) (hds : f.ds ≠ 0) (d : ℕ) :
    ∀ (fuel p : ℕ) (st : IIRState K N M), d < fuel → (f.limit = 0 ∨ p + d + 1 ≤ f.limit) →
      (∀ j < p + d, src j = .ok (s j)) → src (p + d) = .error e → IIRInv f s p st →
      (∀ j < d, (p + j) % f.ds ≠ 0) →
      ∃ st', f.nextFuel src fuel st = (.error (relayed e), st') ∧ st'.calls = p + d + 1 := by
  induction d with
  | zero =>
    intro fuel p st hf hlim hs hr hI _
    obtain ⟨fuel, rfl⟩ : ∃ k, fuel = k + 1 := ⟨fuel - 1, by omega⟩
    obtain ⟨st', h1, h2⟩ := iir_pass_meets f src st e (by rw [hI.iteration]; omega) (by rw [hI.calls]; exact hr)
    simp only [IIR.nextFuel]
    rw [h1]
    exact ⟨st', rfl, by rw [h2, hI.calls]⟩
  | succ d ih =>
    intro fuel p st hf hlim hs hr hI hd
    obtain ⟨fuel, rfl⟩ : ∃ k, fuel = k + 1 := ⟨fuel - 1, by omega⟩
    obtain ⟨st', h1, h2⟩ := iir_pass_ok f hh src s st p hK hds (by omega) (hs p (by omega)) hI
    rw [if_neg (by simpa using hd 0 (by omega))] at h1
    simp only [IIR.nextFuel, h1]
    obtain ⟨st2, g1, g2⟩ := ih fuel (p + 1) st' (by omega) (by omega) (fun j hj => hs j (by omega))
      (by rw [← hr]; congr 1; omega) h2 (fun j hj => by
        have := hd (j + 1) (by omega)
        rwa [show p + 1 + j = p + (j + 1) by omega])
    exact ⟨st2, g1, by omega⟩

/-- the call of an IIR filter that meets the end of its source -/
theorem iir_meets (f : IIR K N M L) (hh : f.h = (iirLookahead f.c f.K2).1) (s : ℕ → Fin M → K) (hK : f.K2 ≠ 0) (hds : f.ds ≠ 0)
    (n k : ℕ) (e : Exc) (hlim : f.limit = 0 ∨ n + 1 ≤ f.limit) (h1 : iirPasses f.ds k ≤ n) (h2 : n ≤ f.ds * k) :
    call (f.next (ending s n e)) IIRState.init k = .error (relayed e) ∧
      n < (stateAfter (f.next (ending s n e)) IIRState.init (k + 1)).calls := by
  have hI := iir_stateAfter f hh (ending s n e) s hK hds k (by omega) (fun j hj => ending_lt s n e (by omega))
  obtain ⟨st', g1, g2⟩ := iir_nextFuel_meets f hh (ending s n e) s e hK hds (n - iirPasses f.ds k) (f.ds + 1) (iirPasses f.ds k) _
    (by
      cases k with
      | zero => simp only [iirPasses] at h1 ⊢; omega
      | succ k =>
        simp only [iirPasses]
        have : f.ds * (k + 1) = f.ds * k + f.ds := by ring
        omega) (by omega)
    (fun j hj => ending_lt s n e (by omega))
    (by rw [show iirPasses f.ds k + (n - iirPasses f.ds k) = n by omega]; exact ending_at s n e) hI
    (by
      intro j hj
      cases k with
      | zero => simp only [iirPasses] at hj; omega
      | succ k =>
        simp only [iirPasses] at hj ⊢
        have : f.ds * (k + 1) = f.ds * k + f.ds := by ring
        rw [show f.ds * k + 1 + j = (1 + j) + f.ds * k by omega, Nat.add_mul_mod_self_left, Nat.mod_eq_of_lt (by omega)]
        omega)
  have g1' : f.next (ending s n e) (stateAfter (f.next (ending s n e)) IIRState.init k) = (.error (relayed e), st') := g1
  refine ⟨by unfold call; rw [g1'], ?_⟩
  simp only [stateAfter]
  rw [g1']
  show n < st'.calls
  omega

/-! Batch -/

/-- filling the buffer when the source raises something other than `RuntimeError` before it is full -/
theorem batch_fill_meets (f : Batch K N M L) (src : ℕ → Res (Fin M → K)) (e : Exc) (he : e ≠ .runtimeError) (d : ℕ) :
    ∀ (fuel : ℕ) (st : BatchState K N M L), d < fuel → st.inBuffer + d < f.K1 + f.K2 →
      (∀ j < d, src (st.calls + j) = .error .runtimeError ∨ ∃ v, src (st.calls + j) = .ok v) → src (st.calls + d) = .error e →
      ∃ st', f.fill src fuel st = (.error e, st') ∧ st'.calls = st.calls + d + 1 ∧ st'.inBuffer = st.inBuffer + d ∧
        st'.pointer = st.pointer := by
  induction d with
  | zero =>
    intro fuel st hf hb _ hr
    obtain ⟨fuel, rfl⟩ : ∃ k, fuel = k + 1 := ⟨fuel - 1, by omega⟩
    rw [Nat.add_zero] at hr
    refine ⟨{ st with calls := st.calls + 1 }, ?_, rfl, rfl, rfl⟩
    rw [Batch.fill, hr]
    cases e <;> first | rfl | exact absurd rfl he
  | succ d ih =>
    intro fuel st hf hb hs hr
    obtain ⟨fuel, rfl⟩ : ∃ k, fuel = k + 1 := ⟨fuel - 1, by omega⟩
    have hne : ¬ st.inBuffer = f.K1 + f.K2 := by omega
    have hnf : ¬ (decide (f.K1 + f.K2 - 1 < st.inBuffer + 1) = true) := by simp; omega
    have h0 := hs 0 (by omega)
    rw [Nat.add_zero] at h0
    have step : ∀ st1 : BatchState K N M L, st1.calls = st.calls + 1 → st1.inBuffer = st.inBuffer + 1 → st1.pointer = st.pointer →
        ∃ st', f.fill src fuel st1 = (.error e, st') ∧ st'.calls = st.calls + (d + 1) + 1 ∧
          st'.inBuffer = st.inBuffer + (d + 1) ∧ st'.pointer = st.pointer := by
      intro st1 e1 e2 e3
      obtain ⟨st', g1, g2, g3, g4⟩ := ih fuel st1 (by omega) (by omega)
        (fun j hj => by
          have := hs (j + 1) (by omega)
          rwa [e1, show st.calls + 1 + j = st.calls + (j + 1) by omega])
        (by rw [e1, show st.calls + 1 + d = st.calls + (d + 1) by omega]; exact hr)
      exact ⟨st', g1, by omega, by omega, by rw [g4, e3]⟩
    rcases h0 with h0 | ⟨v, h0⟩
    · simp only [Batch.fill, h0, Batch.input, if_neg hne]
      rw [if_neg hnf]
      exact step _ rfl rfl rfl
    · simp only [Batch.fill, h0, Batch.input, if_neg hne]
      rw [if_neg hnf]
      exact step _ rfl rfl rfl

/-- a batch estimator whose source is used up with an incomplete batch in the buffer -/
structure BatchDead (f : Batch K N M L) (n : ℕ) (st : BatchState K N M L) : Prop where
  pointer : st.pointer = f.K1
  inBuffer : st.inBuffer < f.K1 + f.K2
  calls : n < st.calls

theorem batch_dead (f : Batch K N M L) (s : ℕ → Fin M → K) (n : ℕ) (e : Exc) (st : BatchState K N M L) (h : BatchDead f n st) :
    (f.next (ending s n e) st).1 = .error .stopIteration ∧ BatchDead f n (f.next (ending s n e) st).2 := by
  obtain ⟨st', g1, g2, g3, g4⟩ := batch_fill_meets f (ending s n e) .stopIteration (by decide) 0 (f.K1 + f.K2 + 1)
    { st with iteration := st.iteration + 1 } (by omega) h.inBuffer (fun j hj => absurd hj (Nat.not_lt_zero j))
    (ending_gt s n e h.calls)
  have hc := h.calls
  have hb := h.inBuffer
  simp only [Batch.next, Batch.nextFuel]
  by_cases h1 : f.limit < st.iteration
  · rw [if_pos h1]; exact ⟨rfl, h⟩
  rw [if_neg h1, if_neg (by rw [h.pointer]; exact lt_irrefl _)]
  by_cases h2 : st.stop = true
  · rw [if_pos h2]; exact ⟨rfl, h.pointer, h.inBuffer, h.calls⟩
  · rw [if_neg h2, g1]
    refine ⟨rfl, ?_, ?_, ?_⟩
    · show st'.pointer = f.K1
      rw [g4]; exact h.pointer
    · show st'.inBuffer < _
      simp only at g3; omega
    · show n < st'.calls
      simp only at g2; omega

/-- the call of a batch estimator that meets the end of its source without the batch becoming full -/
theorem batch_meets (f : Batch K N M L) (s : ℕ → Fin M → K) (n b : ℕ) (e e' : Exc) (hK : 0 < f.K1)
    (hlim : b * (f.K1 + 1) ≤ f.limit)
    (h1 : b = 0 ∨ b * f.K1 + f.K2 ≤ n) (h2 : n < b * f.K1 + (f.K1 + f.K2))
    (he : (e ≠ .runtimeError ∧ e' = e) ∨ (e = .runtimeError ∧ e' = .stopIteration ∧ n + 1 < b * f.K1 + (f.K1 + f.K2))) :
    call (f.next (ending s n e)) f.init (b * f.K1) = .error e' ∧
      BatchDead f n (stateAfter (f.next (ending s n e)) f.init (b * f.K1 + 1)) := by
  have hexp : b * (f.K1 + 1) = b * f.K1 + b := by ring
  have hb0 : ∀ m < b * f.K1, m / f.K1 + 1 ≤ b := by
    intro m hm
    have := (Nat.div_lt_iff_lt_mul hK).2 hm
    omega
  have hAt := batch_stateAfter f (ending s n e) s hK (b * f.K1)
    (fun m hm => by
      have := hb0 m hm
      omega)
    (fun m hm j hj => ending_lt s n e (by
      have h := Nat.mul_le_mul_right f.K1 (hb0 m hm)
      have e : (m / f.K1 + 1) * f.K1 = m / f.K1 * f.K1 + f.K1 := by ring
      have hb : b ≠ 0 := by rintro rfl; simp at hm
      omega))
  rcases hAt with ⟨-, g2, g3, g4, g5⟩ | ⟨g1, -⟩
  swap
  · simp at g1
  rw [Nat.mul_div_cancel _ hK] at g2 g5
  set st := stateAfter (f.next (ending s n e)) f.init (b * f.K1) with hst
  have hcalls : st.calls ≤ n := by
    rw [g2.calls, g2.inBuffer]
    split_ifs with hb
    · subst hb; omega
    · omega
  have hcb := g2.calls
  have fill : ∃ st', f.fill (ending s n e) (f.K1 + f.K2 + 1) { st with iteration := st.iteration + 1 } = (.error e', st') ∧
      n < st'.calls ∧ st'.inBuffer < f.K1 + f.K2 ∧ st'.pointer = st.pointer := by
    rcases he with ⟨e1, rfl⟩ | ⟨rfl, rfl, h3⟩
    · obtain ⟨st', k1, k2, k3, k4⟩ := batch_fill_meets f (ending s n e') e' e1 (n - st.calls) (f.K1 + f.K2 + 1)
        { st with iteration := st.iteration + 1 } (by omega) (by simp only; omega)
        (fun j hj => .inr ⟨_, ending_lt s n e' (by simp only; omega)⟩)
        (by simp only; rw [show st.calls + (n - st.calls) = n by omega]; exact ending_at s n e')
      exact ⟨st', k1, by rw [k2]; simp only; omega, by rw [k3]; simp only; omega, k4⟩
    · obtain ⟨st', k1, k2, k3, k4⟩ := batch_fill_meets f (ending s n .runtimeError) .stopIteration (by decide) (n + 1 - st.calls)
        (f.K1 + f.K2 + 1) { st with iteration := st.iteration + 1 } (by omega) (by simp only; omega)
        (fun j hj => by
          simp only
          by_cases hj' : st.calls + j < n
          · exact .inr ⟨_, ending_lt s n _ hj'⟩
          · rw [show st.calls + j = n by omega]; exact .inl (ending_at s n _))
        (by simp only; rw [show st.calls + (n + 1 - st.calls) = n + 1 by omega]; exact ending_gt s n _ (by omega))
      exact ⟨st', k1, by rw [k2]; simp only; omega, by rw [k3]; simp only; omega, k4⟩
  obtain ⟨st', k1, k2, k3, k4⟩ := fill
  have hnext : f.next (ending s n e) st = (.error e', st') := by
    simp only [Batch.next, Batch.nextFuel]
    rw [if_neg (by omega), if_neg (by rw [g3]; exact lt_irrefl _), if_neg (by rw [g4]; simp), k1]
  refine ⟨?_, ?_⟩
  · unfold call; rw [← hst, hnext]
  · rw [show stateAfter (f.next (ending s n e)) f.init (b * f.K1 + 1) = (f.next (ending s n e) st).2 from rfl, hnext]
    exact ⟨by rw [k4, g3], k3, k2⟩

end Cbadc.Replay
