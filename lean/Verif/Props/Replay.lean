import Verif.Lemmas.Replay
import Verif.Props.Estimator
import Verif.Props.Mirror

/-! # C165: a conversion recorded to files and estimated later -/

namespace Cbadc.Replay
open Cbadc.Bytes Cbadc.Estimator Cbadc.Streams Cbadc.Spec

/-! ### What comes back from storage -/

section
variable {K : Type*} [CommRing K] [LinearOrder K] [IsStrictOrderedRing K] {M : ℕ}

/-- **C165** One file: the estimators are given every recorded control vector, in order; the read beyond the last one raises
`struct.error`, all further ones `StopIteration`. -/
theorem C165_file (hM : M ≤ 128) (s : ℕ → Fin M → K) (n : ℕ) (fin : Exc) (hs : Storable s n) :
    (source M (decodeStream M (readFiles M [writeFile (encodeStream M (recording s n fin))])) : ℕ → Res (Fin M → K)) =
      ending s n .structError := by
  rw [C04_single_file_partial M hM, encode_recording hM s n fin hs]
  exact source_ending s n fin _ hs n le_rfl

/-- **C165** Several files of `wpf` words: only the vectors of the first file are delivered. -/
theorem C165_files (hM : M ≤ 128) (wpf : ℕ) (hw : 1 ≤ wpf) (s : ℕ → Fin M → K) (n : ℕ) (fin : Exc) (hs : Storable s n) :
    (source M (decodeStream M (readFiles M (writeFiles wpf (encodeStream M (recording s n fin))))) : ℕ → Res (Fin M → K)) =
      ending s (min wpf n) .structError := by
  rw [C04_files_partial M hM wpf hw, encode_recording hM s n fin hs, ← List.map_take, List.take_take]
  exact source_ending s n fin _ hs _ (min_le_right _ _)

/-- **C165** Over http, from one address or from any number of files of `wpf` words: every recorded control vector is
delivered, in order, across the files; the read beyond the last one raises `RuntimeError`, all further ones
`StopIteration`. -/
theorem C165_url (hM : M ≤ 128) (wpf : ℕ) (s : ℕ → Fin M → K) (n : ℕ) (fin : Exc) (hs : Storable s n) :
    (source M (decodeStream M (readUrls M (writeFiles wpf (encodeStream M (recording s n fin))))) : ℕ → Res (Fin M → K)) =
      ending s n .runtimeError ∧
    (source M (decodeStream M (readUrls M [writeFile (encodeStream M (recording s n fin))])) : ℕ → Res (Fin M → K)) =
      ending s n .runtimeError := by
  have h1 := decode_urls M hM wpf (recording s n fin)
  refine ⟨?_, ?_⟩
  · rw [h1, encode_recording hM s n fin hs]
    exact source_ending s n fin _ hs n le_rfl
  · have e : decodeStream M (readUrls M [writeFile (encodeStream M (recording s n fin))]) =
        decodeStream M (readUrls M (writeFiles wpf (encodeStream M (recording s n fin)))) := by
      obtain ⟨f, hf⟩ := selector_ok M hM
      have hl := encodeStream_word_length M f hf (recording s n fin)
      have hg := writeFilesGo_chunks f.nbytes wpf (selector_nbytes_pos M f hf) _ hl 0 [] (by simp)
      simp only [List.flatten_nil, List.nil_append] at hg
      rw [C03_single_file]
      simp only [readUrls, hf, writeFiles, List.flatMap_cons, List.flatMap_nil, List.append_nil]
      rw [chunks_flatten _ (selector_nbytes_pos M f hf) _ hl, hg]
    rw [e, h1, encode_recording hM s n fin hs]
    exact source_ending s n fin _ hs n le_rfl

end

/-! ### What the estimators make of it -/

section
variable {K : Type*} [CommRing K] {N M L : ℕ}

/-- **C165** Whatever the settings, the results of an estimator that reads the recording are those of the estimator on the
live signal as long as not more than the recorded vectors have been read. -/
theorem C165_reads (s : ℕ → Fin M → K) (n : ℕ) (e : Exc) (k : ℕ) :
    (∀ (f : FIR K M L) st, (stateAfter (f.next (live s)) st k).calls ≤ n →
      ∀ i < k, call (f.next (ending s n e)) st i = call (f.next (live s)) st i) ∧
    (∀ (f : IIR K N M L) st, (stateAfter (f.next (live s)) st k).calls ≤ n →
      ∀ i < k, call (f.next (ending s n e)) st i = call (f.next (live s)) st i) ∧
    (∀ (f : Batch K N M L) st, (stateAfter (f.next (live s)) st k).calls ≤ n →
      ∀ i < k, call (f.next (ending s n e)) st i = call (f.next (live s)) st i) :=
  ⟨fun f st h => ((fir_reader f).first (live s) (ending s n e) st k fun _ hi => ending_lt s n e (hi.trans_le h)).2,
    fun f st h => ((iir_reader f).first (live s) (ending s n e) st k fun _ hi => ending_lt s n e (hi.trans_le h)).2,
    fun f st h => ((batch_reader f).first (live s) (ending s n e) st k fun _ hi => ending_lt s n e (hi.trans_le h)).2⟩

/-- **C165** (FIR) With `n` recorded vectors and down-sampling `ds`: the first `n / ds` results are those on the live signal,
the next call raises the exception of the source (`StopIteration` for `RuntimeError`), and every later one `StopIteration`. -/
theorem C165_fir (f : FIR K M L) (h1 : 1 ≤ f.ds) (h2 : f.ds ≤ f.K1 + f.K2) (s : ℕ → Fin M → K) (n : ℕ) (e : Exc) :
    (∀ k < n / f.ds, call (f.next (ending s n e)) FIRState.init k = call (f.next (live s)) FIRState.init k) ∧
    ((f.limit = 0 ∨ n + f.ds ≤ f.limit) →
      call (f.next (ending s n e)) FIRState.init (n / f.ds) = .error (relayed e) ∧
      ∀ k, n / f.ds < k → call (f.next (ending s n e)) FIRState.init k = .error .stopIteration) := by
  have hdm := Nat.div_add_mod n f.ds
  have hml := Nat.mod_lt n (show f.ds > 0 by omega)
  refine ⟨fun k hk => (C165_reads (N := 0) s n e (k + 1)).1 f _ ?_ k (Nat.lt_succ_self k), fun hlim => ?_⟩
  · refine (fir_reads_le f (live s) (k + 1)).trans ?_
    have := Nat.mul_le_mul_left f.ds (show k + 1 ≤ n / f.ds by omega)
    omega
  · have hmul : f.ds * (n / f.ds + 1) = f.ds * (n / f.ds) + f.ds := by ring
    obtain ⟨g1, g2⟩ := fir_meets f h2 s n e (n / f.ds) (by omega) (by omega) (by omega)
    refine ⟨g1, fun k hk => ?_⟩
    have := dead_after (f.next (ending s n e)) (fun st => n < st.calls) (fun st h => fir_dead f h1 s n e st h) FIRState.init
      (n / f.ds + 1) g2 (k - (n / f.ds + 1))
    rwa [show n / f.ds + 1 + (k - (n / f.ds + 1)) = k by omega] at this

variable [LinearOrder K]

/-- **C165** (IIR) The calls `k` with `ds k < n` give the result on the live signal, the next one raises the exception of the
source (`StopIteration` for `RuntimeError`), and every later one `StopIteration`. -/
theorem C165_iir (c : Coeffs K N M L) (K2 : ℕ) (eta2 : K) (ds limit : ℕ) (f : IIR K N M L)
    (hf : IIR.new c K2 eta2 ds limit = .ok f) (hK2 : 1 ≤ K2) (hds : 1 ≤ ds) (s : ℕ → Fin M → K) (n : ℕ) (e : Exc)
    (hlim : limit = 0 ∨ n + 1 ≤ limit) :
    (∀ k, ds * k < n → call (f.next (ending s n e)) IIRState.init k = call (f.next (live s)) IIRState.init k) ∧
    ∀ k, n ≤ ds * k → (k ≠ 0 → ds * (k - 1) < n) →
      call (f.next (ending s n e)) IIRState.init k = .error (relayed e) ∧
      ∀ j, k < j → call (f.next (ending s n e)) IIRState.init j = .error .stopIteration := by
  refine ⟨fun k hk => ?_, fun k h2 h1 => ?_⟩
  · have hm : ((ds * k : ℕ) : ℤ) + 1 - K2 ≤ (ds * k + 1 : ℕ) := by push_cast; omega
    rw [C33_iir_estimate c K2 eta2 ds limit f hf hK2 hds (ending s n e) s k (ds * k + 1) hm (by omega)
        (fun j hj => ending_lt s n e (by omega)),
      C33_iir_estimate c K2 eta2 ds limit f hf hK2 hds (live s) s k (ds * k + 1) hm (by omega) (fun j _ => rfl)]
  · obtain rfl := iir_new_ok hf
    obtain ⟨g1, g2⟩ := iir_meets (⟨c, K2, ds, limit, (iirLookahead c K2).1⟩ : IIR K N M L) rfl s (show K2 ≠ 0 by omega)
      (show ds ≠ 0 by omega) n k e hlim (by
        cases k with
        | zero => simp [iirPasses]
        | succ k => simp only [iirPasses]; have := h1 (by omega); simpa using this) h2
    refine ⟨g1, fun j hj => ?_⟩
    have := dead_after _ (fun st : IIRState K N M => n < st.calls) (fun st h => iir_dead _ s n e st h) IIRState.init
      (k + 1) g2 (j - (k + 1))
    rwa [show k + 1 + (j - (k + 1)) = j by omega] at this

/-- the complete batches of a recording -/
theorem batch_complete (c : Coeffs K N M L) (K1 K2 : ℕ) (eta2 : K) (ds : ℤ) (limit : ℕ) (f : Batch K N M L)
    (hf : Batch.new c K1 K2 eta2 ds limit = .ok f) (s : ℕ → Fin M → K) (n b : ℕ) (e : Exc) (hlim : b * (K1 + 1) ≤ limit)
    (h1 : b = 0 ∨ b * K1 + K2 ≤ n) (k : ℕ) (hk : k < b * K1) :
    call (f.next (ending s n e)) f.init k = call (f.next (live s)) f.init k := by
  obtain ⟨hK1, -⟩ := batch_new_ok hf
  have hexp : b * (K1 + 1) = b * K1 + b := by ring
  have hdiv : k / K1 + 1 ≤ b := by
    have := (Nat.div_lt_iff_lt_mul hK1).2 hk
    omega
  have hb : b ≠ 0 := by rintro rfl; simp at hk
  have hm := Nat.mul_le_mul_right K1 hdiv
  have e1 : (k / K1 + 1) * K1 = k / K1 * K1 + K1 := by ring
  rw [C32_batch_estimate c K1 K2 eta2 ds limit f hf (ending s n e) s k (by omega) (fun j hj => ending_lt s n e (by omega)),
    C32_batch_estimate c K1 K2 eta2 ds limit f hf (live s) s k (by omega) (fun j _ => rfl)]

/-- **C165** (batch, a file) `b` is the first batch that is not complete in the recording: the `b K1` estimates of the batches
before it are those on the live signal, the next call raises the exception of the source, and every later one
`StopIteration`; the vectors of the incomplete batch are not used. -/
theorem C165_batch_file (c : Coeffs K N M L) (K1 K2 : ℕ) (eta2 : K) (ds : ℤ) (limit : ℕ) (f : Batch K N M L)
    (hf : Batch.new c K1 K2 eta2 ds limit = .ok f) (s : ℕ → Fin M → K) (n b : ℕ) (e : Exc) (he : e ≠ .runtimeError)
    (hlim : b * (K1 + 1) ≤ limit) (h1 : b = 0 ∨ b * K1 + K2 ≤ n) (h2 : n < b * K1 + (K1 + K2)) :
    (∀ k < b * K1, call (f.next (ending s n e)) f.init k = call (f.next (live s)) f.init k) ∧
    call (f.next (ending s n e)) f.init (b * K1) = .error e ∧
    ∀ k, b * K1 < k → call (f.next (ending s n e)) f.init k = .error .stopIteration := by
  refine ⟨batch_complete c K1 K2 eta2 ds limit f hf s n b e hlim h1, ?_⟩
  obtain ⟨hK1, rfl⟩ := batch_new_ok hf
  obtain ⟨g1, g2⟩ := batch_meets (⟨c, K1, K2, limit⟩ : Batch K N M L) s n b e e hK1 hlim h1 h2 (.inl ⟨he, rfl⟩)
  refine ⟨g1, fun k hk => ?_⟩
  have := dead_after _ _ (fun st h => batch_dead _ s n e st h) _ (b * K1 + 1) g2 (k - (b * K1 + 1))
  rwa [show b * K1 + 1 + (k - (b * K1 + 1)) = k by omega] at this

/-- **C165** (batch, a generator of this package) The source raises `RuntimeError` once and is finished.  If more than one vector
is missing in the first incomplete batch `b`, the `b K1` estimates before it are those on the live signal and every later
call raises `StopIteration`.  If exactly one is missing, the batch is completed by a zero vector and its `K1` estimates are
delivered as well. -/
theorem C165_batch_generator (c : Coeffs K N M L) (K1 K2 : ℕ) (eta2 : K) (ds : ℤ) (limit : ℕ) (f : Batch K N M L)
    (hf : Batch.new c K1 K2 eta2 ds limit = .ok f) (s : ℕ → Fin M → K) (n b : ℕ)
    (hlim : (b + 1) * (K1 + 1) ≤ limit) (h1 : b = 0 ∨ b * K1 + K2 ≤ n) (h2 : n < b * K1 + (K1 + K2)) :
    (∀ k < b * K1, call (f.next (ending s n .runtimeError)) f.init k = call (f.next (live s)) f.init k) ∧
    (n + 1 < b * K1 + (K1 + K2) →
      ∀ k, b * K1 ≤ k → call (f.next (ending s n .runtimeError)) f.init k = .error .stopIteration) ∧
    (n + 1 = b * K1 + (K1 + K2) →
      (∀ k, b * K1 ≤ k → k < (b + 1) * K1 → call (f.next (ending s n .runtimeError)) f.init k =
        call (f.next (live fun j => if j < n then s j else 0)) f.init k) ∧
      ∀ k, (b + 1) * K1 ≤ k → call (f.next (ending s n .runtimeError)) f.init k = .error .stopIteration) := by
  have hexp : (b + 1) * (K1 + 1) = b * (K1 + 1) + (K1 + 1) := by ring
  have hexp2 : b * (K1 + 1) = b * K1 + b := by ring
  have hexp3 : (b + 1) * K1 = b * K1 + K1 := by ring
  refine ⟨batch_complete c K1 K2 eta2 ds limit f hf s n b _ (by omega) h1, fun h3 k hk => ?_, fun h3 => ?_⟩
  · obtain ⟨hK1, rfl⟩ := batch_new_ok hf
    obtain ⟨g1, g2⟩ := batch_meets (⟨c, K1, K2, limit⟩ : Batch K N M L) s n b .runtimeError .stopIteration hK1
      (show b * (K1 + 1) ≤ limit by omega) h1 h2 (.inr ⟨rfl, rfl, h3⟩)
    rcases Nat.eq_or_lt_of_le hk with rfl | hlt
    · exact g1
    · have := dead_after _ _ (fun st h => batch_dead _ s n .runtimeError st h) _ (b * K1 + 1) g2 (k - (b * K1 + 1))
      rwa [show b * K1 + 1 + (k - (b * K1 + 1)) = k by omega] at this
  · have hall := C38_batch_end_partial c K1 K2 eta2 ds limit f hf (ending s n .runtimeError) s n b hlim
      (fun j hj => ending_lt s n _ hj) (fun j hj hj' => by rw [show j = n by omega]; exact ending_at s n _) h1 h2
    refine ⟨fun k hk hk' => ?_, fun k hk => ?_⟩
    · obtain ⟨hK1, -⟩ := batch_new_ok hf
      have hq : k / K1 ≤ b := by
        have := (Nat.div_lt_iff_lt_mul hK1).2 hk'
        omega
      rw [hall k, if_pos hk', C32_batch_estimate c K1 K2 eta2 ds limit f hf (live fun j => if j < n then s j else 0)
        (fun j => if j < n then s j else 0) k (by omega) (fun j _ => rfl)]
    · rw [hall k, if_neg (by omega)]

end

/-- **C165** (parallel) On a recording of zeros and ones the parallel estimator gives what the batch estimator gives,
exceptions included. -/
theorem C165_parallel {N M L : ℕ} (c : Coeffs ℝ N M L) (ef eb : Eig N) (K1 K2 : ℕ) (eta2 : ℝ) (ds : ℤ)
    (limit : ℕ) (p : Parallel N M L) (b : Batch ℝ N M L)
    (hp : Parallel.new c ef eb K1 K2 eta2 ds limit = .ok p) (hb : Batch.new c K1 K2 eta2 ds limit = .ok b)
    (hef : ef.Valid c.Af) (heb : eb.Valid c.Ab) (s : ℕ → Fin M → ℝ) (n : ℕ) (hs : Storable s n) (e : Exc) (k : ℕ) :
    call (p.next (ending s n e)) p.init k = call (b.next (ending s n e)) b.init k := by
  refine C34_parallel_eq_batch c ef eb K1 K2 eta2 ds limit p b hp hb hef heb _ (fun j v hv m => ?_) k
  unfold ending at hv
  split_ifs at hv with h1
  obtain rfl := Except.ok.inj hv
  exact (hs j h1 m).imp id And.left

/-! ### Recording a converter -/

open Cbadc.Simulate Cbadc.Control in
/-- the control signal of a simulation consists of zeros and ones -/
theorem run_binary {M : ℕ} {c : Cfg M} {s : ℕ → St M} {φ : ℕ → ℝ → ℕ → ℝ} (hr : Run c s φ) (h0 : (s 0).c = State.init) (k : ℕ) (m : Fin M) :
    signal (s k).c m = 0 ∨ signal (s k).c m = 1 := by
  induction k with
  | zero => rw [h0]; exact .inl rfl
  | succ k ih =>
    obtain ⟨y, -, -, h3⟩ := (decide_ok _ _ _).mp (hr k).dec
    rw [h3]
    unfold signal update
    dsimp only
    split_ifs
    · exact .inr rfl
    · exact .inl rfl
    · exact ih

open Cbadc.Simulate Cbadc.Control in
/-- **C165** Any simulation of a converter with up to 15, or 17 to 31, controls, recorded for any number of periods, comes back
from storage: from a file, and over http also across files. -/
theorem C165_converter {M : ℕ} (hM : M ≤ 15 ∨ (17 ≤ M ∧ M ≤ 31)) {c : Cfg M} {s : ℕ → St M} {φ : ℕ → ℝ → ℕ → ℝ} (hr : Run c s φ)
    (h0 : (s 0).c = State.init) (n wpf : ℕ) (fin : Exc) :
    let v : ℕ → Fin M → ℝ := fun k => signal (s (k + 1)).c
    Storable v n ∧
    (source M (decodeStream M (readFiles M [writeFile (encodeStream M (recording v n fin))])) : ℕ → Res (Fin M → ℝ)) =
      ending v n .structError ∧
    (source M (decodeStream M (readUrls M (writeFiles wpf (encodeStream M (recording v n fin))))) : ℕ → Res (Fin M → ℝ)) =
      ending v n .runtimeError := by
  intro v
  have hv : Storable v n := by
    intro k _ m
    refine (run_binary hr h0 (k + 1) m).imp id fun h => ⟨h, ?_⟩
    have := m.2
    unfold capacity
    split_ifs <;> omega
  exact ⟨hv, C165_file (by omega) v n fin hv, (C165_url (by omega) wpf v n fin hv).1⟩

/-! ### Where the recording is not as good as the live signal -/

/-- **C165 is false** for a recording kept in several files: with files of one word, the second estimate of a FIR filter that
reads them raises `struct.error` although its vector has been recorded. -/
theorem C165_files_false :
    ∃ (f : FIR ℚ 1 1) (s : ℕ → Fin 1 → ℚ), FIR.new exCoeffs 1 1 1 false 1 0 none = .ok f ∧ Storable s 2 ∧
      call (f.next (source 1 (decodeStream 1 (readFiles 1 (writeFiles 1 (encodeStream 1 (recording s 2 .stopIteration)))))))
        FIRState.init 1 = .error .structError ∧
      ∃ v, call (f.next (live s)) FIRState.init 1 = .ok v := by
  have hs : Storable (fun k (_ : Fin 1) => if k % 2 = 0 then (1 : ℚ) else 0) 2 := by
    intro k _ m
    by_cases h : k % 2 = 0
    · right; exact ⟨if_pos h, by have := m.2; unfold capacity; simp⟩
    · left; exact if_neg h
  refine ⟨_, _, rfl, hs, ?_, ?_⟩
  · rw [C165_files (by norm_num) 1 le_rfl _ 2 _ hs]
    have := (C165_fir (⟨1, 1, 1, 0, firTaps exCoeffs 1 1, 0⟩ : FIR ℚ 1 1) le_rfl (by norm_num)
      (fun k (_ : Fin 1) => if k % 2 = 0 then (1 : ℚ) else 0) 1 .structError).2 (.inl rfl)
    exact this.1
  · exact ⟨_, C31_fir_estimate exCoeffs 1 1 1 false 1 0 none _ rfl (live _) _ 1 (by norm_num) (.inl rfl) (fun j _ => rfl)⟩

/-- **C165 is false** for the end of a recording in one file: the FIR filter does not end with `StopIteration`, as it does on
the same vectors fetched over http, but with `struct.error`. -/
theorem C165_end_false :
    ∃ (f : FIR ℚ 1 1) (s : ℕ → Fin 1 → ℚ), FIR.new exCoeffs 1 1 1 false 1 0 none = .ok f ∧ Storable s 2 ∧
      call (f.next (source 1 (decodeStream 1 (readFiles 1 [writeFile (encodeStream 1 (recording s 2 .stopIteration))]))))
        FIRState.init 2 = .error .structError ∧
      call (f.next (source 1 (decodeStream 1 (readUrls 1 [writeFile (encodeStream 1 (recording s 2 .stopIteration))]))))
        FIRState.init 2 = .error .stopIteration := by
  have hs : Storable (fun k (_ : Fin 1) => if k % 2 = 0 then (1 : ℚ) else 0) 2 := by
    intro k _ m
    by_cases h : k % 2 = 0
    · right; exact ⟨if_pos h, by have := m.2; unfold capacity; simp⟩
    · left; exact if_neg h
  have h := fun e => ((C165_fir (⟨1, 1, 1, 0, firTaps exCoeffs 1 1, 0⟩ : FIR ℚ 1 1) le_rfl (by norm_num)
      (fun k (_ : Fin 1) => if k % 2 = 0 then (1 : ℚ) else 0) 2 e).2 (.inl rfl)).1
  refine ⟨_, _, rfl, hs, ?_, ?_⟩
  · rw [C165_file (by norm_num) _ 2 _ hs]
    exact h .structError
  · rw [(C165_url (by norm_num) 1 _ 2 _ hs).2]
    exact h .runtimeError

/-! ### Examples -/

/-- `C165_file`, `C165_files`, `C165_url`: three vectors of two controls, kept in files of two words and fetched over http -/
example : Storable (fun k (m : Fin 2) => if (k + m.1) % 2 = 0 then (1 : ℚ) else 0) 3 ∧
    readUrls 2 (writeFiles 2 (encodeStream 2 (recording (fun k (m : Fin 2) => if (k + m.1) % 2 = 0 then (1 : ℚ) else 0) 3
      .stopIteration))) = ⟨[[1], [2], [1]], .runtimeError⟩ := by
  refine ⟨?_, by decide⟩
  intro k _ m
  by_cases h : (k + m.1) % 2 = 0
  · right; exact ⟨if_pos h, by have := m.2; unfold capacity; simp; omega⟩
  · left; exact if_neg h

/-- batches of 2 with look-ahead 1: the third batch (`b = 2`) needs 7 vectors; of 5 recorded vectors two are missing in it, of 6
exactly one -/
example (s : ℕ → Fin 1 → ℚ) : ∃ f, Batch.new exCoeffs 2 1 1 1 100 = .ok f ∧
    call (f.next (ending s 5 .runtimeError)) f.init 3 = call (f.next (live s)) f.init 3 ∧
    call (f.next (ending s 5 .runtimeError)) f.init 4 = .error .stopIteration ∧
    call (f.next (ending s 5 .structError)) f.init 4 = .error .structError ∧
    call (f.next (ending s 6 .runtimeError)) f.init 5 = call (f.next (live fun j => if j < 6 then s j else 0)) f.init 5 ∧
    call (f.next (ending s 6 .runtimeError)) f.init 6 = .error .stopIteration := by
  have g := C165_batch_generator exCoeffs 2 1 1 1 100 _ rfl s 5 2 (by norm_num) (.inr (by norm_num)) (by norm_num)
  have g' := C165_batch_generator exCoeffs 2 1 1 1 100 _ rfl s 6 2 (by norm_num) (.inr (by norm_num)) (by norm_num)
  have h := C165_batch_file exCoeffs 2 1 1 1 100 _ rfl s 5 2 .structError (by decide) (by norm_num) (.inr (by norm_num)) (by norm_num)
  exact ⟨_, rfl, g.1 3 (by norm_num), g.2.1 (by norm_num) 4 (by norm_num), h.2.1, (g'.2.2 (by norm_num)).1 5 (by norm_num) (by norm_num),
    (g'.2.2 (by norm_num)).2 6 (by norm_num)⟩

/-- every second estimate of an IIR filter from a recording of three vectors -/
example (s : ℕ → Fin 1 → ℚ) : ∃ f, IIR.new exCoeffs 2 1 2 0 = .ok f ∧
    call (f.next (ending s 3 .structError)) IIRState.init 1 = call (f.next (live s)) IIRState.init 1 ∧
    call (f.next (ending s 3 .structError)) IIRState.init 2 = .error .structError := by
  have h := C165_iir exCoeffs 2 1 2 0 _ rfl (by norm_num) (by norm_num) s 3 .structError (.inl rfl)
  exact ⟨_, rfl, h.1 1 (by norm_num), (h.2 2 (by norm_num) (by norm_num)).1⟩

open Cbadc.Simulate Cbadc.Control in
/-- `C165_converter`: there are simulations to record -/
example : ∃ s φ, (s 0).c = (State.init : State ℝ 1) ∧ Run (Mirror.exCfg (1 / 2)) s φ := by
  obtain ⟨s, φ, h0, hr⟩ := Mirror.ex_run (1 / 2) 0
  exact ⟨s, φ, by rw [h0], hr⟩

/-- `C165_fir`: every second estimate of a FIR filter from a recording of five vectors: two, then the exception of the
recording. -/
example (s : ℕ → Fin 1 → ℚ) : ∃ f, FIR.new exCoeffs 2 3 1 false 2 0 none = .ok f ∧
    call (f.next (ending s 5 .structError)) FIRState.init 1 = call (f.next (live s)) FIRState.init 1 ∧
    call (f.next (ending s 5 .structError)) FIRState.init 2 = .error (relayed .structError) :=
  ⟨_, rfl, (C165_fir _ (by decide) (by decide) s 5 .structError).1 1 (by decide),
    ((C165_fir _ (by decide) (by decide) s 5 .structError).2 (.inl rfl)).1⟩


end Cbadc.Replay
