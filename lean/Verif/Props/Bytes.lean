import Verif.Lemmas.Bytes
import Verif.Spec.Bytes

/-! # C01-C04: byte-stream storage of control signals -/

namespace Cbadc.Bytes
open Cbadc.Spec

section
variable {K : Type*} [Zero K] [LT K] [DecidableLT K]

theorem encodeWord_cases (M : ℕ) (s : List K) (w : List ℕ) (h : encodeWord M s = .ok w) :
    ∃ f a, numberOfBytesSelector M = .ok f ∧ encSum s M = .ok a ∧ pack f a = .ok w := by
  unfold encodeWord at h
  cases hf : numberOfBytesSelector M with
  | error e => simp [hf] at h
  | ok f =>
    rw [hf] at h
    cases ha : encSum s M with
    | error e => simp [ha] at h
    | ok a =>
      rw [ha] at h
      exact ⟨f, a, rfl, rfl, h⟩

/-- **C01** (one word).  Whatever the encoder emits for a control vector decodes to that vector's bits. -/
theorem C01_word_roundtrip (M : ℕ) (s : List K) (w : List ℕ) (h : encodeWord M s = .ok w) :
    decodeWord M w = .ok (bits M s) := by
  obtain ⟨f, a, hf, ha, hp⟩ := encodeWord_cases M s w h
  have hlen := length_of_encSum_ok s M a ha
  simp only [decodeWord, hf, unpack_pack f a w hp, Except.ok.injEq]
  apply List.ext_getElem?
  intro j
  by_cases hj : j < M
  · obtain ⟨v, hv, hiff⟩ := encSum_testBit s M a ha j hj
    simp only [bits, List.getElem?_map, List.getElem?_range hj, List.getElem?_take_of_lt hj, hv,
      Option.map_some, land_one_shift]
    by_cases h0 : 0 < v
    · simp [h0, hiff.mpr h0]
    · have : a.testBit j = false := by
        cases hb : a.testBit j with
        | false => rfl
        | true => exact absurd (hiff.mp hb) h0
      simp [h0, this]
  · have h1 : ((List.range M).map fun (m : ℕ) => Int.land 1 ((a : ℤ) >>> m)).length ≤ j := by
      simp; omega
    have h2 : (bits M s).length ≤ j := by simp [bits]; omega
    rw [List.getElem?_eq_none h1, List.getElem?_eq_none h2]

example : encodeWord 10 [0, 1, 0, 0, 1, 1, 0, 1, 0, (1 : ℤ)] = .ok [178, 2] := by decide

/-- **C01** (streams).  Decoding an encoded stream returns the bits of exactly those control vectors for
which a word was emitted, in order, and ends the way the encoder ended. -/
theorem C01_stream_roundtrip (M : ℕ) (src : Trace (List K)) :
    decodeStream M (encodeStream M src) =
      ⟨(src.items.take (encodeStream M src).items.length).map (bits M), (encodeStream M src).fin⟩ := by
  unfold decodeStream encodeStream
  cases hf : numberOfBytesSelector M with
  | error e => simp
  | ok f =>
    simp only
    obtain ⟨items, fin⟩ := src
    simp only
    induction items with
    | nil => simp [genMap]
    | cons s items ih =>
      simp only [genMap]
      cases hs : encodeWord M s with
      | error e => simp [genMap]
      | ok w =>
        simp [genMap, C01_word_roundtrip M s w hs, ih]

end

/-- **C01** for 0/1 control vectors: a fully accepted stream comes back unchanged. -/
theorem C01_binary_identity (M : ℕ) (src : Trace (List ℤ)) (hb : ∀ s ∈ src.items, Binary M s)
    (hacc : (encodeStream M src).items.length = src.items.length) :
    (decodeStream M (encodeStream M src)).items = src.items := by
  rw [C01_stream_roundtrip, hacc]
  simp only [List.take_length]
  have : ∀ s ∈ src.items, bits M s = s := by
    intro s hs
    obtain ⟨hl, hv⟩ := hb s hs
    unfold bits
    rw [← hl, List.take_length]
    have : ∀ v ∈ s, (if 0 < v then (1 : ℤ) else 0) = v := by
      intro v hvs
      rcases hv v hvs with h | h <;> simp [h]
    rw [List.map_congr_left this]; simp
  rw [List.map_congr_left this]; simp

example : (∀ s ∈ [[0, 1, (1 : ℤ)], [1, 0, 0]], Binary 3 s) ∧
    (encodeStream 3 ⟨[[0, 1, (1 : ℤ)], [1, 0, 0]], .stopIteration⟩).items.length = 2 := by
  refine ⟨?_, by decide⟩
  intro s hs
  simp only [List.mem_cons, List.not_mem_nil, or_false] at hs
  rcases hs with rfl | rfl <;> refine ⟨rfl, ?_⟩ <;> intro v hv <;> simp at hv <;> omega

section
variable {K : Type*} [Zero K] [LT K] [DecidableLT K]

theorem pack_ok_iff (M : ℕ) (hM : M ≤ 128) (a : ℕ) (f : Fmt)
    (hf : numberOfBytesSelector M = .ok f) :
    (∃ w, pack f a = .ok w) ↔ a < 2 ^ capacity M := by
  have key : ∀ (c : ℕ) (l : List ℕ),
      (∃ w, (if a < c then Except.ok l else Except.error Exc.structError) = Except.ok w) ↔ a < c := by
    intro c l
    by_cases h : a < c <;> simp [h]
  unfold numberOfBytesSelector at hf
  unfold pack capacity
  split_ifs at hf with h1 h2 h3 h4 <;> simp only [Except.ok.injEq] at hf <;> subst hf
  · rw [if_pos (show M ≤ 8 by omega)]; exact key _ _
  · rw [if_neg (show ¬ M ≤ 8 by omega), if_pos (show M ≤ 16 by omega)]; exact key _ _
  · rw [if_neg (show ¬ M ≤ 8 by omega), if_neg (show ¬ M ≤ 16 by omega),
      if_pos (show M ≤ 64 by omega)]; exact key _ _
  · rw [if_neg (show ¬ M ≤ 8 by omega), if_neg (show ¬ M ≤ 16 by omega),
      if_neg (show ¬ M ≤ 64 by omega)]; exact key _ _

/-- **C02** exact characterisation: for a supported `M` a control vector is stored iff no control beyond the
usable bits of the word is active. -/
theorem C02_accept_iff_partial (M : ℕ) (hM : M ≤ 128) (s : List K) (hs : M ≤ s.length) :
    (∃ w, encodeWord M s = .ok w) ↔
      ∀ (j : ℕ) (v : K), j < M → s[j]? = some v → 0 < v → j < capacity M := by
  obtain ⟨f, hf⟩ : ∃ f, numberOfBytesSelector M = .ok f := by
    unfold numberOfBytesSelector; split_ifs
    · exact ⟨_, rfl⟩
    · exact ⟨_, rfl⟩
    · exact ⟨_, rfl⟩
    · exact ⟨_, rfl⟩
    · omega
  obtain ⟨a, ha⟩ := encSum_ok_of_length s M hs
  have hlt := encSum_lt s M a ha
  have : (∃ w, encodeWord M s = .ok w) ↔ ∃ w, pack f a = .ok w := by
    simp [encodeWord, hf, ha]
  rw [this, pack_ok_iff M hM a f hf, lt_two_pow_iff_testBit]
  constructor
  · intro h j v hj hv h0
    by_contra hc
    obtain ⟨v', hv', hiff⟩ := encSum_testBit s M a ha j hj
    rw [hv] at hv'
    simp only [Option.some.injEq] at hv'
    subst hv'
    have := h j (by omega)
    rw [hiff.mpr h0] at this
    cases this
  · intro h j hc
    by_cases hj : j < M
    · obtain ⟨v, hv, hiff⟩ := encSum_testBit s M a ha j hj
      cases hb : a.testBit j with
      | false => rfl
      | true => have := h j v hj hv (hiff.mp hb); omega
    · exact Nat.testBit_lt_two_pow (lt_of_lt_of_le hlt (Nat.pow_le_pow_right (by norm_num) (by omega)))

/-- **C02** holds for `M ≤ 15` and `17 ≤ M ≤ 31`: every control vector is stored.  What is missing for the
full property: `M = 16` and `32 ≤ M ≤ 128`, where it is false (`C02_false`). -/
theorem C02_total_partial (M : ℕ) (hM : M ≤ 15 ∨ (17 ≤ M ∧ M ≤ 31)) (s : List K)
    (hs : M ≤ s.length) : ∃ w, encodeWord M s = .ok w := by
  rw [C02_accept_iff_partial M (by omega) s hs]
  intro j v hj _ _
  unfold capacity
  split_ifs <;> omega

end

example : (17 ≤ 20 ∧ 20 ≤ 31) ∧ 20 ≤ (List.replicate 20 (1 : ℤ)).length := by decide

/-- **C02** is false: for every `M = 16` and every `32 ≤ M ≤ 128` the all-active 0/1 vector is rejected with
`struct.error`. -/
theorem C02_false (M : ℕ) (hM : M = 16 ∨ (32 ≤ M ∧ M ≤ 128)) :
    Binary M (List.replicate M 1) ∧ ¬ ∃ w, encodeWord M (List.replicate M (1 : ℤ)) = .ok w := by
  refine ⟨⟨by simp, fun v hv => Or.inr (List.eq_of_mem_replicate hv)⟩, ?_⟩
  rw [C02_accept_iff_partial M (by omega) _ (by simp)]
  intro h
  have := h (M - 1) 1 (by omega)
    (by rw [List.getElem?_replicate]; rw [if_pos (by omega)]) (by norm_num)
  unfold capacity at this
  split_ifs at this <;> omega

example : encodeWord 16 (List.replicate 16 (1 : ℤ)) = .error .structError := by decide

/-- **C03** `write_byte_stream_to_file` stores the concatenation of all words. -/
theorem C03_single_file (src : Trace (List ℕ)) : writeFile src = src.items.flatten := by
  simp [writeFile, foldl_append_eq]

/-- **C03** concatenating the files gives the stream: nothing lost, repeated or reordered. -/
theorem C03_files_concat (wpf : ℕ) (src : Trace (List ℕ)) :
    (writeFiles wpf src).flatten = src.items.flatten := by
  simp [writeFiles, writeFilesGo_flatten]

/-- **C03** the `i`-th file holds exactly the words `i*wpf, ..., (i+1)*wpf - 1` of the stream. -/
theorem C03_file_contents (wpf : ℕ) (hw : 1 ≤ wpf) (src : Trace (List ℕ)) (i : ℕ) :
    (writeFiles wpf src)[i]? =
      if i * wpf ≤ src.items.length then
        some (((src.items.drop (i * wpf)).take wpf).flatten) else none := by
  rw [writeFiles, writeFilesGo_chunk wpf 0 (by omega)]
  by_cases h : i = 0
  · subst h; simp
  · simp [h]

example : writeFiles 2 ⟨[[1], [2], [3], [4], [5]], .stopIteration⟩ = [[1, 2], [3, 4], [5]] := by decide

/-- words emitted by the encoder have the width of the format -/
theorem encodeStream_word_length {K : Type*} [Zero K] [LT K] [DecidableLT K] (M : ℕ) (f : Fmt)
    (hf : numberOfBytesSelector M = .ok f) (src : Trace (List K)) :
    ∀ w ∈ (encodeStream M src).items, w.length = f.nbytes := by
  unfold encodeStream
  rw [hf]
  simp only
  obtain ⟨items, fin⟩ := src
  simp only
  induction items with
  | nil => simp [genMap]
  | cons s items ih =>
    simp only [genMap]
    cases hs : encodeWord M s with
    | error e => simp
    | ok w =>
      intro v hv
      simp only [List.mem_cons] at hv
      rcases hv with rfl | hv
      · obtain ⟨f', a, hf', -, hp⟩ := encodeWord_cases M s _ hs
        rw [hf] at hf'
        simp only [Except.ok.injEq] at hf'
        subst hf'
        exact pack_length _ _ _ hp
      · exact ih v hv

/-- decoding the reader's output for files whose first one holds whole words -/
theorem decode_read_first (M : ℕ) (f : Fmt) (hf : numberOfBytesSelector M = .ok f)
    (ws : List (List ℕ)) (hw : ∀ w ∈ ws, w.length = f.nbytes) (rest : List (List ℕ))
    (g : List ℕ → List ℤ) (hg : ∀ w ∈ ws, decodeWord M w = .ok (g w)) :
    decodeStream M (readFiles M (ws.flatten :: rest)) = ⟨ws.map g, .structError⟩ := by
  have h1 := selector_nbytes_pos M f hf
  simp only [decodeStream, readFiles, hf, List.flatMap_cons]
  rw [readFile_flatten f.nbytes h1 ws hw, List.append_assoc, genMap_append_ok _ g _ _ _ hg]
  have h2 : decodeWord M [] = .error .structError := by
    simp only [decodeWord, hf, unpack, List.length_nil]
    rw [if_neg (by omega)]
  simp [genMap, h2, pep479]

theorem decodeWord_of_encoded {K : Type*} [Zero K] [LT K] [DecidableLT K] (M : ℕ)
    (src : Trace (List K)) : ∀ w ∈ (encodeStream M src).items, ∃ s : List K, decodeWord M w = .ok (bits M s) := by
  unfold encodeStream
  cases hf : numberOfBytesSelector M with
  | error e => simp
  | ok f =>
    simp only
    obtain ⟨items, fin⟩ := src
    simp only
    induction items with
    | nil => simp [genMap]
    | cons s items ih =>
      simp only [genMap]
      cases hs : encodeWord M s with
      | error e => simp
      | ok w =>
        intro v hv
        simp only [List.mem_cons] at hv
        rcases hv with rfl | hv
        · exact ⟨s, C01_word_roundtrip M s _ hs⟩
        · exact ih v hv

/-- the decoder's total function on words that decode -/
def decodeD (M : ℕ) (w : List ℕ) : List ℤ :=
  match decodeWord M w with
  | .ok l => l
  | .error _ => []

theorem map_decodeD_encoded {K : Type*} [Zero K] [LT K] [DecidableLT K] (M : ℕ)
    (src : Trace (List K)) :
    (encodeStream M src).items.map (decodeD M) =
      (src.items.take (encodeStream M src).items.length).map (bits M) := by
  unfold encodeStream
  cases hf : numberOfBytesSelector M with
  | error e => simp
  | ok f =>
    simp only
    obtain ⟨items, fin⟩ := src
    simp only
    induction items with
    | nil => simp [genMap]
    | cons s items ih =>
      simp only [genMap]
      cases hs : encodeWord M s with
      | error e => simp
      | ok w => simp [decodeD, C01_word_roundtrip M s _ hs, ih]

/-- **C04** (what does hold).  Reading back one file gives every stored control vector, in order -- but the
stream then ends with `struct.error`, not with the end-of-stream signal the estimators understand.  Missing
for the full property: a proper end of the stream, and any file after the first
(`C04_files_partial`, `C04_false`). -/
theorem C04_single_file_partial {K : Type*} [Zero K] [LT K] [DecidableLT K] (M : ℕ) (hM : M ≤ 128)
    (src : Trace (List K)) :
    decodeStream M (readFiles M [writeFile (encodeStream M src)]) =
      ⟨(src.items.take (encodeStream M src).items.length).map (bits M), .structError⟩ := by
  obtain ⟨f, hf⟩ : ∃ f, numberOfBytesSelector M = .ok f := by
    unfold numberOfBytesSelector; split_ifs
    · exact ⟨_, rfl⟩
    · exact ⟨_, rfl⟩
    · exact ⟨_, rfl⟩
    · exact ⟨_, rfl⟩
    · omega
  rw [C03_single_file, decode_read_first M f hf _ (encodeStream_word_length M f hf src) []
    (decodeD M), map_decodeD_encoded]
  intro w hw
  obtain ⟨s, hs⟩ := decodeWord_of_encoded M src w hw
  simp [decodeD, hs]

example : decodeStream 3 (readFiles 3 [writeFile (encodeStream 3
    ⟨[[0, 1, (1 : ℤ)], [1, 0, 0]], .stopIteration⟩)]) = ⟨[[0, 1, 1], [1, 0, 0]], .structError⟩ := by
  decide

/-- **C04** for a stream split over several files: only the control vectors of the *first* file are ever
delivered, then the decoder raises `struct.error`. -/
theorem C04_files_partial {K : Type*} [Zero K] [LT K] [DecidableLT K] (M : ℕ) (hM : M ≤ 128)
    (wpf : ℕ) (hw : 1 ≤ wpf) (src : Trace (List K)) :
    decodeStream M (readFiles M (writeFiles wpf (encodeStream M src))) =
      ⟨((src.items.take (encodeStream M src).items.length).map (bits M)).take wpf, .structError⟩ := by
  obtain ⟨f, hf⟩ : ∃ f, numberOfBytesSelector M = .ok f := by
    unfold numberOfBytesSelector; split_ifs
    · exact ⟨_, rfl⟩
    · exact ⟨_, rfl⟩
    · exact ⟨_, rfl⟩
    · exact ⟨_, rfl⟩
    · omega
  have h0 := C03_file_contents wpf hw (encodeStream M src) 0
  simp only [zero_mul, Nat.zero_le, if_true, List.drop_zero] at h0
  obtain ⟨rest, hrest⟩ : ∃ rest, writeFiles wpf (encodeStream M src) =
      ((encodeStream M src).items.take wpf).flatten :: rest := by
    cases hl : writeFiles wpf (encodeStream M src) with
    | nil => simp [hl] at h0
    | cons a r =>
      rw [hl] at h0
      simp only [List.getElem?_cons_zero, Option.some.injEq] at h0
      exact ⟨r, by rw [h0]⟩
  rw [hrest, decode_read_first M f hf _
    (fun w hw' => encodeStream_word_length M f hf src w (List.mem_of_mem_take hw')) rest (decodeD M)]
  · rw [List.map_take, map_decodeD_encoded]
  · intro w hw'
    obtain ⟨s, hs⟩ := decodeWord_of_encoded M src w (List.mem_of_mem_take hw')
    simp [decodeD, hs]

example : decodeStream 3 (readFiles 3 (writeFiles 1 (encodeStream 3
    ⟨[[0, 1, (1 : ℤ)], [1, 0, 0]], .stopIteration⟩))) = ⟨[[0, 1, 1]], .structError⟩ := by decide

/-- **C04** is false: already for two stored control vectors in two files the second is never delivered; and
even for a single file the stream does not end by an end-of-stream exception. -/
theorem C04_false :
    (¬ ∀ (M wpf : ℕ) (src : Trace (List ℤ)), M ≤ 128 → 1 ≤ wpf → (∀ s ∈ src.items, Binary M s) →
      (encodeStream M src).items.length = src.items.length →
      (decodeStream M (readFiles M (writeFiles wpf (encodeStream M src)))).items = src.items) ∧
    (¬ ∀ (M : ℕ) (src : Trace (List ℤ)), M ≤ 128 →
      (decodeStream M (readFiles M [writeFile (encodeStream M src)])).fin = .stopIteration ∨
      (decodeStream M (readFiles M [writeFile (encodeStream M src)])).fin = .runtimeError) := by
  constructor
  · intro h
    have := h 1 1 ⟨[[1], [0]], .stopIteration⟩ (by norm_num) le_rfl (by
      intro s hs
      simp only [List.mem_cons, List.not_mem_nil, or_false] at hs
      rcases hs with rfl | rfl <;> refine ⟨rfl, ?_⟩ <;> intro v hv <;> simp at hv <;> omega)
      (by decide)
    revert this
    decide
  · intro h
    have := h 1 ⟨[[1]], .stopIteration⟩ (by norm_num)
    rw [C04_single_file_partial 1 (by norm_num)] at this
    simp at this

/-- `C02_accept_iff_partial`: with twenty controls a word is written exactly if all of the first `capacity 20` are meant. -/
example : ∃ w, encodeWord 20 (List.replicate 20 (1 : ℤ)) = .ok w :=
  (C02_accept_iff_partial 20 (by norm_num) _ (by simp)).2 fun j _ hj _ _ => by
    have : capacity 20 = 31 ∨ 20 ≤ capacity 20 := by decide
    omega

end Cbadc.Bytes
