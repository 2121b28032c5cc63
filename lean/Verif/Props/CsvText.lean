import Verif.Spec.CsvText
import Verif.Model.CsvText
import Verif.Model.FIRExport
import Verif.Props.Spectrum
import Verif.Props.Replay

/-! # C176: control signals kept as text -/

namespace Cbadc.CsvText
open Cbadc.NetlistText (Text) 
open Cbadc.CsvText.Spec Cbadc.Estimator Cbadc.Streams Cbadc.Replay

/-! ### Reading a row -/

theorem blank_ws {t : Text} (h : Blank t) : ∀ c ∈ t, isWs c = true := by
  intro c hc
  rcases h c hc with rfl | rfl | rfl | rfl <;> decide

theorem drop_blank {t rest : Text} (h : ∀ c ∈ t, isWs c = true) (hr : ∀ c ∈ rest.head?, isWs c = false) :
    (t ++ rest).dropWhile isWs = rest := by
  rw [List.dropWhile_append_of_pos h]
  cases rest with
  | nil => rfl
  | cons c cs => rw [List.dropWhile_cons_of_neg]; simp [hr c rfl]

theorem digit_not_ws {c : Char} (h : c.isDigit = true) : isWs c = false := by
  have : 48 ≤ c.toNat ∧ c.toNat ≤ 57 := by
    simp only [Char.isDigit, Bool.and_eq_true, decide_eq_true_eq, ge_iff_le, UInt32.le_iff_toNat_le] at h
    exact h
  unfold isWs
  simp only [List.mem_cons, List.not_mem_nil, or_false, decide_eq_false_iff_not]
  omega

theorem scan_digits {ds rest : Text} (h : Digits ds) (hr : ∀ c ∈ rest.head?, c.isDigit = false) :
    scanDigits (ds ++ rest) = some (Nat.ofDigitChars 10 ds 0, rest) := by
  have h1 : (ds ++ rest).takeWhile Char.isDigit = ds := by
    rw [List.takeWhile_append_of_pos h.2]
    cases rest with
    | nil => simp
    | cons c cs => rw [List.takeWhile_cons_of_neg]; simp; simp [hr c rfl]
  have h2 : (ds ++ rest).dropWhile Char.isDigit = rest := by
    rw [List.dropWhile_append_of_pos h.2]
    cases rest with
    | nil => rfl
    | cons c cs => rw [List.dropWhile_cons_of_neg]; simp [hr c rfl]
  unfold scanDigits
  rw [h1, h2, if_neg h.1]
  rfl

/-- a numeral is read with its value, whatever not a digit follows -/
theorem scan_numeral {v : ℤ} {t b rest : Text} (hb : ∀ c ∈ b, isWs c = true) (hv : Numeral v t)
    (hr : ∀ c ∈ rest.head?, c.isDigit = false) : scanInt (b ++ (t ++ rest)) = some (v, rest) := by
  cases hv with
  | plain ds h =>
    obtain ⟨d, ds', rfl⟩ : ∃ d ds', t = d :: ds' := by
      cases t with
      | nil => exact absurd rfl h.1
      | cons d ds' => exact ⟨d, ds', rfl⟩
    have hd := h.2 d List.mem_cons_self
    unfold scanInt
    rw [drop_blank hb (by intro c hc; obtain rfl : d = c := by simpa using hc
                          exact digit_not_ws hd)]
    rw [List.cons_append]
    dsimp only
    have hm : d ≠ '-' := by rintro rfl; revert hd; decide
    have hp : d ≠ '+' := by rintro rfl; revert hd; decide
    rw [if_neg hm, if_neg hp, ← List.cons_append, scan_digits h hr]
    rfl
  | plus ds h =>
    unfold scanInt
    rw [drop_blank hb (by intro c hc; obtain rfl : '+' = c := by simpa using hc
                          decide)]
    rw [List.cons_append]
    dsimp only
    rw [if_neg (by decide), if_pos rfl, scan_digits h hr]
    rfl
  | minus ds h =>
    unfold scanInt
    rw [drop_blank hb (by intro c hc; obtain rfl : '-' = c := by simpa using hc
                          decide)]
    rw [List.cons_append]
    dsimp only
    rw [if_pos rfl, scan_digits h hr]
    rfl

theorem ws_not_digit {c : Char} (h : isWs c = true) : c.isDigit = false := by
  by_contra hc
  rw [Bool.not_eq_false] at hc
  rw [digit_not_ws hc] at h
  cases h

theorem sep_not_ws {sep : Text} (hs : Separator sep) : ∀ c ∈ sep, isWs c = false := by
  intro c hc
  unfold isWs
  exact decide_eq_false (hs.2.1 c hc)

theorem after_sep {sep after rest : Text} (hs : Separator sep) (ha : Blank after) :
    afterSep sep (after ++ (sep ++ rest)) = some rest := by
  unfold afterSep
  rw [drop_blank (blank_ws ha), if_pos (List.prefix_append _ _), List.drop_left]
  cases sep with
  | nil => exact absurd rfl hs.1
  | cons d ds =>
    intro c hc
    obtain rfl : d = c := by simpa using hc
    exact sep_not_ws hs d List.mem_cons_self

theorem after_end {sep after : Text} (hs : Separator sep) (ha : Blank after) : afterSep sep after = none := by
  unfold afterSep
  have : after.dropWhile isWs = [] := by
    have := drop_blank (rest := []) (blank_ws ha) (by intro c hc; cases hc)
    rwa [List.append_nil] at this
  rw [this, if_neg]
  intro h
  exact hs.1 (List.prefix_nil.1 h)

theorem numeral_ne {v : ℤ} {t : Text} (h : Numeral v t) : t ≠ [] := by
  cases h with
  | plain ds h => exact h.1
  | plus ds h => simp
  | minus ds h => simp

theorem row_length {sep : Text} {r : List ℤ} {t : Text} (h : Row sep r t) : r.length ≤ t.length := by
  induction h with
  | last b v t a hb hv ha =>
    have := List.length_pos_iff.2 (numeral_ne hv)
    simp only [List.length_cons, List.length_nil, List.length_append]
    omega
  | cons b v t a vs rest hb hv ha hr ih =>
    have := List.length_pos_iff.2 (numeral_ne hv)
    simp only [List.length_cons, List.length_append]
    omega

theorem row_entries {sep : Text} (hs : Separator sep) {r : List ℤ} {t : Text} (h : Row sep r t) :
    ∀ fuel, r.length ≤ fuel → entries sep fuel t = r.map int8 := by
  induction h with
  | last b v t a hb hv ha =>
    intro fuel hf
    obtain ⟨fuel, rfl⟩ : ∃ k, fuel = k + 1 := ⟨fuel - 1, by simp at hf; omega⟩
    rw [entries, scan_numeral (blank_ws hb) hv (by
      intro c hc
      exact ws_not_digit (blank_ws ha c (List.mem_of_mem_head? hc)))]
    dsimp only
    rw [after_end hs ha]
    rfl
  | cons b v t a vs rest hb hv ha hr ih =>
    intro fuel hf
    obtain ⟨fuel, rfl⟩ : ∃ k, fuel = k + 1 := ⟨fuel - 1, by simp at hf; omega⟩
    rw [entries, scan_numeral (blank_ws hb) hv (by
      intro c hc
      cases a with
      | cons x a => exact ws_not_digit (blank_ws ha c (by simp at hc; simp [hc]))
      | nil =>
        apply hs.2.2 c
        cases sep with
        | nil => exact absurd rfl hs.1
        | cons d ds => simpa using hc)]
    dsimp only
    rw [after_sep hs ha]
    dsimp only
    rw [ih fuel (by simp at hf; omega)]
    rfl

/-- **C176** A row of numerals is read as its numbers, stored in eight bits. -/
theorem C176_row {sep : Text} (hs : Separator sep) {r : List ℤ} {t : Text} (h : Row sep r t) :
    fromString sep t = r.map int8 := row_entries hs h _ (row_length h)

theorem int8_of_range {v : ℤ} (h1 : -128 ≤ v) (h2 : v < 128) : int8 v = v := by
  unfold int8; omega

/-! ### Reading a file -/

theorem row_end {sep : Text} {r : List ℤ} {t e : Text} (h : Row sep r t) (he : Blank e) : Row sep r (t ++ e) := by
  induction h with
  | last b v t a hb hv ha =>
    rw [List.append_assoc, List.append_assoc]
    refine Row.last b v t (a ++ e) hb hv ?_
    intro c hc
    rcases List.mem_append.1 hc with h | h
    · exact ha c h
    · exact he c h
  | cons b v t a vs rest hb hv ha hr ih =>
    rw [List.append_assoc, List.append_assoc, List.append_assoc, List.append_assoc]
    exact Row.cons b v t a vs (rest ++ e) hb hv ha ih

theorem row_ne {sep : Text} {r : List ℤ} {t : Text} (h : Row sep r t) : t ≠ [] := by
  cases h with
  | last b v t a hb hv ha => simp [numeral_ne hv]
  | cons b v t a vs rest hb hv ha hr => simp [numeral_ne hv]

theorem lines_line (t : Text) (ho : OneLine t) : ∀ (cur rest : Text), fileLinesFrom false cur (t ++ rest) =
    fileLinesFrom false (t.reverse ++ cur) rest := by
  induction t with
  | nil => intro cur rest; rfl
  | cons c cs ih =>
    intro cur rest
    have h1 : c ≠ '\n' := fun h => ho.1 (by simp [h])
    have h2 : c ≠ '\r' := fun h => ho.2 (by simp [h])
    rw [List.cons_append, fileLinesFrom, if_neg (by simp), if_neg (by simp [h1, h2]),
      ih ⟨fun h => ho.1 (List.mem_cons_of_mem _ h), fun h => ho.2 (List.mem_cons_of_mem _ h)⟩]
    simp

theorem table_start {sep : Text} {rs : List (List ℤ)} {t : Text} (h : Table sep rs t) : t.head? ≠ some '\n' := by
  have key : ∀ (t : Text) (rest : Text), OneLine t → t ≠ [] → (t ++ rest).head? ≠ some '\n' := by
    intro t rest ho ht hh
    cases t with
    | nil => exact ht rfl
    | cons c cs =>
      simp only [List.cons_append, List.head?_cons, Option.some.injEq] at hh
      exact ho.1 (by simp [hh])
  cases h with
  | empty => simp
  | last r t h ho =>
    have := key t [] ho (row_ne h)
    rwa [List.append_nil] at this
  | cons r t eol rs rest h ho he hr => exact key t _ ho (row_ne h)

theorem lines_cr {t : Text} (h : t.head? ≠ some '\n') : fileLinesFrom true [] t = fileLinesFrom false [] t := by
  cases t with
  | nil => rfl
  | cons c cs =>
    have : c ≠ '\n' := by simpa using h
    simp [fileLinesFrom, this]

theorem table_lines {sep : Text} {rs : List (List ℤ)} {t : Text} (h : Table sep rs t) :
    List.Forall₂ (Row sep) rs (fileLines t) := by
  induction h with
  | empty => exact List.Forall₂.nil
  | last r t h ho =>
    have : fileLines t = [t] := by
      unfold fileLines
      conv_lhs => rw [← List.append_nil t]
      rw [lines_line t ho, fileLinesFrom, if_neg (by simp [row_ne h])]
      simp
    rw [this]
    exact List.Forall₂.cons h List.Forall₂.nil
  | cons r t eol rs rest h ho he hr ih =>
    have hrow : Row sep r (t ++ ['\n']) := row_end h (by
      intro c hc
      obtain rfl : c = '\n' := by simpa using hc
      exact .inr (.inr (.inl rfl)))
    have : fileLines (t ++ (eol ++ rest)) = (t ++ ['\n']) :: fileLines rest := by
      unfold fileLines
      rw [lines_line t ho]
      rcases he with rfl | rfl | rfl
      · rw [List.cons_append, fileLinesFrom, if_neg (by simp), if_pos (by simp)]
        simp
      · rw [List.cons_append, List.cons_append, fileLinesFrom, if_neg (by simp), if_pos (by simp), fileLinesFrom,
          if_pos (by simp)]
        simp
      · rw [List.cons_append, fileLinesFrom, if_neg (by simp), if_pos (by simp)]
        simp [lines_cr (table_start hr)]
    rw [this]
    exact List.Forall₂.cons hrow ih

/-- **C176** A table with rows of `M` numbers of at most eight bits is read row by row, reversed if so asked, and the
reader ends with the file. -/
theorem C176_table {sep : Text} (hs : Separator sep) (M : ℕ) (b : Bool) {rs : List (List ℤ)} {t : Text}
    (h : Table sep rs t) (hM : ∀ r ∈ rs, r.length = M) (h8 : ∀ r ∈ rs, ∀ v ∈ r, -128 ≤ v ∧ v < 128) :
    csvFile sep M b t = ⟨rs.map fun r => if b then r.reverse else r, .stopIteration⟩ := by
  have hl := table_lines h
  unfold csvFile
  have hp : ∀ ls, List.Forall₂ (Row sep) rs ls → ls.map (fromString sep) = rs := by
    intro ls hls
    clear hl h
    induction hls with
    | nil => rfl
    | @cons r l rs' ls' hrow _ ih =>
      rw [List.map_cons, C176_row hs hrow, ih (fun x hx => hM x (List.mem_cons_of_mem _ hx))
        (fun x hx => h8 x (List.mem_cons_of_mem _ hx))]
      congr 1
      conv_rhs => rw [← List.map_id r]
      refine List.map_congr_left fun v hv => ?_
      obtain ⟨h1, h2⟩ := h8 r List.mem_cons_self v hv
      exact int8_of_range h1 h2
  have hm := hp _ hl
  rw [(Spectrum.C78_reader (fromString sep) M b (fileLines t) ?_).1]
  · congr 1
    conv_rhs => rw [← hm, List.map_map]
    rfl
  · intro l hll
    have : fromString sep l ∈ rs := by rw [← hm]; exact List.mem_map_of_mem hll
    exact hM _ this

theorem lines_cons (t rest : Text) (ho : OneLine t) : fileLines (t ++ ('\n' :: rest)) = (t ++ ['\n']) :: fileLines rest := by
  unfold fileLines
  rw [lines_line t ho, fileLinesFrom, if_neg (by simp), if_pos (by simp)]
  simp

/-- **C176** The reader stops with `RuntimeError` at the first line that is not a row of `M` numbers; of the rows before it
nothing is lost and nothing behind it is read. -/
theorem C176_wrong_length {sep : Text} (hs : Separator sep) (M : ℕ) (b : Bool) (good : List (List ℤ × Text))
    (hg : ∀ p ∈ good, Row sep p.1 p.2 ∧ OneLine p.2 ∧ p.1.length = M ∧ ∀ v ∈ p.1, -128 ≤ v ∧ v < 128)
    {r : List ℤ} {t : Text} (rest : Text) (h : Row sep r t) (ho : OneLine t) (hr : r.length ≠ M) :
    csvFile sep M b (good.flatMap (fun p => p.2 ++ ['\n']) ++ (t ++ ('\n' :: rest))) =
      ⟨good.map fun p => if b then p.1.reverse else p.1, .runtimeError⟩ := by
  have nl : ∀ {r : List ℤ} {t : Text}, Row sep r t → Row sep r (t ++ ['\n']) := fun h => row_end h (by
      intro c hc
      obtain rfl : c = '\n' := by simpa using hc
      exact .inr (.inr (.inl rfl)))
  have hl : fileLines (good.flatMap (fun p => p.2 ++ ['\n']) ++ (t ++ ('\n' :: rest))) =
      good.map (fun p => p.2 ++ ['\n']) ++ (t ++ ['\n']) :: fileLines rest := by
    induction good with
    | nil => exact lines_cons t rest ho
    | cons p good ih =>
      rw [List.flatMap_cons, List.append_assoc, List.append_assoc, List.cons_append, List.nil_append,
        lines_cons _ _ (hg p List.mem_cons_self).2.1, ih fun q hq => hg q (List.mem_cons_of_mem _ hq)]
      rfl
  have hp : ∀ p ∈ good, fromString sep (p.2 ++ ['\n']) = p.1 := by
    intro p hpg
    obtain ⟨h1, -, -, h8⟩ := hg p hpg
    rw [C176_row hs (nl h1)]
    conv_rhs => rw [← List.map_id p.1]
    exact List.map_congr_left fun v hv => int8_of_range (h8 v hv).1 (h8 v hv).2
  unfold csvFile
  rw [hl, (Spectrum.C78_reader (fromString sep) M b (good.map fun p => p.2 ++ ['\n']) ?_).2 _ _
    (by rw [C176_row hs (nl h), List.length_map]; exact hr), List.map_map]
  · congr 1
    refine List.map_congr_left fun p hpg => ?_
    rw [Function.comp_apply, hp p hpg]
  · intro l hl'
    obtain ⟨p, hpg, rfl⟩ := List.mem_map.1 hl'
    rw [hp p hpg]
    exact (hg p hpg).2.2.1

/-! ### Estimates from a file -/

section
variable {K : Type*} [CommRing K] {N M L : ℕ}

/-- **C176** An estimator reading the file is given the rows in order, and `StopIteration` ever after. -/
theorem C176_source {sep : Text} (hs : Separator sep) (b : Bool) (z : ℕ → Fin M → ℤ) (n : ℕ) {t : Text}
    (h : Table sep ((List.range n).map fun k => if b then (List.ofFn (z k)).reverse else List.ofFn (z k)) t)
    (h8 : ∀ k < n, ∀ m, -128 ≤ z k m ∧ z k m < 128) :
    (source M (csvFile sep M b t) : ℕ → Res (Fin M → K)) = ending (fun k m => ((z k m : ℤ) : K)) n .stopIteration := by
  rw [C176_table hs M b h]
  · funext k
    unfold source ending
    dsimp only
    by_cases hk : k < n
    · rw [if_pos hk]
      have : (List.map (fun r => if b then r.reverse else r)
          ((List.range n).map fun k => if b then (List.ofFn (z k)).reverse else List.ofFn (z k)))[k]? = some (List.ofFn (z k)) := by
        rw [List.map_map, List.getElem?_map, List.getElem?_range hk]
        cases b <;> simp
      rw [this]
      dsimp only
      congr 1
      funext m
      rw [List.getD_eq_getElem?_getD, List.getElem?_ofFn, dif_pos m.2]
      rfl
    · rw [if_neg hk, List.getElem?_eq_none (by simp; omega)]
      dsimp only
      simp
  · intro r hr
    obtain ⟨k, -, rfl⟩ := List.mem_map.1 hr
    cases b <;> simp
  · intro r hr v hv
    obtain ⟨k, hk, rfl⟩ := List.mem_map.1 hr
    have : v ∈ List.ofFn (z k) := by cases b <;> simpa using hv
    obtain ⟨m, rfl⟩ := List.mem_ofFn.1 this
    exact h8 k (List.mem_range.1 hk) m

/-- **C176** (FIR) With `n` rows and down-sampling `ds` the first `n / ds` results are those on the live signal, and every
later call raises `StopIteration`. -/
theorem C176_fir {sep : Text} (hs : Separator sep) (b : Bool) (z : ℕ → Fin M → ℤ) (n : ℕ) {t : Text}
    (h : Table sep ((List.range n).map fun k => if b then (List.ofFn (z k)).reverse else List.ofFn (z k)) t)
    (h8 : ∀ k < n, ∀ m, -128 ≤ z k m ∧ z k m < 128) (f : FIR K M L) (h1 : 1 ≤ f.ds) (h2 : f.ds ≤ f.K1 + f.K2) :
    (∀ k < n / f.ds, call (f.next (source M (csvFile sep M b t))) FIRState.init k =
      call (f.next (live fun k m => ((z k m : ℤ) : K))) FIRState.init k) ∧
    ((f.limit = 0 ∨ n + f.ds ≤ f.limit) →
      ∀ k, n / f.ds ≤ k → call (f.next (source M (csvFile sep M b t))) FIRState.init k = .error .stopIteration) := by
  rw [C176_source hs b z n h h8]
  obtain ⟨g1, g2⟩ := C165_fir f h1 h2 (fun k m => ((z k m : ℤ) : K)) n .stopIteration
  refine ⟨g1, fun hl k hk => ?_⟩
  rcases Nat.eq_or_lt_of_le hk with rfl | hlt
  · exact (g2 hl).1
  · exact (g2 hl).2 k hlt

variable [LinearOrder K]

/-- **C176** (IIR) The calls `k` with `ds k < n` give the result on the live signal, and every later call raises
`StopIteration`. -/
theorem C176_iir {sep : Text} (hs : Separator sep) (b : Bool) (z : ℕ → Fin M → ℤ) (n : ℕ) {t : Text}
    (h : Table sep ((List.range n).map fun k => if b then (List.ofFn (z k)).reverse else List.ofFn (z k)) t)
    (h8 : ∀ k < n, ∀ m, -128 ≤ z k m ∧ z k m < 128) (c : Coeffs K N M L) (K2 : ℕ) (eta2 : K) (ds limit : ℕ)
    (f : IIR K N M L) (hf : IIR.new c K2 eta2 ds limit = .ok f) (hK2 : 1 ≤ K2) (hds : 1 ≤ ds)
    (hlim : limit = 0 ∨ n + 1 ≤ limit) :
    (∀ k, ds * k < n → call (f.next (source M (csvFile sep M b t))) IIRState.init k =
      call (f.next (live fun k m => ((z k m : ℤ) : K))) IIRState.init k) ∧
    ∀ k, n ≤ ds * k → call (f.next (source M (csvFile sep M b t))) IIRState.init k = .error .stopIteration := by
  rw [C176_source hs b z n h h8]
  obtain ⟨g1, g2⟩ := C165_iir c K2 eta2 ds limit f hf hK2 hds (fun k m => ((z k m : ℤ) : K)) n .stopIteration hlim
  refine ⟨g1, fun k hk => ?_⟩
  classical
  have hex : ∃ k, n ≤ ds * k := ⟨k, hk⟩
  have hmin := g2 (Nat.find hex) (Nat.find_spec hex) (fun h0 => by
    by_contra hc
    exact Nat.find_min hex (show Nat.find hex - 1 < Nat.find hex by omega) (by omega))
  rcases Nat.eq_or_lt_of_le (Nat.find_le (h := hex) hk) with he | hlt
  · rw [← he]; exact hmin.1
  · exact hmin.2 k hlt

/-- **C176** (batch) The estimates of the batches that are complete in the file are those on the live signal, and every later
call raises `StopIteration`; `b'` is the first batch that is not complete. -/
theorem C176_batch {sep : Text} (hs : Separator sep) (b : Bool) (z : ℕ → Fin M → ℤ) (n : ℕ) {t : Text}
    (h : Table sep ((List.range n).map fun k => if b then (List.ofFn (z k)).reverse else List.ofFn (z k)) t)
    (h8 : ∀ k < n, ∀ m, -128 ≤ z k m ∧ z k m < 128) (c : Coeffs K N M L) (K1 K2 : ℕ) (eta2 : K) (ds : ℤ) (limit : ℕ)
    (f : Batch K N M L) (hf : Batch.new c K1 K2 eta2 ds limit = .ok f) (b' : ℕ)
    (hlim : b' * (K1 + 1) ≤ limit) (h1 : b' = 0 ∨ b' * K1 + K2 ≤ n) (h2 : n < b' * K1 + (K1 + K2)) :
    (∀ k < b' * K1, call (f.next (source M (csvFile sep M b t))) f.init k =
      call (f.next (live fun k m => ((z k m : ℤ) : K))) f.init k) ∧
    ∀ k, b' * K1 ≤ k → call (f.next (source M (csvFile sep M b t))) f.init k = .error .stopIteration := by
  rw [C176_source hs b z n h h8]
  obtain ⟨g1, g2, g3⟩ := C165_batch_file c K1 K2 eta2 ds limit f hf (fun k m => ((z k m : ℤ) : K)) n b' .stopIteration
    (by decide) hlim h1 h2
  refine ⟨g1, fun k hk => ?_⟩
  rcases Nat.eq_or_lt_of_le hk with rfl | hlt
  · exact g2
  · exact g3 k hlt

end

/-! ### Writing a file -/

/-- decimal numerals as Python prints them, with the separator and blanks between them -/
def printRow (gap : Text) (r : List ℤ) : Text := join gap (r.map Export.pyStr)

theorem numeral_pyStr (v : ℤ) : Numeral v (Export.pyStr v) := by
  have hd : Digits (Nat.toDigits 10 v.natAbs) :=
    ⟨Nat.toDigits_ne_nil, fun c hc => Nat.isDigit_of_mem_toDigits (b := 10) (by omega) (by omega) hc⟩
  have hv := Nat.ofDigitChars_toDigits (b := 10) (n := v.natAbs) (by omega) (by omega)
  unfold Export.pyStr
  split_ifs with h
  · have := Numeral.minus _ hd
    rw [hv] at this
    convert this using 1
    omega
  · have := Numeral.plain _ hd
    rw [hv] at this
    convert this using 1
    omega

theorem pyStr_oneLine (v : ℤ) : OneLine (Export.pyStr v) := by
  have hd : ∀ c ∈ Nat.toDigits 10 v.natAbs, c.isDigit = true :=
    fun c hc => Nat.isDigit_of_mem_toDigits (b := 10) (by omega) (by omega) hc
  have h1 : '\n' ∉ Nat.toDigits 10 v.natAbs := fun h => absurd (hd _ h) (by decide)
  have h2 : '\r' ∉ Nat.toDigits 10 v.natAbs := fun h => absurd (hd _ h) (by decide)
  unfold Export.pyStr
  split_ifs
  · exact ⟨by simp [h1], by simp [h2]⟩
  · exact ⟨h1, h2⟩

theorem join_oneLine {gap : Text} (hg : OneLine gap) : ∀ (ts : List Text), (∀ t ∈ ts, OneLine t) → OneLine (join gap ts)
  | [], _ => ⟨by simp [join], by simp [join]⟩
  | [t], h => h t List.mem_cons_self
  | t :: u :: ts, h => by
    obtain ⟨a1, a2⟩ := h t List.mem_cons_self
    obtain ⟨b1, b2⟩ := join_oneLine hg (u :: ts) fun x hx => h x (List.mem_cons_of_mem _ hx)
    rw [join.eq_def]
    exact ⟨by simp [a1, b1, hg.1], by simp [a2, b2, hg.2]⟩

theorem row_blank {sep : Text} {r : List ℤ} {t w : Text} (h : Row sep r t) (hw : Blank w) : Row sep r (w ++ t) := by
  have hb : ∀ b, Blank b → Blank (w ++ b) := by
    intro b hb c hc
    rcases List.mem_append.1 hc with h | h
    · exact hw c h
    · exact hb c h
  cases h with
  | last b v t a hb' hv ha => rw [← List.append_assoc]; exact Row.last _ v t a (hb _ hb') hv ha
  | cons b v t a vs rest hb' hv ha hr => rw [← List.append_assoc]; exact Row.cons _ v t a vs rest (hb _ hb') hv ha hr

/-- a printed row is a row -/
theorem row_print {sep w : Text} (hw : Blank w) : ∀ (r : List ℤ), r ≠ [] → Row sep r (printRow (sep ++ w) r)
  | [], h => absurd rfl h
  | [v], _ => by
    have := Row.last (sep := sep) [] v _ [] (by simp [Blank]) (numeral_pyStr v) (by simp [Blank])
    simpa [printRow, join] using this
  | v :: u :: r, _ => by
    have ih := row_blank (row_print (sep := sep) hw (u :: r) (by simp)) hw
    have := Row.cons [] v _ [] _ _ (by simp [Blank]) (numeral_pyStr v) (by simp [Blank]) ih
    simpa [printRow, join] using this

/-- a printed table, the last line with its line end -/
theorem table_print {sep w : Text} (hw : Blank w) (ho : OneLine (sep ++ w)) : ∀ (rs : List (List ℤ)), (∀ r ∈ rs, r ≠ []) →
    Table sep rs (rs.flatMap fun r => printRow (sep ++ w) r ++ ['\n'])
  | [], _ => Table.empty
  | r :: rs, h => by
    have := Table.cons r (printRow (sep ++ w) r) ['\n'] rs _ (row_print hw r (h r List.mem_cons_self))
      (join_oneLine ho _ fun t ht => by
        obtain ⟨v, -, rfl⟩ := List.mem_map.1 ht
        exact pyStr_oneLine v) (.inl rfl) (table_print hw ho rs fun x hx => h x (List.mem_cons_of_mem _ hx))
    simpa using this

open Cbadc.Simulate Cbadc.Control in
/-- **C176** Any simulation of a converter with any number of controls, printed as text for any number of periods in either
order of the controls, comes back from the file. -/
theorem C176_converter {M : ℕ} (hM : 1 ≤ M) {c : Cfg M} {s : ℕ → St M} {φ : ℕ → ℝ → ℕ → ℝ} (hr : Run c s φ)
    (h0 : (s 0).c = State.init) :
    ∃ z : ℕ → Fin M → ℤ, (∀ k m, ((z k m : ℤ) : ℝ) = signal (s (k + 1)).c m) ∧
      ∀ (n : ℕ) (sep w : Text), Separator sep → Blank w → OneLine (sep ++ w) → ∀ b : Bool,
        (source M (csvFile sep M b
          (((List.range n).map fun k => if b then (List.ofFn (z k)).reverse else List.ofFn (z k)).flatMap
            fun r => printRow (sep ++ w) r ++ ['\n'])) : ℕ → Res (Fin M → ℝ)) =
          ending (fun k => signal (s (k + 1)).c) n .stopIteration := by
  classical
  have hz : ∀ k m, (((if signal (s (k + 1)).c m = 0 then 0 else 1 : ℤ) : ℤ) : ℝ) = signal (s (k + 1)).c m := by
    intro k m
    rcases run_binary hr h0 (k + 1) m with h | h <;> simp [h]
  refine ⟨fun k m => if signal (s (k + 1)).c m = 0 then 0 else 1, hz, fun n sep w hs hw ho b => ?_⟩
  rw [C176_source hs b (fun k m => if signal (s (k + 1)).c m = 0 then 0 else 1) n (table_print hw ho _ ?_) ?_]
  · congr 1
    funext k m
    exact hz k m
  · intro r hr' he
    obtain ⟨k, -, rfl⟩ := List.mem_map.1 hr'
    have : M = 0 := by
      have := congrArg List.length he
      cases b <;> simpa using this
    omega
  · intro k _ m
    split_ifs <;> omega

/-! ### Files that are not read as they are meant -/

theorem scan_fixed {t rest : Text} (h : Spec.Fixed t) : ∃ v r, scanInt (t ++ rest) = some (v, '.' :: r) := by
  cases h with
  | plain a b ha hb =>
    refine ⟨(Nat.ofDigitChars 10 a 0 : ℕ), b ++ rest, ?_⟩
    have := scan_numeral (b := []) (rest := '.' :: (b ++ rest)) (by simp) (Numeral.plain a ha) (by
      intro c hc; obtain rfl : '.' = c := by simpa using hc
      decide)
    simpa using this
  | minus a b ha hb =>
    refine ⟨-((Nat.ofDigitChars 10 a 0 : ℕ) : ℤ), b ++ rest, ?_⟩
    have := scan_numeral (b := []) (rest := '.' :: (b ++ rest)) (by simp) (Numeral.minus a ha) (by
      intro c hc; obtain rfl : '.' = c := by simpa using hc
      decide)
    simpa using this

/-- **C176 is false** of voltages: of a line of voltages with decimals only one number is read, so that every file with more
than one column raises `RuntimeError`, and from a file with one column the decimals are lost: 0.9 V is read as 0. -/
theorem C176_voltages_false :
    (∀ (t : Text) (ts : List Text) (e : Text), Spec.Fixed t → (fromString [','] (join [','] (t :: ts) ++ e)).length = 1) ∧
    Spec.Fixed "0.900000".toList ∧ fromString [','] "0.900000\n".toList = [0] := by
  refine ⟨fun t ts e h => ?_, ?_, by decide⟩
  · obtain ⟨rest, hrest⟩ : ∃ rest, join [','] (t :: ts) ++ e = t ++ rest := by
      cases ts with
      | nil => exact ⟨e, rfl⟩
      | cons u us => exact ⟨_, by rw [join.eq_def]; exact List.append_assoc _ _ _⟩
    rw [hrest]
    obtain ⟨v, r, hv⟩ := scan_fixed (rest := rest) h
    obtain ⟨k, hk⟩ : ∃ k, (t ++ rest).length = k + 1 := by
      have : t ≠ [] := by cases h <;> simp
      have := List.length_pos_iff.2 this
      exact ⟨(t ++ rest).length - 1, by rw [List.length_append]; omega⟩
    unfold fromString
    rw [hk, entries, hv]
    dsimp only
    have : afterSep [','] ('.' :: r) = none := by
      unfold afterSep
      rw [List.dropWhile_cons_of_neg (by decide), if_neg]
      rintro ⟨x, hx⟩
      simp at hx
    rw [this]
    rfl
  · exact Spec.Fixed.plain ['0'] "900000".toList ⟨by simp, by decide⟩ ⟨by decide, by decide⟩

/-- **C176 is false** of the file the observer of a test bench writes: the reader raises `RuntimeError` at its header, for
every number of controls and whatever was observed, and a FIR filter reading it ends at once with `StopIteration`, as if
there were nothing in the file. -/
theorem C176_observer_false {V : Type*} (fixed : V → Text) (M : ℕ) (hM : 1 ≤ M) (rows : List (List V)) (b : Bool) :
    csvFile [','] M b (observerFile fixed M rows) = ⟨[], .runtimeError⟩ ∧
    ∀ {L : ℕ} (f : FIR ℚ M L), 1 ≤ f.ds → f.ds ≤ f.K1 + f.K2 → f.limit = 0 →
      call (f.next (source M (csvFile [','] M b (observerFile fixed M rows)))) FIRState.init 0 = .error .stopIteration := by
  have hmain : csvFile [','] M b (observerFile fixed M rows) = ⟨[], .runtimeError⟩ := by
    have hone : OneLine (join [','] ((List.range M).map columnName)) := by
      refine join_oneLine ⟨by decide, by decide⟩ _ fun t ht => ?_
      obtain ⟨i, -, rfl⟩ := List.mem_map.1 ht
      have hd : ∀ c ∈ Nat.toDigits 10 i, c.isDigit = true :=
        fun c hc => Nat.isDigit_of_mem_toDigits (b := 10) (by omega) (by omega) hc
      have h1 : '\n' ∉ Nat.toDigits 10 i := fun h => absurd (hd _ h) (by decide)
      have h2 : '\r' ∉ Nat.toDigits 10 i := fun h => absurd (hd _ h) (by decide)
      exact ⟨by simp [columnName, h1], by simp [columnName, h2]⟩
    obtain ⟨r, hr⟩ : ∃ r, join [','] ((List.range M).map columnName) = 's' :: r := by
      obtain ⟨k, rfl⟩ : ∃ k, M = k + 1 := ⟨M - 1, by omega⟩
      rw [List.range_succ_eq_map, List.map_cons]
      cases List.map columnName (List.map Nat.succ (List.range k)) with
      | nil => exact ⟨_, rfl⟩
      | cons u us => exact ⟨_, rfl⟩
    unfold observerFile csvFile
    set body := rows.flatMap fun r => join [','] (r.map fixed) ++ ['\n']
    rw [lines_cons _ _ hone]
    refine (Spectrum.C78_reader (fromString [',']) M b [] (by simp)).2 _ _ ?_
    have : fromString [','] (join [','] ((List.range M).map columnName) ++ ['\n']) = [] := by
      rw [hr, List.cons_append]
      unfold fromString
      rw [List.length_cons, entries]
      have : scanInt ('s' :: (r ++ ['\n'])) = none := by
        unfold scanInt
        rw [List.dropWhile_cons_of_neg (by decide)]
        dsimp only
        rw [if_neg (by decide), if_neg (by decide)]
        unfold scanDigits
        rw [List.takeWhile_cons_of_neg (by decide), if_pos rfl]
        rfl
      rw [this]
    rw [this]
    intro h
    rw [List.length_nil] at h
    omega
  refine ⟨hmain, fun {L} f h1 h2 hlim => ?_⟩
  rw [hmain]
  have : (source M ⟨[], .runtimeError⟩ : ℕ → Res (Fin M → ℚ)) = ending (fun _ _ => 0) 0 .runtimeError := by
    funext k
    unfold source ending
    simp
  rw [this]
  have := ((C165_fir f h1 h2 (fun _ _ => (0 : ℚ)) 0 .runtimeError).2 (.inl hlim)).1
  rwa [Nat.zero_div] at this

/-- **C176 is false** of numbers beyond eight bits, which are read as others, and of columns separated by blanks only, of which
the default separator finds one. -/
theorem C176_range_false :
    Row [','] [1, 200] "1, 200\n".toList ∧ fromString [','] "1, 200\n".toList = [1, -56] ∧
    csvFile [','] 2 false "0 1\n1 1\n".toList = ⟨[], .runtimeError⟩ := by
  refine ⟨?_, by decide, by decide⟩
  have := row_end (row_print (sep := [',']) (w := [' ']) (by simp [Blank]) [1, 200] (by simp)) (e := ['\n']) (by simp [Blank])
  have e : printRow ([','] ++ [' ']) [1, 200] ++ ['\n'] = "1, 200\n".toList := by decide +kernel
  rwa [e] at this

/-! ### Examples -/

/-- the example in the documentation of the reader: four controls, most significant first, no line end at the end -/
example : csvFile [','] 4 true "0, 0, 0, 0\n0, 0, 0, 1\n0, 0, 1, 1\n0, 1, 1, 1".toList =
    ⟨[[0, 0, 0, 0], [1, 0, 0, 0], [1, 1, 0, 0], [1, 1, 1, 0]], .stopIteration⟩ := by decide +kernel

/-- separators of more than one character, signs, blanks, line ends of another system -/
example : csvFile "::".toList 2 false "+1 ::-1\r\n\t0::0\r".toList = ⟨[[1, -1], [0, 0]], .stopIteration⟩ := by decide +kernel

example : Separator [','] ∧ Separator "::".toList ∧ OneLine [',', ' '] ∧ Blank [' '] :=
  ⟨⟨by decide, by decide, by decide⟩, ⟨by decide, by decide, by decide⟩, ⟨by decide, by decide⟩, by simp [Blank]⟩

/-- `C176_row`, `C176_table`, `C176_source`, `C176_iir`, `C176_batch`:
two controls, three periods: a table of the form the theorems ask for -/
example : Table [','] ((List.range 3).map fun k => if false then (List.ofFn fun m : Fin 2 => ((k + m.1 : ℕ) : ℤ)).reverse
    else List.ofFn fun m : Fin 2 => ((k + m.1 : ℕ) : ℤ)) "0, 1\n1, 2\n2, 3\n".toList := by
  have := table_print (sep := [',']) (w := [' ']) (by simp [Blank]) ⟨by decide, by decide⟩ [[0, 1], [1, 2], [2, 3]] (by decide)
  have e : ([[0, 1], [1, 2], [2, 3]] : List (List ℤ)).flatMap (fun r => printRow ([','] ++ [' ']) r ++ ['\n']) =
      "0, 1\n1, 2\n2, 3\n".toList := by decide +kernel
  rwa [e] at this

/-- a file with a short second line -/
example : csvFile [','] 2 false "1,0\n1\n0,0\n".toList = ⟨[[1, 0]], .runtimeError⟩ := by
  have h1 := row_print (sep := [',']) (w := []) (by simp [Blank]) [1, 0] (by simp)
  have h2 := row_print (sep := [',']) (w := []) (by simp [Blank]) [1] (by simp)
  have e1 : printRow ([','] ++ []) [1, 0] = "1,0".toList := by decide +kernel
  have e2 : printRow ([','] ++ []) [1] = "1".toList := by decide +kernel
  rw [e1] at h1
  rw [e2] at h2
  exact C176_wrong_length ⟨by decide, by decide, by decide⟩ 2 false [([1, 0], "1,0".toList)]
    (by intro p hp; obtain rfl := List.mem_singleton.1 hp; exact ⟨h1, ⟨by decide, by decide⟩, rfl, by decide⟩)
    "0,0\n".toList h2 ⟨by decide, by decide⟩ (by decide)

/-- a FIR filter reading two rows of a file -/
example : ∃ f, FIR.new exCoeffs 1 1 1 false 1 0 none = .ok f ∧
    call (f.next (source 1 (csvFile [','] 1 false "1\n0\n".toList))) FIRState.init 1 =
      call (f.next (live fun k (_ : Fin 1) => (((if k = 0 then 1 else 0 : ℤ)) : ℚ))) FIRState.init 1 ∧
    call (f.next (source 1 (csvFile [','] 1 false "1\n0\n".toList))) FIRState.init 2 = .error .stopIteration := by
  have ht := table_print (sep := [',']) (w := []) (by simp [Blank]) ⟨by decide, by decide⟩ [[1], [0]] (by decide)
  have e : ([[1], [0]] : List (List ℤ)).flatMap (fun r => printRow ([','] ++ []) r ++ ['\n']) = "1\n0\n".toList := by
    decide +kernel
  rw [e] at ht
  have g := C176_fir (sep := [',']) ⟨by decide, by decide, by decide⟩ false (fun k (_ : Fin 1) => (if k = 0 then 1 else 0 : ℤ)) 2
    (t := "1\n0\n".toList) ht (by intro k _ m; split_ifs <;> omega)
    (⟨1, 1, 1, 0, firTaps exCoeffs 1 1, 0⟩ : FIR ℚ 1 1) le_rfl (by norm_num)
  exact ⟨_, rfl, g.1 1 (by norm_num), g.2 (.inl rfl) 2 (by norm_num)⟩

open Cbadc.Simulate Cbadc.Control in
/-- `C176_converter`: a simulation kept in such a file -/
example : ∃ s φ, (s 0).c = (State.init : State ℝ 1) ∧ Run (Mirror.exCfg (1 / 2)) s φ ∧ ∃ z : ℕ → Fin 1 → ℤ,
    (∀ k m, ((z k m : ℤ) : ℝ) = signal (s (k + 1)).c m) ∧
    ∀ n, (source 1 (csvFile [','] 1 false (((List.range n).map fun k => if false then (List.ofFn (z k)).reverse else
      List.ofFn (z k)).flatMap fun r => printRow ([','] ++ [' ']) r ++ ['\n'])) : ℕ → Res (Fin 1 → ℝ)) =
        ending (fun k => signal (s (k + 1)).c) n .stopIteration := by
  obtain ⟨s, φ, h0, hr⟩ := Mirror.ex_run (1 / 2) 0
  obtain ⟨z, h1, h2⟩ := C176_converter (M := 1) le_rfl hr (by rw [h0])
  exact ⟨s, φ, by rw [h0], hr, z, h1, fun n => h2 n [','] [' '] ⟨by decide, by decide, by decide⟩ (by simp [Blank])
    ⟨by decide, by decide⟩ false⟩


end Cbadc.CsvText
