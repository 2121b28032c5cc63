import Verif.Lemmas.FIRExportRead

/-! # Reading back the exported files -/

namespace Cbadc.Estimator.Export

open Cbadc.Spec.Export

theorem braces : Brackets '{' '}' := ⟨by decide, by decide, by decide, by decide, by decide⟩

theorem squares : Brackets '[' ']' := ⟨by decide, by decide, by decide, by decide, by decide⟩

theorem numChar_plain_c {ch : Char} (h : numChar ch) : Plain '{' '}' ch := by
  refine ⟨?_, ?_, ?_, ?_⟩ <;>
    exact numChar_ne h (by decide) (by decide) (by decide) (by decide) (by decide) (by decide)

theorem numChar_plain_rust {ch : Char} (h : numChar ch) : Plain '[' ']' ch := by
  refine ⟨?_, ?_, ?_, ?_⟩ <;>
    exact numChar_ne h (by decide) (by decide) (by decide) (by decide) (by decide) (by decide)

theorem numChar_line {ch : Char} (h : numChar ch) : ch ≠ '\n' ∧ ch ≠ ' ' ∧ ch ≠ ';' ∧ ch ≠ ':' := by
  refine ⟨?_, ?_, ?_, ?_⟩ <;>
    exact numChar_ne h (by decide) (by decide) (by decide) (by decide) (by decide) (by decide)

theorem pyStr_notMem (n : ℤ) : '\n' ∉ pyStr n ∧ ' ' ∉ pyStr n ∧ ';' ∉ pyStr n ∧ ':' ∉ pyStr n :=
  ⟨fun h => (numChar_line (pyStr_numChar h)).1 rfl, fun h => (numChar_line (pyStr_numChar h)).2.1 rfl,
    fun h => (numChar_line (pyStr_numChar h)).2.2.1 rfl, fun h => (numChar_line (pyStr_numChar h)).2.2.2 rfl⟩

/-! ### The C header -/

theorem readCLine_comment {α : Type} (rd : List Char → Option α) : readCLine rd cComment = some .blank := by
  unfold readCLine
  rw [if_pos]
  right
  decide +kernel

theorem readCLine_nil {α : Type} (rd : List Char → Option α) : readCLine rd [] = some .blank := by
  unfold readCLine
  rw [if_pos (Or.inl rfl)]

theorem readCLine_define {α : Type} (rd : List Char → Option α) (nm : List Char) (h : ' ' ∉ nm) (n : ℤ) :
    readCLine rd ("#define".toList ++ ' ' :: (nm ++ ' ' :: pyStr n)) =
      some (.define (String.ofList nm) n) := by
  unfold readCLine
  rw [if_neg, split_append _ (by decide +kernel), split_append _ h, split_single (pyStr_notMem n).2.1]
  · dsimp only
    rw [if_pos rfl, readInt_pyStr]
    rfl
  · rintro (h | h)
    · simp at h
    · simp at h

theorem readCLine_array {α : Type} (rd : List Char → Option α) (ty nm : List Char) (h1 : ' ' ∉ ty)
    (h2 : ' ' ∉ nm) (h3 : ty ≠ []) (h4 : ty.head? ≠ some '/') (t : List Char) (ht : ' ' ∉ t) (v : Lit)
    (a : List (List (List α))) (hv : literal '{' '}' t = some v) (ha : cube rd v = some a) :
    readCLine rd (ty ++ ' ' :: (nm ++ ' ' :: (['='] ++ ' ' :: t))) =
      some (.array (String.ofList ty) (String.ofList nm) a) := by
  unfold readCLine
  rw [if_neg, split_append _ h1, split_append _ h2, split_append _ (by decide), split_single ht]
  · dsimp only
    rw [if_pos rfl, hv]
    simp [ha]
  · cases ty with
    | nil => exact absurd rfl h3
    | cons x xs =>
      rintro (h | h)
      · simp at h
      · rw [List.cons_append, List.take_succ_cons] at h
        apply h4
        rw [List.head?_cons, (List.cons.inj h).1]

theorem readC_header {α : Type} (rd : List Char → Option α) (fixed : Bool) {L M K1 K2 : ℕ} (hL : 1 ≤ L)
    (hM : 1 ≤ M) (hK : 1 ≤ K1 + K2) (cell : ℕ → ℕ → ℕ → List Char) (r : ℕ → ℕ → ℕ → α)
    (hne : ∀ l k m, cell l k m ≠ []) (hch : ∀ l k m, ∀ ch ∈ cell l k m, numChar ch)
    (hrd : ∀ l k m, rd (cell l k m) = some (r l k m)) :
    readC rd (cHeader fixed L M K1 K2 cell) = some
      [.blank, .define "L" L, .define "M" M, .define "K1" K1, .define "K2" K2,
        .define "K3" (K1 + K2 : ℕ),
        .array (if fixed then "int" else "double") "h[L][M][K3]" (nested L M (K1 + K2) r), .blank] := by
  have hlit := literal_array braces hL hM hK cell fun l k m =>
    ⟨hne l k m, fun ch h => numChar_plain_c (hch l k m ch h)⟩
  have hcube := cube_array rd cell r L M (K1 + K2) hrd
  have hnl : '\n' ∉ arrayText '{' '}' L M (K1 + K2) cell :=
    arrayText_notMem (fun l k m h => (numChar_line (hch l k m _ h)).1 rfl) (by decide) (by decide)
      (by decide) (by decide)
  have hsp : ' ' ∉ arrayText '{' '}' L M (K1 + K2) cell :=
    arrayText_notMem (fun l k m h => (numChar_line (hch l k m _ h)).2.1 rfl) (by decide) (by decide)
      (by decide) (by decide)
  have hdef : ∀ (p nm : List Char) (n : ℤ), p = "#define".toList ++ ' ' :: (nm ++ [' ']) → '\n' ∉ p →
      ' ' ∉ nm → '\n' ∉ p ++ pyStr n ∧ readCLine rd (p ++ pyStr n) = some (.define (String.ofList nm) n) := by
    intro p nm n hp h1 h2
    refine ⟨fun h => ?_, ?_⟩
    · rcases List.mem_append.mp h with h | h
      · exact h1 h
      · exact (pyStr_notMem n).1 h
    · rw [← readCLine_define rd nm h2 n, hp]
      congr 1
      simp
  obtain ⟨a1, b1⟩ := hdef "#define L ".toList "L".toList L (by decide +kernel) (by decide +kernel) (by decide +kernel)
  obtain ⟨a2, b2⟩ := hdef "#define M ".toList "M".toList M (by decide +kernel) (by decide +kernel) (by decide +kernel)
  obtain ⟨a3, b3⟩ := hdef "#define K1 ".toList "K1".toList K1 (by decide +kernel) (by decide +kernel)
    (by decide +kernel)
  obtain ⟨a4, b4⟩ := hdef "#define K2 ".toList "K2".toList K2 (by decide +kernel) (by decide +kernel)
    (by decide +kernel)
  obtain ⟨a5, b5⟩ := hdef "#define K3 ".toList "K3".toList (K1 + K2 : ℕ) (by decide +kernel) (by decide +kernel)
    (by decide +kernel)
  have hdecl : ∃ p, (if fixed then "int h[L][M][K3] = ".toList else "double h[L][M][K3] = ".toList) = p ∧
      '\n' ∉ p ++ arrayText '{' '}' L M (K1 + K2) cell ∧
      readCLine rd (p ++ arrayText '{' '}' L M (K1 + K2) cell) = some (.array
        (if fixed then "int" else "double") "h[L][M][K3]" (nested L M (K1 + K2) r)) := by
    refine ⟨_, rfl, ?_, ?_⟩
    · rw [List.mem_append, not_or]
      refine ⟨?_, hnl⟩
      cases fixed <;> decide +kernel
    · cases fixed
      · have := readCLine_array rd "double".toList "h[L][M][K3]".toList (by decide +kernel) (by decide +kernel)
          (by decide +kernel) (by decide +kernel) _ hsp _ _ hlit hcube
        rw [String.ofList_toList, String.ofList_toList] at this
        rw [if_neg (by simp), if_neg (by simp), ← this]
        congr 1
      · have := readCLine_array rd "int".toList "h[L][M][K3]".toList (by decide +kernel) (by decide +kernel)
          (by decide +kernel) (by decide +kernel) _ hsp _ _ hlit hcube
        rw [String.ofList_toList, String.ofList_toList] at this
        rw [if_pos rfl, if_pos rfl, ← this]
        congr 1
  obtain ⟨p, hp, a6, b6⟩ := hdecl
  have htext : cHeader fixed L M K1 K2 cell = cComment ++ '\n' :: (("#define L ".toList ++ pyStr L) ++ '\n' ::
      (("#define M ".toList ++ pyStr M) ++ '\n' :: (("#define K1 ".toList ++ pyStr K1) ++ '\n' ::
      (("#define K2 ".toList ++ pyStr K2) ++ '\n' :: (("#define K3 ".toList ++ pyStr (K1 + K2 : ℕ)) ++ '\n' ::
      ((p ++ arrayText '{' '}' L M (K1 + K2) cell) ++ '\n' :: [])))))) := by
    unfold cHeader
    rw [hp]
    simp only [List.append_assoc, List.cons_append, List.nil_append]
  unfold readC
  rw [htext, split_append _ (by decide +kernel), split_append _ a1, split_append _ a2, split_append _ a3,
    split_append _ a4, split_append _ a5, split_append _ a6, split]
  simp only [allOf, readCLine_comment, readCLine_nil, b1, b2, b3, b4, b5, b6, String.ofList_toList]

/-! ### The Rust module -/

theorem readRustLine_comment {α : Type} (rd : List Char → Option α) :
    readRustLine rd rustComment = some .blank := by
  unfold readRustLine
  rw [if_pos]
  right
  decide +kernel

theorem readRustLine_nil {α : Type} (rd : List Char → Option α) : readRustLine rd [] = some .blank := by
  unfold readRustLine
  rw [if_pos (Or.inl rfl)]

theorem readRustLine_size {α : Type} (rd : List Char → Option α) (nm : List Char) (h : ' ' ∉ nm)
    (h' : ':' ∉ nm) (n : ℤ) :
    readRustLine rd ("let".toList ++ ' ' :: ((nm ++ [':']) ++ ' ' :: ("usize".toList ++ ' ' ::
      (['='] ++ ' ' :: (pyStr n ++ [';']))))) = some (.letUsize (String.ofList nm) n) := by
  have e1 : ' ' ∉ nm ++ [':'] := by
    rw [List.mem_append, not_or]; exact ⟨h, by decide⟩
  have e2 : ' ' ∉ pyStr n ++ [';'] := by
    rw [List.mem_append, not_or]; exact ⟨(pyStr_notMem n).2.1, by decide⟩
  unfold readRustLine
  rw [if_neg, split_append _ (by decide +kernel), split_append _ e1, split_append _ (by decide +kernel),
    split_append _ (by decide), split_single e2]
  · dsimp only
    rw [if_pos ⟨rfl, rfl⟩, if_pos rfl, split_append _ h', split_append _ (pyStr_notMem n).2.2.1]
    simp only [split]
    rw [readInt_pyStr]
    rfl
  · rintro (h | h)
    · simp at h
    · simp at h

theorem readRustLine_array {α : Type} (rd : List Char → Option α) (nm : List Char)
    (h : ' ' ∉ nm) (hu : nm ≠ "usize".toList) (t : List Char) (ht : ' ' ∉ t) (v : Lit)
    (a : List (List (List α))) (hv : literal '[' ']' t = some v) (ha : cube rd v = some a) :
    readRustLine rd ("let".toList ++ ' ' :: ("mut".toList ++ ' ' :: (nm ++ ' ' :: (['='] ++ ' ' :: t)))) =
      some (.letArray (String.ofList nm) a) := by
  unfold readRustLine
  rw [if_neg, split_append _ (by decide +kernel), split_append _ (by decide +kernel), split_append _ h,
    split_append _ (by decide), split_single ht]
  · dsimp only
    rw [if_pos ⟨rfl, rfl⟩, if_neg hu, if_pos rfl, hv]
    simp [ha]
  · rintro (h | h)
    · simp at h
    · simp at h

theorem readRust_module {α : Type} (rd : List Char → Option α) (fixed : Bool) {L M K1 K2 : ℕ} (hL : 1 ≤ L)
    (hM : 1 ≤ M) (hK : 1 ≤ K1 + K2) (cell : ℕ → ℕ → ℕ → List Char) (r : ℕ → ℕ → ℕ → α)
    (hne : ∀ l k m, cell l k m ≠ []) (hch : ∀ l k m, ∀ ch ∈ cell l k m, numChar ch)
    (hrd : ∀ l k m, rd (cell l k m) = some (r l k m)) :
    readRust rd (rustModule fixed L M K1 K2 cell) = some
      [.blank, .letUsize "L" L, .letUsize "M" M, .letUsize "K1" K1, .letUsize "K2" K2,
        .letUsize "K3" (K1 + K2 : ℕ), .letArray "h" (nested L M (K1 + K2) r), .blank] := by
  have hlit := literal_array squares hL hM hK cell fun l k m =>
    ⟨hne l k m, fun ch h => numChar_plain_rust (hch l k m ch h)⟩
  have hcube := cube_array rd cell r L M (K1 + K2) hrd
  have hnl : '\n' ∉ arrayText '[' ']' L M (K1 + K2) cell :=
    arrayText_notMem (fun l k m h => (numChar_line (hch l k m _ h)).1 rfl) (by decide) (by decide)
      (by decide) (by decide)
  have hsp : ' ' ∉ arrayText '[' ']' L M (K1 + K2) cell :=
    arrayText_notMem (fun l k m h => (numChar_line (hch l k m _ h)).2.1 rfl) (by decide) (by decide)
      (by decide) (by decide)
  have hdef : ∀ (p nm : List Char) (n : ℤ),
      p = "let".toList ++ ' ' :: ((nm ++ [':']) ++ ' ' :: ("usize".toList ++ ' ' :: (['='] ++ [' ']))) →
      '\n' ∉ p → ' ' ∉ nm → ':' ∉ nm → '\n' ∉ p ++ pyStr n ++ [';'] ∧
      readRustLine rd (p ++ pyStr n ++ [';']) = some (.letUsize (String.ofList nm) n) := by
    intro p nm n hp h1 h2 h3
    refine ⟨fun h => ?_, ?_⟩
    · rcases List.mem_append.mp h with h | h
      · rcases List.mem_append.mp h with h | h
        · exact h1 h
        · exact (pyStr_notMem n).1 h
      · simp at h
    · rw [← readRustLine_size rd nm h2 h3 n, hp]
      congr 1
      simp
  obtain ⟨a1, b1⟩ := hdef "let L: usize = ".toList "L".toList L (by decide +kernel) (by decide +kernel)
    (by decide +kernel) (by decide +kernel)
  obtain ⟨a2, b2⟩ := hdef "let M: usize = ".toList "M".toList M (by decide +kernel) (by decide +kernel)
    (by decide +kernel) (by decide +kernel)
  obtain ⟨a3, b3⟩ := hdef "let K1: usize = ".toList "K1".toList K1 (by decide +kernel) (by decide +kernel)
    (by decide +kernel) (by decide +kernel)
  obtain ⟨a4, b4⟩ := hdef "let K2: usize = ".toList "K2".toList K2 (by decide +kernel) (by decide +kernel)
    (by decide +kernel) (by decide +kernel)
  obtain ⟨a5, b5⟩ := hdef "let K3: usize = ".toList "K3".toList (K1 + K2 : ℕ) (by decide +kernel)
    (by decide +kernel) (by decide +kernel) (by decide +kernel)
  have a6 : '\n' ∉ "let mut h = ".toList ++ arrayText '[' ']' L M (K1 + K2) cell := by
    rw [List.mem_append, not_or]
    exact ⟨by decide +kernel, hnl⟩
  have b6 : readRustLine rd ("let mut h = ".toList ++ arrayText '[' ']' L M (K1 + K2) cell) =
      some (.letArray "h" (nested L M (K1 + K2) r)) := by
    have := readRustLine_array rd "h".toList (by decide +kernel) (by decide +kernel) _ hsp _ _ hlit hcube
    rw [String.ofList_toList] at this
    rw [← this]
    congr 1
  have htext : rustModule fixed L M K1 K2 cell = rustComment ++ '\n' ::
      (("let L: usize = ".toList ++ pyStr L ++ [';']) ++ '\n' ::
      (("let M: usize = ".toList ++ pyStr M ++ [';']) ++ '\n' ::
      (("let K1: usize = ".toList ++ pyStr K1 ++ [';']) ++ '\n' ::
      (("let K2: usize = ".toList ++ pyStr K2 ++ [';']) ++ '\n' ::
      (("let K3: usize = ".toList ++ pyStr (K1 + K2 : ℕ) ++ [';']) ++ '\n' ::
      (("let mut h = ".toList ++ arrayText '[' ']' L M (K1 + K2) cell) ++ '\n' :: [])))))) := by
    unfold rustModule
    rw [ite_self, show ";\n".toList = [';', '\n'] by decide +kernel]
    simp only [List.append_assoc, List.cons_append, List.nil_append]
  unfold readRust
  rw [htext, split_append _ (by decide +kernel), split_append _ a1, split_append _ a2, split_append _ a3,
    split_append _ a4, split_append _ a5, split_append _ a6, split]
  simp only [allOf, readRustLine_comment, readRustLine_nil, b1, b2, b3, b4, b5, b6, String.ofList_toList]

end Cbadc.Estimator.Export
