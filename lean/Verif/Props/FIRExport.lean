import Verif.Lemmas.FIRExportFiles
import Verif.Lemmas.FIRExportSci
import Verif.Lemmas.Estimator
import Verif.Props.FixedPoint
import Mathlib.Algebra.BigOperators.Intervals
import Mathlib.LinearAlgebra.Matrix.Notation

/-! # C122-C124: exports and reports of the FIR filter -/

namespace Cbadc.Estimator.Export

open Cbadc.Spec.Export Matrix

/-! ### C122 -/

/-- **C122** The C header of a fixed-point filter, read as C, defines the sizes of the filter and an array
`h[L][M][K3]` of integers holding exactly the taps. -/
theorem C122_c_fixed (L M K1 K2 : ℕ) (hL : 1 ≤ L) (hM : 1 ≤ M) (hK : 1 ≤ K2) (h : ℕ → ℕ → ℕ → ℤ) :
    readC readInt (cHeaderFixed L M K1 K2 h) = some
      [.blank, .define "L" L, .define "M" M, .define "K1" K1, .define "K2" K2, .define "K3" (K1 + K2 : ℕ),
        .array "int" "h[L][M][K3]" (nested L M (K1 + K2) h), .blank] :=
  readC_header readInt true hL hM (by omega) _ h (fun _ _ _ => pyStr_ne_nil _)
    (fun _ _ _ _ hc => pyStr_numChar hc) (fun _ _ _ => readInt_pyStr _)

/-- **C122** The Rust module of a fixed-point filter holds exactly the sizes and the taps. -/
theorem C122_rust_fixed (L M K1 K2 : ℕ) (hL : 1 ≤ L) (hM : 1 ≤ M) (hK : 1 ≤ K2) (h : ℕ → ℕ → ℕ → ℤ) :
    readRust readInt (rustFixed L M K1 K2 h) = some
      [.blank, .letUsize "L" L, .letUsize "M" M, .letUsize "K1" K1, .letUsize "K2" K2,
        .letUsize "K3" (K1 + K2 : ℕ), .letArray "h" (nested L M (K1 + K2) h), .blank] :=
  readRust_module readInt true hL hM (by omega) _ h (fun _ _ _ => pyStr_ne_nil _)
    (fun _ _ _ _ hc => pyStr_numChar hc) (fun _ _ _ => readInt_pyStr _)

/-- **C122** The C header of a floating-point filter: the numbers written are so close to the taps that
rounding each to the nearest double gives back the tap itself. -/
theorem C122_c_float (L M K1 K2 : ℕ) (hL : 1 ≤ L) (hM : 1 ≤ M) (hK : 1 ≤ K2) (h : ℕ → ℕ → ℕ → ℚ)
    (hd : ∀ l k m, Double (h l k m)) :
    ∃ r : ℕ → ℕ → ℕ → ℚ, readC (readSci 'E') (cHeaderFloat L M K1 K2 h) = some
      [.blank, .define "L" L, .define "M" M, .define "K1" K1, .define "K2" K2, .define "K3" (K1 + K2 : ℕ),
        .array "double" "h[L][M][K3]" (nested L M (K1 + K2) r), .blank] ∧
      ∀ l k m, NearestDouble (r l k m) (h l k m) := by
  choose r hr hb using fun x : ℚ => readSci_sci (ech := 'E') (Or.inl rfl) x
  exact ⟨fun l k m => r (h l k m), readC_header (readSci 'E') false hL hM (by omega) _ _
    (fun _ _ _ => sci_ne_nil _ _) (fun _ _ _ _ hc => sci_numChar (Or.inl rfl) hc) (fun _ _ _ => hr _),
    fun l k m => nearest_of_close (hd l k m) (hb _)⟩

/-- **C122** The Rust module of a floating-point filter likewise. -/
theorem C122_rust_float (L M K1 K2 : ℕ) (hL : 1 ≤ L) (hM : 1 ≤ M) (hK : 1 ≤ K2) (h : ℕ → ℕ → ℕ → ℚ)
    (hd : ∀ l k m, Double (h l k m)) :
    ∃ r : ℕ → ℕ → ℕ → ℚ, readRust (readSci 'e') (rustFloat L M K1 K2 h) = some
      [.blank, .letUsize "L" L, .letUsize "M" M, .letUsize "K1" K1, .letUsize "K2" K2,
        .letUsize "K3" (K1 + K2 : ℕ), .letArray "h" (nested L M (K1 + K2) r), .blank] ∧
      ∀ l k m, NearestDouble (r l k m) (h l k m) := by
  choose r hr hb using fun x : ℚ => readSci_sci (ech := 'e') (Or.inr rfl) x
  exact ⟨fun l k m => r (h l k m), readRust_module (readSci 'e') false hL hM (by omega) _ _
    (fun _ _ _ => sci_ne_nil _ _) (fun _ _ _ _ hc => sci_numChar (Or.inr rfl) hc) (fun _ _ _ => hr _),
    fun l k m => nearest_of_close (hd l k m) (hb _)⟩

/-- A header for two inputs, one control and two taps. -/
example : readC readInt (cHeaderFixed 2 1 1 1 fun l k _ => (-1) ^ l * (10 * l + 3 * k)) = some
    [.blank, .define "L" 2, .define "M" 1, .define "K1" 1, .define "K2" 1, .define "K3" 2,
      .array "int" "h[L][M][K3]" [[[0, 3]], [[-10, -13]]], .blank] :=
  C122_c_fixed 2 1 1 1 (by norm_num) le_rfl le_rfl _

/-- `C122_rust_fixed` -/
example : rustFixed 2 1 1 1 (fun l k _ => (-1) ^ l * (10 * l + 3 * k)) = rustComment ++
    "\nlet L: usize = 2;\nlet M: usize = 1;\nlet K1: usize = 1;\nlet K2: usize = 1;\nlet K3: usize = 2;\nlet mut h = [[[0,3]],[[-10,-13]]];\n".toList := by
  decide +kernel

/-- Formats of some doubles; the last one is rounded. -/
example : sci 'E' (-3 / 4) = "-7.50000000000000000E-01".toList ∧
    sci 'e' 1024 = "1.02400000000000000e+03".toList ∧
    sci 'E' (1 / 2 ^ 60) = "8.67361737988403547E-19".toList := by
  refine ⟨?_, ?_, ?_⟩ <;> decide +kernel

/-- `C122_c_float` -/
example : Double (-3 / 4) ∧ Double 1024 ∧ Double (1 / 2 ^ 60) :=
  ⟨⟨-3, -2, by norm_num, by norm_num⟩, ⟨1, 10, by norm_num, by norm_num⟩,
    ⟨1, -60, by norm_num, by norm_num⟩⟩

/-- **C122** The extension is appended once. -/
theorem C122_file_name (ext name : List Char) :
    ext <:+ fileName ext name ∧ fileName ext (fileName ext name) = fileName ext name ∧
      (fileName ext name = name ∨ fileName ext name = name ++ ext) := by
  have h : ext <:+ fileName ext name ∧ (fileName ext name = name ∨ fileName ext name = name ++ ext) := by
    unfold fileName
    by_cases h : ext.isSuffixOf name = true
    · rw [if_pos h]
      exact ⟨List.isSuffixOf_iff_suffix.mp h, Or.inl rfl⟩
    · rw [if_neg h]
      exact ⟨List.suffix_append _ _, Or.inr rfl⟩
  refine ⟨h.1, ?_, h.2⟩
  generalize fileName ext name = u at h
  unfold fileName
  rw [if_pos (List.isSuffixOf_iff_suffix.mpr h.1)]

example : fileName ".h".toList "fir".toList = "fir.h".toList ∧
    fileName ".h".toList "fir.h".toList = "fir.h".toList := by decide +kernel

/-- **C122** The integers of a format of at most 31 bits fit the type `int` of the header. -/
theorem C122_int_fits_partial {K : Type*} [Field K] [LinearOrder K] [IsStrictOrderedRing K] [FloorRing K]
    (bits : ℕ) (hb : bits ≤ 31) (max : K) (hmax : 0 < max) (fp : FixedPoint K)
    (hfp : FixedPoint.new bits max = .ok fp) (v : K) (n : ℤ) (hn : fp.floatToFixed v = .ok n) : FitsInt32 n := by
  obtain ⟨h1, -, -, him, -, -⟩ := FixedPoint.new_spec bits max hmax fp hfp
  obtain ⟨w, hw, -⟩ := C07_roundtrip_error bits max hmax fp hfp v n hn
  unfold FixedPoint.fixedToFloat at hw
  split_ifs at hw with h
  rw [him] at h
  have h2 : (2 : ℤ) ^ (bits - 1) ≤ 2 ^ 30 := pow_le_pow_right₀ (by norm_num) (by omega)
  have h3 := abs_le.mp (not_lt.mp h)
  constructor <;> norm_num at h2 ⊢ <;> omega

/-- **C122** With a wider format the header declares `int`s that its numbers do not fit. -/
theorem C122_int_false : ∃ (fp : FixedPoint ℚ) (n : ℤ), FixedPoint.new 40 1 = .ok fp ∧
    fp.floatToFixed (1 / 2) = .ok n ∧ ¬ FitsInt32 n ∧
    readC readInt (cHeaderFixed 1 1 0 1 fun _ _ _ => n) = some
      [.blank, .define "L" 1, .define "M" 1, .define "K1" 0, .define "K2" 1, .define "K3" 1,
        .array "int" "h[L][M][K3]" [[[n]]], .blank] := by
  refine ⟨⟨40, 1, 2 ^ 39, 2 ^ 39⟩, 2 ^ 38, ?_, ?_, ?_, ?_⟩
  · simp [FixedPoint.new]
    norm_num
  · have : (1 / 2 * 2 ^ 39 : ℚ) = ((2 ^ 38 : ℤ) : ℚ) := by norm_num
    unfold FixedPoint.floatToFixed
    dsimp only
    rw [if_neg (by rw [abs_of_pos] <;> norm_num), this, pyInt_intCast]
  · unfold FitsInt32; norm_num
  · exact C122_c_fixed 1 1 0 1 le_rfl le_rfl le_rfl _

/-! ### C123 -/

variable {K : Type*} [CommRing K] {M L : ℕ}

/-- **C123** Every estimate of a FIR filter is the convolution of the control sequence `2 s - 1` with the
impulse response, plus the offset; the newest control vector is number `downsample * (n + 1) - 1`. -/
theorem C123_convolution (f : FIR K M L) (hds : f.ds ≤ f.K1 + f.K2) (src : ℕ → Res (Fin M → K))
    (s : ℕ → Fin M → K) (n : ℕ) (hlim : f.limit = 0 ∨ f.ds * (n + 1) ≤ f.limit)
    (hs : ∀ j < f.ds * (n + 1), src j = .ok (s j)) :
    Streams.call (f.next src) FIRState.init n = .ok
      (∑ k ∈ Finset.range (f.K1 + f.K2), impulseResponse (f.K1 + f.K2) f.h k *ᵥ
        Spec.ext s ((f.ds * (n + 1) : ℕ) - 1 - (k : ℤ)) + f.offset) := by
  rw [fir_call f src s FIRState.init hds n (by simpa [FIRState.init] using hlim)
    (by simpa [FIRState.init] using hs)]
  congr 2
  simp only [FIRState.init]
  rw [← Finset.sum_range_reflect]
  funext l
  unfold tensordot
  rw [Finset.sum_apply]
  apply Finset.sum_congr rfl
  intro k hk
  have hk := Finset.mem_range.mp hk
  rw [firWindow_init]
  unfold impulseResponse
  rw [show f.K1 + f.K2 - 1 - (f.K1 + f.K2 - 1 - k) = k by omega]
  rw [show ((f.ds * (n + 1) : ℕ) : ℤ) - 1 - ((f.K1 + f.K2 - 1 - k : ℕ) : ℤ) =
    ((f.ds * (n + 1) : ℕ) : ℤ) - ((f.K1 + f.K2 : ℕ) : ℤ) + k by omega]
  rfl

/-- The first two estimates of a filter with the taps 1 (older) and 2 (newest) and the offset 5, for the
control signals 1, 0. -/
example : Streams.call ((⟨1, 1, 1, 0, fun k => !![(k : ℚ) + 1], ![5]⟩ : FIR ℚ 1 1).next
      fun n => .ok ![if n = 0 then 1 else 0]) FIRState.init 0 = .ok ![7] ∧
    Streams.call ((⟨1, 1, 1, 0, fun k => !![(k : ℚ) + 1], ![5]⟩ : FIR ℚ 1 1).next
      fun n => .ok ![if n = 0 then 1 else 0]) FIRState.init 1 = .ok ![4] := by
  have h := fun n => C123_convolution (⟨1, 1, 1, 0, fun k => !![(k : ℚ) + 1], ![5]⟩ : FIR ℚ 1 1)
    (by norm_num) (fun n => .ok ![if n = 0 then 1 else 0]) (fun n => ![if n = 0 then 1 else 0]) n
    (Or.inl rfl) (fun _ _ => rfl)
  refine ⟨(h 0).trans ?_, (h 1).trans ?_⟩ <;> congr 1 <;> ext l <;> fin_cases l <;>
    simp [Finset.sum_range_succ, impulseResponse, Spec.ext] <;> norm_num

/-- **C123** The two results of `fir_filter_transfer_function` have the same length, one more than the
documented `K3 // 2`; entry `i` belongs to `i` periods in the `K3` samples of the filter. -/
theorem C123_frequencies (K3 : ℕ) (hK : 1 ≤ K3) (Ts : ℝ) (hTs : Ts ≠ 0)
    (h : ℕ → Matrix (Fin L) (Fin M) ℝ) (l : Fin L) (m : Fin M) :
    (frequencies K3 Ts).length = K3 / 2 + 1 ∧ (transferFunction K3 h l m).length = K3 / 2 + 1 ∧
      ∀ i (hi : i < (frequencies K3 Ts).length), (frequencies K3 Ts)[i] * (K3 * Ts) = i := by
  refine ⟨by simp [frequencies], by simp [transferFunction], ?_⟩
  intro i hi
  have : (K3 : ℝ) ≠ 0 := by exact_mod_cast (by omega : K3 ≠ 0)
  simp only [frequencies, List.getElem_map, List.getElem_range]
  field_simp

example : frequencies 5 2 = [0, 1 / 10, 1 / 5] := by
  simp [frequencies, List.range_succ]; norm_num

/-- **C123** The returned transform is the complex conjugate of the frequency response of the filter, times
a delay of `K3 - 1` samples: the magnitudes are those of the filter. -/
theorem C123_response_partial (K3 : ℕ) (hK : 1 ≤ K3) (Ts : ℝ) (hTs : Ts ≠ 0)
    (h : ℕ → Matrix (Fin L) (Fin M) ℝ) (l : Fin L) (m : Fin M) (i : ℕ)
    (hi : i < (transferFunction K3 h l m).length) (hi' : i < (frequencies K3 Ts).length) :
    let w := 2 * Real.pi * (frequencies K3 Ts)[i] * Ts
    let G := response K3 (impulseResponse K3 h) l m w
    (transferFunction K3 h l m)[i] =
      Complex.exp (-(Complex.I * w * (K3 - 1 : ℕ))) * (starRingEnd ℂ) G ∧
    ‖(transferFunction K3 h l m)[i]‖ = ‖G‖ := by
  intro w G
  have hK0 : (K3 : ℝ) ≠ 0 := by exact_mod_cast (by omega : K3 ≠ 0)
  have hw : w = 2 * Real.pi * (i / K3) := by
    simp only [w, frequencies, List.getElem_map, List.getElem_range]
    field_simp
  have key : (transferFunction K3 h l m)[i] =
      Complex.exp (-(Complex.I * w * (K3 - 1 : ℕ))) * (starRingEnd ℂ) G := by
    simp only [transferFunction, List.getElem_map, List.getElem_range, G, response]
    rw [map_sum, ← Finset.sum_range_reflect, Finset.mul_sum]
    apply Finset.sum_congr rfl
    intro k hk
    have hk := Finset.mem_range.mp hk
    rw [map_mul, Complex.conj_ofReal, ← Complex.exp_conj]
    simp only [map_neg, map_mul, Complex.conj_I, Complex.conj_ofReal, map_natCast, impulseResponse]
    rw [mul_left_comm, ← Complex.exp_add, hw]
    congr 2
    push_cast [Nat.cast_sub (show 1 ≤ K3 by omega), Nat.cast_sub (show k ≤ K3 - 1 by omega)]
    have : (K3 : ℂ) ≠ 0 := by exact_mod_cast (by omega : K3 ≠ 0)
    field_simp
    ring
  refine ⟨key, ?_⟩
  rw [key, norm_mul, Complex.norm_exp, RCLike.norm_conj]
  simp

/-- Three taps 1, 2, 3: at a third of the sampling rate the transform has the magnitude of the response. -/
example : ∃ (hi : 1 < (transferFunction 3 (fun k => !![(k : ℝ) + 1]) (0 : Fin 1) (0 : Fin 1)).length),
    ‖(transferFunction 3 (fun k => !![(k : ℝ) + 1]) (0 : Fin 1) (0 : Fin 1))[1]‖ =
      ‖response 3 (fun k => !![((2 - k : ℕ) : ℝ) + 1]) (0 : Fin 1) (0 : Fin 1) (2 * Real.pi / 3)‖ := by
  refine ⟨by simp [transferFunction], ?_⟩
  rw [(C123_response_partial 3 (by norm_num) 1 one_ne_zero _ _ _ 1 (by simp [transferFunction])
    (by simp [frequencies])).2]
  congr 2
  simp [frequencies]
  ring

/-- **C123** It is not the frequency response itself: four taps, at a quarter of the sampling rate. -/
theorem C123_response_false : ∃ (h : ℕ → Matrix (Fin 1) (Fin 1) ℝ)
    (_ : 1 < (transferFunction 4 h 0 0).length) (_hi' : 1 < (frequencies 4 1).length),
    (transferFunction 4 h 0 0)[1] ≠
      response 4 (impulseResponse 4 h) 0 0 (2 * Real.pi * (frequencies 4 1)[1] * 1) := by
  refine ⟨fun k _ _ => if k = 0 then 1 else 0, by simp [transferFunction], by simp [frequencies], ?_⟩
  simp only [transferFunction, frequencies, List.getElem_map, List.getElem_range, response,
    impulseResponse, Finset.sum_range_succ, Finset.sum_range_zero]
  simp
  rw [show Complex.I * (2 * (Real.pi : ℂ) * 4⁻¹) * 3 = Real.pi * Complex.I + Real.pi / 2 * Complex.I by ring,
    neg_add, Complex.exp_add, Complex.exp_neg, Complex.exp_pi_mul_I, Complex.exp_neg,
    Complex.exp_pi_div_two_mul_I]
  intro hc
  have := congrArg Complex.im hc
  simp at this

/-! ### C124 -/

/-- The reported number is the number of positive taps. -/
theorem numberOfCoefficients_eq {K : Type*} [Zero K] [LinearOrder K] (K3 : ℕ)
    (h : ℕ → Matrix (Fin L) (Fin M) K) : numberOfCoefficients K3 h =
      ((Finset.univ : Finset (Fin L × Fin K3 × Fin M)).filter fun p => 0 < h p.2.1 p.1 p.2.2).card := by
  unfold numberOfCoefficients
  rw [Finset.card_filter, Fintype.sum_prod_type]
  apply Finset.sum_congr rfl
  intro l _
  rw [Fintype.sum_prod_type, Finset.sum_range]

/-- **C124** The reported number counts the positive taps: it is at most the number of non-zero taps, with
equality exactly when no tap is negative. -/
theorem C124_count_partial {K : Type*} [Zero K] [LinearOrder K] (K3 : ℕ)
    (h : ℕ → Matrix (Fin L) (Fin M) K) :
    numberOfCoefficients K3 h ≤ nonZeroTaps K3 h ∧
      (numberOfCoefficients K3 h = nonZeroTaps K3 h ↔ ∀ l m, ∀ k < K3, 0 ≤ h k l m) := by
  have hsub : ((Finset.univ : Finset (Fin L × Fin K3 × Fin M)).filter fun p => 0 < h p.2.1 p.1 p.2.2) ⊆
      (Finset.univ : Finset (Fin L × Fin K3 × Fin M)).filter fun p => h p.2.1 p.1 p.2.2 ≠ 0 := by
    intro p hp
    rw [Finset.mem_filter] at hp ⊢
    exact ⟨hp.1, ne_of_gt hp.2⟩
  rw [numberOfCoefficients_eq]
  unfold nonZeroTaps
  refine ⟨Finset.card_le_card hsub, ?_⟩
  constructor
  · intro he l m k hk
    have := Finset.eq_of_subset_of_card_le hsub he.ge
    by_contra hneg
    have hm : (l, (⟨k, hk⟩ : Fin K3), m) ∈
        (Finset.univ : Finset (Fin L × Fin K3 × Fin M)).filter fun p => h p.2.1 p.1 p.2.2 ≠ 0 := by
      rw [Finset.mem_filter]
      exact ⟨Finset.mem_univ _, fun h0 => hneg (ge_of_eq h0)⟩
    rw [← this, Finset.mem_filter] at hm
    exact hneg hm.2.le
  · intro hp
    congr 1
    apply Finset.Subset.antisymm hsub
    intro p hq
    rw [Finset.mem_filter] at hq ⊢
    exact ⟨hq.1, lt_of_le_of_ne (hp _ _ _ p.2.1.isLt) (Ne.symm hq.2)⟩

/-- **C124** A filter of two taps, both non-zero, of which one is reported. -/
theorem C124_count_false : ∃ (c : Coeffs ℚ 1 1 1) (f : FIR ℚ 1 1),
    FIR.new c 1 1 1 false 1 0 none = .ok f ∧ numberOfCoefficients (f.K1 + f.K2) f.h = 1 ∧
      nonZeroTaps (f.K1 + f.K2) f.h = 2 := by
  refine ⟨⟨!![1 / 2], !![1 / 3], !![1], !![2], !![1]⟩, _, rfl, ?_, ?_⟩
  · decide +kernel
  · decide +kernel

/-- `C124_count_partial`: A filter without negative taps: all three are counted. -/
example : (∀ (l m : Fin 1), ∀ k < 3, (0 : ℚ) ≤ (fun k : ℕ => !![(k : ℚ) + 1]) k l m) ∧
    numberOfCoefficients 3 (fun k : ℕ => !![(k : ℚ) + 1]) = 3 := by
  refine ⟨?_, by decide +kernel⟩
  intro l m k _
  fin_cases l; fin_cases m
  simp
  positivity

/-- `C122_int_fits_partial`: the 8-bit format with the largest number 4, and the number -3. -/
example : FitsInt32 (-96) :=
  C122_int_fits_partial 8 (by decide) (4 : ℚ) (by norm_num) ⟨8, 4, 128, 32⟩ (by
    simp [FixedPoint.new]; norm_num) (-3) (-96) (by
    rw [FixedPoint.floatToFixed]
    norm_num [pyInt])


end Cbadc.Estimator.Export
