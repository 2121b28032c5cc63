import Mathlib.Tactic.Linarith
import Mathlib.Tactic.FieldSimp
import Mathlib.Tactic.Positivity
import Mathlib.Data.Rat.Floor
import Verif.Model.FixedPoint

/-! # C07-C10: fixed-point conversion -/

namespace Cbadc

variable {K : Type*} [Field K] [LinearOrder K] [IsStrictOrderedRing K] [FloorRing K]

omit [FloorRing K] in
/-- attributes of a constructed object with positive maximum -/
theorem FixedPoint.new_spec (bits : ℕ) (max : K) (hmax : 0 < max) (fp : FixedPoint K)
    (h : FixedPoint.new bits max = .ok fp) :
    1 ≤ bits ∧ fp.bits = bits ∧ fp.max = max ∧ fp.intMax = 2 ^ (bits - 1) ∧ 0 < fp.scale ∧
      fp.scale * max = (fp.intMax : K) := by
  unfold FixedPoint.new at h
  split_ifs at h with h1 h2
  simp only [Except.ok.injEq] at h
  subst h
  refine ⟨by omega, rfl, rfl, rfl, ?_, ?_⟩
  · have : (0 : K) < ((2 ^ (bits - 1) : ℤ) : K) := by exact_mod_cast pow_pos (by norm_num : (0:ℤ) < 2) _
    exact div_pos this hmax
  · simp only
    field_simp

omit [IsStrictOrderedRing K] in
theorem pyInt_nonneg {x : K} (h : 0 ≤ x) : pyInt x = ⌊x⌋ := by simp [pyInt, h]

theorem pyInt_neg (x : K) : pyInt (-x) = -pyInt x := by
  unfold pyInt
  rcases lt_trichotomy x 0 with h | h | h
  · rw [if_pos (by linarith), if_neg (by linarith), Int.floor_neg]
  · subst h; simp
  · rw [if_neg (by linarith), if_pos h.le, Int.ceil_neg]

theorem pyInt_intCast (n : ℤ) : pyInt (n : K) = n := by
  unfold pyInt; split_ifs <;> simp

theorem pyInt_mono {x y : K} (h : x ≤ y) : pyInt x ≤ pyInt y := by
  unfold pyInt
  split_ifs with h1 h2 h2
  · exact Int.floor_le_floor h
  · linarith
  · have h3 : ⌈x⌉ ≤ 0 := by rw [Int.ceil_le]; push_cast; linarith
    have h4 : 0 ≤ ⌊y⌋ := by rw [Int.le_floor]; push_cast; exact h2
    omega
  · exact Int.ceil_le_ceil h

/-- truncation is toward zero and loses less than one -/
theorem pyInt_bounds (x : K) :
    (0 ≤ x → 0 ≤ (pyInt x : K) ∧ (pyInt x : K) ≤ x ∧ x < pyInt x + 1) ∧
    (x ≤ 0 → x ≤ (pyInt x : K) ∧ (pyInt x : K) ≤ 0 ∧ (pyInt x : K) - 1 < x) := by
  constructor
  · intro h
    rw [pyInt_nonneg h]
    refine ⟨?_, Int.floor_le x, Int.lt_floor_add_one x⟩
    exact_mod_cast Int.floor_nonneg.mpr h
  · intro h
    have : pyInt x = ⌈x⌉ := by
      unfold pyInt
      split_ifs with h1
      · have : x = 0 := le_antisymm h h1
        subst this; simp
      · rfl
    rw [this]
    refine ⟨Int.le_ceil x, ?_, by linarith [Int.ceil_lt_add_one x]⟩
    have : ⌈x⌉ ≤ 0 := by rw [Int.ceil_le]; push_cast; exact h
    exact_mod_cast this

/-- **C07** converting to fixed point and back: succeeds, loses strictly less than one step, never grows in
magnitude and never changes sign. -/
theorem C07_roundtrip_error (bits : ℕ) (max : K) (hmax : 0 < max) (fp : FixedPoint K)
    (hfp : FixedPoint.new bits max = .ok fp) (v : K) (n : ℤ) (hn : fp.floatToFixed v = .ok n) :
    ∃ w, fp.fixedToFloat n = .ok w ∧ |v - w| < 1 / fp.scale ∧ |w| ≤ |v| ∧ 0 ≤ w * v := by
  obtain ⟨-, -, hm, him, hs, hsm⟩ := FixedPoint.new_spec bits max hmax fp hfp
  unfold FixedPoint.floatToFixed at hn
  split_ifs at hn with hv
  simp only [Except.ok.injEq] at hn
  rw [hm] at hv
  push Not at hv
  obtain ⟨hvl, hvu⟩ := abs_le.mp hv
  have hup : v * fp.scale ≤ (fp.intMax : K) := by rw [← hsm]; nlinarith
  have hlo : -(fp.intMax : K) ≤ v * fp.scale := by rw [← hsm]; nlinarith
  have hb := pyInt_bounds (v * fp.scale)
  rw [hn] at hb
  have habs : |n| ≤ fp.intMax := by
    rw [abs_le]
    constructor
    · have h1 := pyInt_mono (K := K) hlo
      rw [hn, show -(fp.intMax : K) = ((-fp.intMax : ℤ) : K) by push_cast; rfl, pyInt_intCast] at h1
      exact h1
    · have h1 := pyInt_mono (K := K) hup
      rw [hn, pyInt_intCast] at h1
      exact h1
  refine ⟨n / fp.scale, ?_, ?_, ?_, ?_⟩
  · unfold FixedPoint.fixedToFloat; rw [if_neg (by omega)]
  · have e : v - n / fp.scale = (v * fp.scale - n) / fp.scale := by field_simp
    rw [e, abs_div, abs_of_pos hs]
    apply div_lt_div_of_pos_right _ hs
    rw [abs_lt]
    rcases le_total 0 (v * fp.scale) with h0 | h0
    · have := hb.1 h0; constructor <;> linarith [this.1, this.2.1, this.2.2]
    · have := hb.2 h0; constructor <;> linarith [this.1, this.2.1, this.2.2]
  · rw [abs_div, abs_of_pos hs, div_le_iff₀ hs]
    have : |v| * fp.scale = |v * fp.scale| := by rw [abs_mul, abs_of_pos hs]
    rw [this]
    rcases le_total 0 (v * fp.scale) with h0 | h0
    · have := hb.1 h0
      rw [abs_of_nonneg this.1, abs_of_nonneg h0]; exact this.2.1
    · have := hb.2 h0
      rw [abs_of_nonpos this.2.1, abs_of_nonpos h0]; linarith [this.1]
  · rcases le_total 0 (v * fp.scale) with h0 | h0
    · have h1 := hb.1 h0
      have h2 : 0 ≤ v := by
        by_contra hc; push Not at hc; nlinarith
      exact mul_nonneg (div_nonneg h1.1 hs.le) h2
    · have h1 := hb.2 h0
      have h2 : v ≤ 0 := by
        by_contra hc; push Not at hc; nlinarith
      exact mul_nonneg_of_nonpos_of_nonpos (div_nonpos_of_nonpos_of_nonneg h1.2.1 hs.le) h2

/-- a concrete 8-bit fixed-point format used by the examples -/
def fp8 : FixedPoint ℚ := ⟨8, 2, 128, 64⟩

theorem fp8_new : FixedPoint.new 8 (2 : ℚ) = .ok fp8 := by
  simp [FixedPoint.new, fp8]; norm_num

example : FixedPoint.new 8 (2 : ℚ) = .ok fp8 ∧ fp8.floatToFixed (-3 / 7) = .ok (-27) := by
  refine ⟨fp8_new, ?_⟩
  have h : ⌈(-3 / 7 * 64 : ℚ)⌉ = -27 := by rw [Int.ceil_eq_iff]; norm_num
  have h1 : ¬ (|(-3 / 7 : ℚ)| > 2) := by rw [abs_of_neg] <;> norm_num
  have h2 : ¬ ((0 : ℚ) ≤ -3 / 7 * 64) := by norm_num
  simp [FixedPoint.floatToFixed, fp8, pyInt, h, h2]
  rw [abs_of_neg] <;> norm_num

/-- **C08** an accepted integer survives the trip through floating point. -/
theorem C08_int_roundtrip (bits : ℕ) (max : K) (hmax : 0 < max) (fp : FixedPoint K)
    (hfp : FixedPoint.new bits max = .ok fp) (n : ℤ) (w : K) (hw : fp.fixedToFloat n = .ok w) :
    fp.floatToFixed w = .ok n := by
  obtain ⟨-, -, hm, him, hs, hsm⟩ := FixedPoint.new_spec bits max hmax fp hfp
  unfold FixedPoint.fixedToFloat at hw
  split_ifs at hw with hn
  simp only [Except.ok.injEq] at hw
  have hws : w * fp.scale = n := by rw [← hw]; field_simp
  have hnn : |n| ≤ fp.intMax := by omega
  have h1 : |w| ≤ fp.max := by
    rw [hm]
    have h2 : |w| * fp.scale ≤ max * fp.scale := by
      calc |w| * fp.scale = |w * fp.scale| := by rw [abs_mul, abs_of_pos hs]
        _ = |(n : K)| := by rw [hws]
        _ = ((|n| : ℤ) : K) := by push_cast; rfl
        _ ≤ (fp.intMax : K) := by exact_mod_cast hnn
        _ = max * fp.scale := by rw [← hsm]; ring
    exact le_of_mul_le_mul_right h2 hs
  unfold FixedPoint.floatToFixed
  rw [if_neg (not_lt.mpr h1), hws, pyInt_intCast]

example : fp8.fixedToFloat (-27) = .ok (-27 / 64) := by
  have : ¬ (|(-27 : ℤ)| > 128) := by decide
  simp [FixedPoint.fixedToFloat, fp8]

/-- **C08** `fixed_to_float` is injective on accepted integers. -/
theorem C08_injective (bits : ℕ) (max : K) (hmax : 0 < max) (fp : FixedPoint K)
    (hfp : FixedPoint.new bits max = .ok fp) (m n : ℤ) (w : K) (hm : fp.fixedToFloat m = .ok w)
    (hn : fp.fixedToFloat n = .ok w) : m = n := by
  have h1 := C08_int_roundtrip bits max hmax fp hfp m w hm
  have h2 := C08_int_roundtrip bits max hmax fp hfp n w hn
  rw [h1] at h2
  simpa using h2

/-- **C08** `float_to_fixed` is monotone. -/
theorem C08_monotone (bits : ℕ) (max : K) (hmax : 0 < max) (fp : FixedPoint K)
    (hfp : FixedPoint.new bits max = .ok fp) (v w : K) (m n : ℤ) (hvw : v ≤ w)
    (hm : fp.floatToFixed v = .ok m) (hn : fp.floatToFixed w = .ok n) : m ≤ n := by
  obtain ⟨-, -, -, -, hs, -⟩ := FixedPoint.new_spec bits max hmax fp hfp
  unfold FixedPoint.floatToFixed at hm hn
  split_ifs at hm hn
  simp only [Except.ok.injEq] at hm hn
  rw [← hm, ← hn]
  exact pyInt_mono (mul_le_mul_of_nonneg_right hvw hs.le)

/-- **C08** both conversions are odd functions. -/
theorem C08_odd (fp : FixedPoint K) (v : K) (n : ℤ) :
    (fp.floatToFixed v = .ok n → fp.floatToFixed (-v) = .ok (-n)) ∧
    (fp.fixedToFloat n = .ok v → fp.fixedToFloat (-n) = .ok (-v)) := by
  constructor
  · intro h
    unfold FixedPoint.floatToFixed at h ⊢
    rw [abs_neg]
    split_ifs at h ⊢ with h1
    simp only [Except.ok.injEq] at h ⊢
    rw [neg_mul, pyInt_neg, h]
  · intro h
    unfold FixedPoint.fixedToFloat at h ⊢
    rw [abs_neg]
    split_ifs at h ⊢ with h1
    simp only [Except.ok.injEq] at h ⊢
    rw [← h]; push_cast; ring

/-- **C09** `float_to_fixed` raises exactly outside `[-max, max]`; inside, the integer has magnitude at most
`2^(bits-1)` and is accepted by `fixed_to_float`. -/
theorem C09_float_range (bits : ℕ) (max : K) (hmax : 0 < max) (fp : FixedPoint K)
    (hfp : FixedPoint.new bits max = .ok fp) (v : K) :
    (fp.floatToFixed v = .error .arithmeticError ↔ max < |v|) ∧
    (|v| ≤ max → ∃ n, fp.floatToFixed v = .ok n ∧ |n| ≤ 2 ^ (bits - 1) ∧
      ∃ w, fp.fixedToFloat n = .ok w) := by
  obtain ⟨-, -, hm, him, hs, hsm⟩ := FixedPoint.new_spec bits max hmax fp hfp
  constructor
  · unfold FixedPoint.floatToFixed
    rw [hm]
    by_cases h : max < |v| <;> simp [h]
  · intro h
    have h1 : fp.floatToFixed v = .ok (pyInt (v * fp.scale)) := by
      unfold FixedPoint.floatToFixed; rw [if_neg (by rw [hm]; exact not_lt.mpr h)]
    obtain ⟨w, hw, -⟩ := C07_roundtrip_error bits max hmax fp hfp v _ h1
    refine ⟨_, h1, ?_, w, hw⟩
    unfold FixedPoint.fixedToFloat at hw
    split_ifs at hw with h2
    rw [him] at h2; omega

/-- **C09** `fixed_to_float` raises exactly for `|n| > 2^(bits-1)`; otherwise the value lies in
`[-max, max]` and is accepted by `float_to_fixed`. -/
theorem C09_fixed_range (bits : ℕ) (max : K) (hmax : 0 < max) (fp : FixedPoint K)
    (hfp : FixedPoint.new bits max = .ok fp) (n : ℤ) :
    (fp.fixedToFloat n = .error .arithmeticError ↔ (2 ^ (bits - 1) : ℤ) < |n|) ∧
    (|n| ≤ 2 ^ (bits - 1) → ∃ w, fp.fixedToFloat n = .ok w ∧ |w| ≤ max) := by
  obtain ⟨-, -, hm, him, hs, hsm⟩ := FixedPoint.new_spec bits max hmax fp hfp
  constructor
  · unfold FixedPoint.fixedToFloat
    rw [him]
    by_cases h : (2 ^ (bits - 1) : ℤ) < |n| <;> simp [h]
  · intro h
    have h1 : fp.fixedToFloat n = .ok ((n : K) / fp.scale) := by
      unfold FixedPoint.fixedToFloat; rw [if_neg (by rw [him]; omega)]
    refine ⟨_, h1, ?_⟩
    have h2 := C08_int_roundtrip bits max hmax fp hfp n _ h1
    unfold FixedPoint.floatToFixed at h2
    split_ifs at h2 with h3
    rw [hm] at h3; exact not_lt.mp h3

omit [IsStrictOrderedRing K] [FloorRing K] in
/-- **C09** construction fails exactly for a zero word length or a zero maximum. -/
theorem C09_ctor (bits : ℕ) (max : K) :
    (∃ fp, FixedPoint.new bits max = .ok fp) ↔ bits ≠ 0 ∧ max ≠ 0 := by
  unfold FixedPoint.new
  by_cases h1 : bits = 0 <;> by_cases h2 : max = 0 <;> simp [h1, h2]

/-- **C10** is false: the maximum itself, which is accepted, becomes `2^(bits-1)` -- one too large for a
signed word of `bits` bits -- for every word length and maximum. -/
theorem C10_false (bits : ℕ) (max : K) (hmax : 0 < max) (fp : FixedPoint K)
    (hfp : FixedPoint.new bits max = .ok fp) :
    ∃ n, fp.floatToFixed max = .ok n ∧ ¬ (-2 ^ (bits - 1) ≤ n ∧ n ≤ 2 ^ (bits - 1) - 1) := by
  obtain ⟨-, -, hm, him, hs, hsm⟩ := FixedPoint.new_spec bits max hmax fp hfp
  refine ⟨2 ^ (bits - 1), ?_, by omega⟩
  unfold FixedPoint.floatToFixed
  rw [if_neg (by rw [hm, abs_of_pos hmax]; exact lt_irrefl _)]
  rw [mul_comm, hsm, pyInt_intCast, him]

/-- **C10**, the part that holds: every accepted value other than `+max` fits the signed word, and every
accepted value fits one more bit.  Missing: `v = max` (`C10_false`). -/
theorem C10_fits_partial (bits : ℕ) (max : K) (hmax : 0 < max) (fp : FixedPoint K)
    (hfp : FixedPoint.new bits max = .ok fp) (v : K) (n : ℤ) (hn : fp.floatToFixed v = .ok n) :
    (v ≠ max → -2 ^ (bits - 1) ≤ n ∧ n ≤ 2 ^ (bits - 1) - 1) ∧
    (-2 ^ bits ≤ n ∧ n ≤ 2 ^ bits - 1) := by
  obtain ⟨hb, -, hm, him, hs, hsm⟩ := FixedPoint.new_spec bits max hmax fp hfp
  have habs : |v| ≤ max := by
    by_contra hc
    have := (C09_float_range bits max hmax fp hfp v).1.mpr (not_le.mp hc)
    rw [hn] at this; cases this
  obtain ⟨n', hn', hle, -⟩ := (C09_float_range bits max hmax fp hfp v).2 habs
  rw [hn] at hn'
  simp only [Except.ok.injEq] at hn'
  subst hn'
  obtain ⟨hlo, hup⟩ := abs_le.mp hle
  have hp : (2 : ℤ) ^ bits = 2 * 2 ^ (bits - 1) := by
    rw [← pow_succ']; congr 1; omega
  have hpos : (0 : ℤ) < 2 ^ (bits - 1) := pow_pos (by norm_num) _
  refine ⟨?_, by omega, by omega⟩
  intro hne
  refine ⟨hlo, ?_⟩
  have hlt : v < max := lt_of_le_of_ne (abs_le.mp habs).2 hne
  have h1 : v * fp.scale < (fp.intMax : K) := by rw [← hsm]; nlinarith
  unfold FixedPoint.floatToFixed at hn
  split_ifs at hn
  simp only [Except.ok.injEq] at hn
  have hbnd := pyInt_bounds (v * fp.scale)
  rw [hn] at hbnd
  have h3 : n < fp.intMax := by
    rcases le_total 0 (v * fp.scale) with h0 | h0
    · have := (hbnd.1 h0).2.1
      have : (n : K) < (fp.intMax : K) := lt_of_le_of_lt this h1
      exact_mod_cast this
    · have h4 := (hbnd.2 h0).2.1
      have : n ≤ 0 := by exact_mod_cast h4
      rw [him]; omega
  rw [him] at h3; omega

example : fp8.floatToFixed 2 = .ok 128 ∧ fp8.floatToFixed (-2) = .ok (-128) := by
  refine ⟨?_, ?_⟩
  · have : ⌊(2 * 64 : ℚ)⌋ = 128 := by rw [Int.floor_eq_iff]; norm_num
    simp [FixedPoint.floatToFixed, fp8, pyInt, this]
  · have : ⌈(-2 * 64 : ℚ)⌉ = -128 := by rw [Int.ceil_eq_iff]; norm_num
    have h2 : ¬ ((0 : ℚ) ≤ -2 * 64) := by norm_num
    simp only [FixedPoint.floatToFixed, fp8, pyInt, this, if_neg h2]
    rw [if_neg]; norm_num

/-- `C08_injective`, `C08_monotone`, `C08_odd`, `C09_fixed_range`, `C09_float_range` on a word of eight bits for `[-2, 2]`:
`-27` is kept, `-3/7` is converted to no more than `2`, its negative to the negative, `129` and `3` are refused. -/
example : (∀ n, fp8.fixedToFloat n = .ok (-27 / 64) → n = -27) ∧
    (∀ m n, fp8.floatToFixed (-3 / 7) = .ok m → fp8.floatToFixed 2 = .ok n → m ≤ n) ∧
    fp8.fixedToFloat 27 = .ok (27 / 64) ∧
    fp8.fixedToFloat 129 = .error .arithmeticError ∧ fp8.floatToFixed 3 = .error .arithmeticError := by
  have h27 : fp8.fixedToFloat (-27) = .ok (-27 / 64) := by
    have : ¬ (|(-27 : ℤ)| > 128) := by decide
    simp [FixedPoint.fixedToFloat, fp8]
  refine ⟨fun n hn => C08_injective 8 2 two_pos fp8 fp8_new n (-27) _ hn h27,
    fun m n => C08_monotone 8 2 two_pos fp8 fp8_new _ _ m n (by norm_num), ?_,
    (C09_fixed_range 8 2 two_pos fp8 fp8_new 129).1.2 (by norm_num), (C09_float_range 8 2 two_pos fp8 fp8_new 3).1.2 ?_⟩
  · have := (C08_odd fp8 (-27 / 64) (-27)).2 h27
    norm_num at this ⊢
    exact this
  · rw [abs_of_pos] <;> norm_num

end Cbadc
