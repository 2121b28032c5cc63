import Mathlib.Algebra.Order.Floor.Ring
import Mathlib.Algebra.Order.Archimedean.Basic
import Mathlib.Tactic.Ring
import Mathlib.Tactic.Linarith
import Mathlib.Tactic.FieldSimp
import Mathlib.Tactic.NormNum
import Mathlib.Tactic.Positivity
import Verif.Model.Signals

/-! # Lemmas about the signal models -/

namespace Cbadc.Signal

variable {K : Type*} [Field K] [LinearOrder K] [IsStrictOrderedRing K] [FloorRing K]

omit [IsStrictOrderedRing K] in
theorem pyMod_ok {a b : K} (h : b ≠ 0) : pyMod a b = .ok (a - b * (⌊a / b⌋ : K)) := by
  unfold pyMod; rw [if_neg h]

theorem pyMod_add (a b : K) (k : ℤ) : pyMod (a + k * b) b = pyMod a b := by
  by_cases h : b = 0
  · unfold pyMod; rw [if_pos h, if_pos h]
  · rw [pyMod_ok h, pyMod_ok h]
    have : (a + k * b) / b = a / b + k := by field_simp
    rw [this, Int.floor_add_intCast]
    push_cast
    congr 1
    ring

/-- The representative of `a` in `[0, b)`. -/
theorem pyMod_of_mem {b x : K} (k : ℤ) (hb : 0 < b) (h0 : 0 ≤ x) (h1 : x < b) :
    pyMod (x + k * b) b = .ok x := by
  rw [pyMod_add, pyMod_ok hb.ne']
  have : ⌊x / b⌋ = 0 := by
    rw [Int.floor_eq_zero_iff]
    exact ⟨div_nonneg h0 hb.le, (div_lt_one hb).2 h1⟩
  rw [this]; simp

/-- Every number has a representative in `[0, b)`. -/
theorem pyMod_repr (a : K) {b : K} (hb : 0 < b) : ∃ (k : ℤ) (x : K), 0 ≤ x ∧ x < b ∧ a = x + k * b := by
  refine ⟨⌊a / b⌋, a - ⌊a / b⌋ * b, ?_, ?_, by ring⟩
  · have := Int.floor_le (a / b)
    rw [le_div_iff₀ hb] at this
    linarith
  · have := Int.lt_floor_add_one (a / b)
    rw [div_lt_iff₀ hb] at this
    linarith

omit [FloorRing K] in
/-- What the constructor of a clock guarantees when the transition time is positive. -/
theorem Clock.new_ok {T tt td duty sw : K} {c : Clock K} (h : Clock.new T tt td duty sw = .ok c) (htt : 0 < tt) :
    c = ⟨T, tt, tt / 2, td, duty, duty * T, sw / 2⟩ ∧ 0 < T ∧ 0 < duty ∧ duty < 1 ∧ tt ≤ T * duty ∧
      tt ≤ T * (1 - duty) ∧ td ≤ T := by
  unfold Clock.new at h
  dsimp only at h
  split at h
  · cases h
  next h1 =>
  split at h
  · cases h
  next h2 =>
  split at h
  · cases h
  next h3 =>
  cases h
  unfold Clock.maxStep at h2
  dsimp only at h2
  push Not at h1 h2 h3
  obtain ⟨hd1, hd0⟩ := h1
  have hm : 0 ≤ min duty (1 - duty) := le_min hd0.le (by linarith)
  have hpos : 0 < T * min duty (1 - duty) := lt_of_lt_of_le htt h2
  have hT : 0 < T := by
    by_contra hn
    push Not at hn
    have := mul_nonpos_of_nonpos_of_nonneg hn hm
    linarith
  have hm' : 0 < min duty (1 - duty) := (mul_pos_iff_of_pos_left hT).1 hpos
  have h4 := lt_min_iff.1 hm'
  refine ⟨rfl, hT, hd0, by linarith, ?_, ?_, h3⟩
  · exact h2.trans (mul_le_mul_of_nonneg_left (min_le_left _ _) hT.le)
  · exact h2.trans (mul_le_mul_of_nonneg_left (min_le_right _ _) hT.le)

omit [FloorRing K] in
/-- The rising edge for a non-degenerate clock, with a swing of at least 2. -/
theorem Clock.posEdge_eq (c : Clock K) (h0 : 0 < c.tt2) (hm : 1 ≤ c.maxValue) (x : K) (hx : 0 ≤ x) :
    c.posEdge x = .ok (if (x - c.tt2) / c.tt2 > c.maxValue then 1 else (x - c.tt2) / c.tt2) := by
  unfold Clock.posEdge pyDiv
  rw [if_neg h0.ne']
  have hlow : ¬ (x - c.tt2) / c.tt2 < -c.maxValue := by
    rw [not_lt, le_div_iff₀ h0]
    nlinarith
  simp only [bind, Except.bind]
  by_cases h : (x - c.tt2) / c.tt2 > c.maxValue
  · rw [if_pos h, if_pos h]
    have hne : (x - c.tt2) / c.tt2 ≠ 0 := by
      intro h'; rw [h'] at h; linarith
    rw [if_neg hne, div_self hne]
  · rw [if_neg h, if_neg h, if_neg hlow]; rfl

omit [Field K] [LinearOrder K] [IsStrictOrderedRing K] [FloorRing K] in
theorem Rand.advance_t (r : Rand K) : r.advance.t = r.t ∧ r.advance.T = r.T ∧ r.advance.draws = r.draws := by
  unfold Rand.advance
  dsimp only
  split <;> simp

/-- Number of the draw an object holds. -/
def Rand.pos (r : Rand K) : ℕ := r.buf * bufferSize + r.index

/-- The object holds draw number `n`. -/
def Rand.Holds (r : Rand K) (draws : ℕ → ℕ → K) (n : ℕ) : Prop :=
  r.draws = draws ∧ r.buf = n / bufferSize ∧ r.index = n % bufferSize

omit [Field K] [LinearOrder K] [IsStrictOrderedRing K] [FloorRing K] in
theorem Rand.Holds.advance {r : Rand K} {draws : ℕ → ℕ → K} {n : ℕ} (h : r.Holds draws n) :
    r.advance.Holds draws (n + 1) := by
  obtain ⟨h1, h2, h3⟩ := h
  unfold Rand.advance
  dsimp only
  by_cases hi : r.index + 1 = bufferSize
  · rw [if_pos hi]
    refine ⟨h1, ?_, ?_⟩
    · show r.buf + 1 = _
      unfold bufferSize at *
      omega
    · show 0 = _
      unfold bufferSize at *
      omega
  · rw [if_neg hi]
    refine ⟨h1, ?_, ?_⟩
    · show r.buf = _
      unfold bufferSize at *
      omega
    · show r.index + 1 = _
      unfold bufferSize at *
      omega

omit [Field K] [LinearOrder K] [IsStrictOrderedRing K] [FloorRing K] in
theorem Rand.Holds.value {r : Rand K} {draws : ℕ → ℕ → K} {n : ℕ} (h : r.Holds draws n) :
    r.value = draws (n / bufferSize) (n % bufferSize) := by
  obtain ⟨h1, h2, h3⟩ := h
  unfold Rand.value
  rw [h1, h2, h3]

omit [IsStrictOrderedRing K] [FloorRing K] [LinearOrder K] in
theorem Rand.new_holds (draws : ℕ → ℕ → K) (T : K) : (Rand.new draws T).Holds draws 0 := by
  refine ⟨rfl, ?_, ?_⟩ <;> simp [Rand.new]

omit [IsStrictOrderedRing K] [FloorRing K] in
theorem Rand.finiteStep_T (r : Rand K) (t : K) : (r.finiteStep t).T = r.T ∧ (r.finiteStep t).draws = r.draws := by
  unfold Rand.finiteStep
  split
  · have := Rand.advance_t { r with t := t }
    exact ⟨this.2.1, this.2.2⟩
  · exact ⟨rfl, rfl⟩

omit [IsStrictOrderedRing K] [FloorRing K] in
theorem Rand.uniformStep_T (r : Rand K) (t : K) :
    (r.uniformStep t).T = r.T ∧ (r.uniformStep t).draws = r.draws := by
  unfold Rand.uniformStep
  split
  · have := Rand.advance_t { r with t := r.t + r.T }
    exact ⟨this.2.1, this.2.2⟩
  · exact ⟨rfl, rfl⟩

omit [IsStrictOrderedRing K] [FloorRing K] in
theorem Rand.after_finite_T (r : Rand K) (ts : ℕ → K) (n : ℕ) :
    (Rand.after Rand.finiteStep r ts n).T = r.T ∧ (Rand.after Rand.finiteStep r ts n).draws = r.draws := by
  induction n with
  | zero => exact ⟨rfl, rfl⟩
  | succ n ih =>
    have := Rand.finiteStep_T (Rand.after Rand.finiteStep r ts n) (ts n)
    exact ⟨this.1.trans ih.1, this.2.trans ih.2⟩

omit [IsStrictOrderedRing K] [FloorRing K] in
theorem Rand.after_uniform_T (r : Rand K) (ts : ℕ → K) (n : ℕ) :
    (Rand.after Rand.uniformStep r ts n).T = r.T ∧ (Rand.after Rand.uniformStep r ts n).draws = r.draws := by
  induction n with
  | zero => exact ⟨rfl, rfl⟩
  | succ n ih =>
    have := Rand.uniformStep_T (Rand.after Rand.uniformStep r ts n) (ts n)
    exact ⟨this.1.trans ih.1, this.2.trans ih.2⟩

omit [FloorRing K] in
theorem Rand.finiteStep_t (r : Rand K) (hT : 0 ≤ r.T) (t : K) : r.t ≤ (r.finiteStep t).t := by
  unfold Rand.finiteStep
  split
  next h =>
    rw [(Rand.advance_t _).1]
    show _ ≤ t
    linarith
  next h => exact le_rfl

omit [FloorRing K] in
/-- The time of the last update never decreases. -/
theorem Rand.after_finite_mono (r : Rand K) (hT : 0 ≤ r.T) (ts : ℕ → K) (n k : ℕ) :
    (Rand.after Rand.finiteStep r ts n).t ≤ (Rand.after Rand.finiteStep r ts (n + k)).t := by
  induction k with
  | zero => exact le_rfl
  | succ k ih =>
    refine ih.trans ?_
    show _ ≤ (Rand.finiteStep (Rand.after Rand.finiteStep r ts (n + k)) (ts (n + k))).t
    exact Rand.finiteStep_t _ (by rw [(Rand.after_finite_T r ts (n + k)).1]; exact hT) _

omit [IsStrictOrderedRing K] [FloorRing K] in
/-- A change of the value means that the evaluation updated the object. -/
theorem Rand.finite_changed {r : Rand K} {t : K} (h : (r.finiteStep t).value ≠ r.value) :
    r.T ≤ t - r.t ∧ (r.finiteStep t).t = t := by
  unfold Rand.finiteStep at h ⊢
  split at h
  next h' => exact ⟨h', by rw [if_pos h']; exact (Rand.advance_t _).1⟩
  next h' => exact absurd rfl h

end Cbadc.Signal
