import Verif.Props.TestBench

/-!
# C115: to which clock period a control vector read from a circuit simulation belongs
-/

namespace Cbadc.TestBench
open Circuit Spec NgSpice NgSpice.Spec Streams

/-- In a strictly increasing list, the `k`-th element is the `k`-th term of an increasing sequence that runs
through the list up to there. -/
theorem sorted_get (k : ℕ) : ∀ (l : List ℕ) (g : ℕ → ℕ), l.Pairwise (· < ·) → StrictMono g →
    (∀ j, j ≤ k → g j ∈ l) → (∀ i ∈ l, i ≤ g k → ∃ j, i = g j) → l[k]? = some (g k) := by
  induction k with
  | zero =>
    intro l g hl hg hm hi
    cases l with
    | nil => cases hm 0 (le_refl 0)
    | cons a l =>
      rw [List.pairwise_cons] at hl
      have ha : a ≤ g 0 := by
        rcases List.mem_cons.mp (hm 0 (le_refl 0)) with h | h
        · exact h.ge
        · exact (hl.1 _ h).le
      obtain ⟨j, hj⟩ := hi a List.mem_cons_self ha
      have : g 0 ≤ g j := hg.monotone (Nat.zero_le j)
      rw [List.getElem?_cons_zero]
      congr 1
      omega
  | succ k ih =>
    intro l g hl hg hm hi
    cases l with
    | nil => cases hm 0 (Nat.zero_le _)
    | cons a l =>
      rw [List.pairwise_cons] at hl
      have ha : a ≤ g 0 := by
        rcases List.mem_cons.mp (hm 0 (Nat.zero_le _)) with h | h
        · exact h.ge
        · exact (hl.1 _ h).le
      obtain ⟨j, hj⟩ := hi a List.mem_cons_self (ha.trans (hg.monotone (Nat.zero_le _)))
      have hj0 : g 0 ≤ g j := hg.monotone (Nat.zero_le j)
      have ha0 : a = g 0 := by omega
      rw [List.getElem?_cons_succ]
      refine ih l (fun j => g (j + 1)) hl.2 (fun x y h => hg (by omega)) ?_ ?_
      · intro j hj
        rcases List.mem_cons.mp (hm (j + 1) (by omega)) with h | h
        · have := hg (Nat.succ_pos j)
          rw [h, ha0] at this
          exact absurd this (lt_irrefl _)
        · exact h
      · intro i hil hik
        obtain ⟨j, hj⟩ := hi i (List.mem_cons_of_mem _ hil) hik
        have hlt := hl.1 i hil
        cases j with
        | zero => omega
        | succ j => exact ⟨j, hj⟩

theorem edges_sorted (low : ℕ → Prop) (n : ℕ) : (edges low n).Pairwise (· < ·) := by
  unfold edges
  exact List.Pairwise.filter _ List.pairwise_lt_range

theorem mem_edges (low : ℕ → Prop) (n i : ℕ) : i ∈ edges low n ↔ i < n ∧ low i ∧ (i = 0 ∨ ¬ low (i - 1)) := by
  unfold edges
  simp only [List.mem_filter, List.mem_range, decide_eq_true_eq]

/-- The time points at which the clock has become low, given when it is high. -/
theorem edge_times (T tt : ℝ) (htt : 0 < tt) (hT : 2 * tt ≤ T) (n : ℕ) (time : ℕ → ℝ) (h0 : time 0 = 0)
    (hmono : ∀ i, i + 1 < n → time i < time (i + 1)) (hgap : ∀ i, i + 1 < n → time (i + 1) - time i < T / 2)
    (low : ℕ → Prop) (hlow : ∀ i, i < n → (low i ↔ ¬ High T tt (time i))) (hn : 0 < n) :
    (edges low n)[0]? = some 0 ∧
    ∀ k : ℕ, k * T + T / 2 + tt / 2 ≤ time (n - 1) →
      ∃ i, i < n ∧ k * T + T / 2 + tt / 2 ≤ time i ∧ time i < (k + 1) * T + tt / 2 ∧
        (∀ j, j < i → time j < k * T + T / 2 + tt / 2) ∧ (edges low n)[k + 1]? = some i := by
  classical
  have hT0 : 0 < T := by linarith
  -- times increase
  have hle : ∀ d i, i + d < n → time i ≤ time (i + d) := by
    intro d
    induction d with
    | zero => intro i _; exact le_refl _
    | succ d ih =>
      intro i h
      exact (ih i (by omega)).trans (hmono (i + d) (by omega)).le
  have hle' : ∀ i j, i ≤ j → j < n → time i ≤ time j := by
    intro i j h hj
    obtain ⟨d, rfl⟩ := Nat.exists_eq_add_of_le h
    exact hle d i hj
  -- the first sample at or after each falling edge; past the end: n + k
  let g : ℕ → ℕ := fun k => if h : ∃ i, i < n ∧ k * T + T / 2 + tt / 2 ≤ time i then Nat.find h else n + k
  have hg : ∀ k : ℕ, (∃ i, i < n ∧ k * T + T / 2 + tt / 2 ≤ time i) →
      g k < n ∧ k * T + T / 2 + tt / 2 ≤ time (g k) ∧ ∀ j, j < g k → time j < k * T + T / 2 + tt / 2 := by
    intro k h
    have e : g k = Nat.find h := dif_pos h
    rw [e]
    refine ⟨(Nat.find_spec h).1, (Nat.find_spec h).2, fun j hj => ?_⟩
    by_contra hc
    exact Nat.find_min h hj ⟨by have := (Nat.find_spec h).1; omega, not_lt.mp hc⟩
  have hg' : ∀ k : ℕ, (¬ ∃ i, i < n ∧ k * T + T / 2 + tt / 2 ≤ time i) → g k = n + k := by
    intro k h
    exact dif_neg h
  have hcast : ∀ k : ℕ, (k : ℝ) * T + T / 2 + tt / 2 > 0 := by
    intro k
    have : (0 : ℝ) ≤ k := Nat.cast_nonneg k
    have := mul_nonneg this hT0.le
    linarith
  have hpos : ∀ k, 0 < g k := by
    intro k
    by_cases h : ∃ i, i < n ∧ k * T + T / 2 + tt / 2 ≤ time i
    · rcases Nat.eq_zero_or_pos (g k) with e | e
      · have h2 := (hg k h).2.1
        rw [e, h0] at h2
        linarith [hcast k]
      · exact e
    · rw [hg' k h]
      omega
  -- it lies before the next rising edge
  have hnear : ∀ k : ℕ, (∃ i, i < n ∧ k * T + T / 2 + tt / 2 ≤ time i) → time (g k) < (k + 1) * T + tt / 2 := by
    intro k h
    obtain ⟨h1, h2, h3⟩ := hg k h
    have hp := hpos k
    have h4 := h3 (g k - 1) (by omega)
    have h5 := hgap (g k - 1) (by omega)
    rw [show g k - 1 + 1 = g k by omega] at h5
    linarith
  have hbelow : ∀ k : ℕ, (∃ i, i < n ∧ ((k + 1 : ℕ) : ℝ) * T + T / 2 + tt / 2 ≤ time i) →
      ∃ i, i < n ∧ k * T + T / 2 + tt / 2 ≤ time i := by
    rintro k ⟨i, hi, h⟩
    push_cast at h
    exact ⟨i, hi, by linarith⟩
  have hstep : ∀ k, g k < g (k + 1) := by
    intro k
    by_cases h : ∃ i, i < n ∧ ((k + 1 : ℕ) : ℝ) * T + T / 2 + tt / 2 ≤ time i
    · have hk := hbelow k h
      have h1 := hg (k + 1) h
      have h2 := hnear k hk
      by_contra hc
      have h3 := hle' (g (k + 1)) (g k) (by omega) (hg k hk).1
      have h4 := h1.2.1
      push_cast at h4
      linarith
    · rw [hg' (k + 1) h]
      by_cases hk : ∃ i, i < n ∧ k * T + T / 2 + tt / 2 ≤ time i
      · have := (hg k hk).1
        omega
      · rw [hg' k hk]
        omega
  -- low at the first sample after a falling edge
  have hlowg : ∀ k : ℕ, (∃ i, i < n ∧ k * T + T / 2 + tt / 2 ≤ time i) →
      low (g k) ∧ ¬ low (g k - 1) := by
    intro k h
    obtain ⟨h1, h2, h3⟩ := hg k h
    have h4 := hnear k h
    have hp := hpos k
    have h5 := h3 (g k - 1) (by omega)
    have h6 := hgap (g k - 1) (by omega)
    rw [show g k - 1 + 1 = g k by omega] at h6
    constructor
    · rw [hlow _ h1]
      rintro ⟨q, hq1, hq2⟩
      rcases Nat.lt_trichotomy q k with hqk | hqk | hqk
      · have : ((q + 1 : ℕ) : ℝ) ≤ k := Nat.cast_le.mpr hqk
        push_cast at this
        have := mul_le_mul_of_nonneg_right this hT0.le
        linarith
      · rw [hqk] at hq2
        linarith
      · have : ((k + 1 : ℕ) : ℝ) ≤ q := Nat.cast_le.mpr hqk
        push_cast at this
        have := mul_le_mul_of_nonneg_right this hT0.le
        linarith
    · rw [hlow _ (by omega), not_not]
      exact ⟨k, by linarith, by linarith⟩
  -- every later low point after a high one is such a sample
  have hall : ∀ i, 0 < i → i < n → low i → ¬ low (i - 1) → ∃ k, i = g k := by
    intro i hi hin hl hnl
    rw [hlow _ (by omega), not_not] at hnl
    rw [hlow _ hin] at hl
    obtain ⟨k, hk1, hk2⟩ := hnl
    have h1 := hmono (i - 1) (by omega)
    rw [show i - 1 + 1 = i by omega] at h1
    have h2 : k * T + T / 2 + tt / 2 ≤ time i := by
      by_contra hc
      exact hl ⟨k, by linarith, not_le.mp hc⟩
    have hex : ∃ i, i < n ∧ k * T + T / 2 + tt / 2 ≤ time i := ⟨i, hin, h2⟩
    refine ⟨k, ?_⟩
    obtain ⟨h3, h4, h5⟩ := hg k hex
    rcases Nat.lt_trichotomy i (g k) with h | h | h
    · have := h5 i h
      linarith
    · exact h
    · have := hle' (g k) (i - 1) (by omega) (by omega)
      linarith
  -- the sequence 0, g 0, g 1, …
  let G : ℕ → ℕ := fun k => match k with | 0 => 0 | k + 1 => g k
  have hG : StrictMono G := by
    refine strictMono_nat_of_lt_succ ?_
    intro k
    cases k with
    | zero => exact hpos 0
    | succ k => exact hstep k
  have hlow0 : low 0 := by
    rw [hlow 0 hn, h0]
    rintro ⟨q, hq1, _⟩
    have := mul_nonneg (Nat.cast_nonneg (α := ℝ) q) hT0.le
    linarith
  have hmem0 : 0 ∈ edges low n := (mem_edges low n 0).mpr ⟨hn, hlow0, Or.inl rfl⟩
  have hrange : ∀ i ∈ edges low n, ∃ j, i = G j := by
    intro i hi
    obtain ⟨h1, h2, h3⟩ := (mem_edges low n i).mp hi
    rcases Nat.eq_zero_or_pos i with h | h
    · exact ⟨0, h⟩
    · obtain ⟨k, hk⟩ := hall i h h1 h2 (h3.resolve_left (by omega))
      exact ⟨k + 1, hk⟩
  constructor
  · refine sorted_get 0 (edges low n) G (edges_sorted low n) hG ?_ (fun i hi _ => hrange i hi)
    intro j hj
    have : j = 0 := by omega
    subst this
    exact hmem0
  · intro k hk
    have hex : ∃ i, i < n ∧ k * T + T / 2 + tt / 2 ≤ time i := ⟨n - 1, by omega, hk⟩
    refine ⟨g k, (hg k hex).1, (hg k hex).2.1, hnear k hex, (hg k hex).2.2, ?_⟩
    refine sorted_get (k + 1) (edges low n) G (edges_sorted low n) hG ?_ (fun i hi _ => hrange i hi)
    intro j hj
    cases j with
    | zero => exact hmem0
    | succ j =>
      have hexj : ∃ i, i < n ∧ j * T + T / 2 + tt / 2 ≤ time i := by
        refine ⟨n - 1, by omega, ?_⟩
        have : (j : ℝ) ≤ k := Nat.cast_le.mpr (by omega)
        have := mul_le_mul_of_nonneg_right this hT0.le
        linarith
      exact (mem_edges low n (g j)).mpr ⟨(hg j hexj).1, (hlowg j hexj).1, Or.inr (hlowg j hexj).2⟩

/-- What a simulation of the test bench records: `n` time points, starting at zero, closer together than half a
clock period and reaching the end of the simulation; at each, the voltage of the clock. -/
structure Recorded (v : String → ℝ → ℝ) (T tEnd : ℝ) (raw : Raw) (time : ℕ → ℝ) : Prop where
  some : 0 < raw.n
  start : time 0 = 0
  mono : ∀ i, i + 1 < raw.n → time i < time (i + 1)
  gap : ∀ i, i + 1 < raw.n → time (i + 1) - time i < T / 2
  last : tEnd ≤ time (raw.n - 1)
  clk : ∀ i, i < raw.n → raw.clk i = v "CLK" (time i)

theorem Recorded.nonneg {v : String → ℝ → ℝ} {T tEnd : ℝ} {raw : Raw} {time : ℕ → ℝ}
    (h : Recorded v T tEnd raw time) : ∀ i, i < raw.n → 0 ≤ time i := by
  intro i
  induction i with
  | zero => intro _; exact h.start.ge
  | succ i ih =>
    intro hi
    exact (ih (by omega)).trans (h.mono i hi).le

variable (ids : String → ℕ → String) (inputs : List Signal) (M : ℕ) (T tt vdd : ℝ) (lines : List SourceLine)

/-- **C115 (part that holds)** of the control vectors a simulation of the test bench delivers, the `(k + 1)`-th
holds the digits at the first time point after the clock has fallen in the `k`-th period, and the `0`-th those at
the start of the simulation.  (That the `k`-th vector belongs to the `k`-th period is false, `C115_false`.) -/
theorem C115_partial (h : sourceLines ids inputs M T tt vdd = .ok lines) (v : String → ℝ → ℝ)
    (hv : Holds lines v) (htt : 0 < tt) (hT : 2 * tt ≤ T) (hvdd : 0 < vdd) (tEnd : ℝ) (raw : Raw) (time : ℕ → ℝ)
    (hr : Recorded v T tEnd raw time) :
    (0 < tEnd → ∃ s, call (Sim.next (size tEnd T) (vdd / 2) raw) .new 0 = .ok s ∧
      ∀ m, IsDigit (raw.v 0 m / vdd) (s m)) ∧
    ∀ k : ℕ, k + 1 < ⌈tEnd / T⌉₊ →
      ∃ i s, i < raw.n ∧ k * T + T / 2 + tt / 2 ≤ time i ∧ time i < (k + 1) * T + tt / 2 ∧
        (∀ j, j < i → time j < k * T + T / 2 + tt / 2) ∧
        call (Sim.next (size tEnd T) (vdd / 2) raw) .new (k + 1) = .ok s ∧ ∀ m, IsDigit (raw.v i m / vdd) (s m) := by
  have hT0 : 0 < T := by linarith
  have hlow : ∀ i, i < raw.n → (raw.clk i ≤ vdd / 2 ↔ ¬ High T tt (time i)) := by
    intro i hi
    have hs := C114_supply ids inputs M T tt vdd lines h v hv (time i) (hr.nonneg i hi)
    have h1 := (hs.2.2 htt hT hvdd).2
    rw [hs.2.1, gt_iff_lt] at h1
    rw [hr.clk i hi, ← h1, not_lt]
  have he := edge_times T tt htt hT raw.n time hr.start hr.mono hr.gap (fun i => raw.clk i ≤ vdd / 2) hlow hr.some
  have h2 : 2 * (vdd / 2) = vdd := by ring
  constructor
  · intro hpos
    have hsz : 0 < ⌈tEnd / T⌉₊ := Nat.ceil_pos.mpr (div_pos hpos hT0)
    obtain ⟨s, hs1, hs2, _⟩ := (C113_vectors tEnd T (vdd / 2) raw 0).1 hsz
    refine ⟨s, hs1, fun m => ?_⟩
    obtain ⟨hlt, hget⟩ := List.getElem?_eq_some_iff.mp he.1
    have := hs2 hlt m
    rw [hget, h2] at this
    exact this
  · intro k hk
    have hend : k * T + T / 2 + tt / 2 ≤ time (raw.n - 1) := by
      have h3 : ((k + 1 : ℕ) : ℝ) < tEnd / T := Nat.lt_ceil.mp hk
      rw [lt_div_iff₀ hT0] at h3
      push_cast at h3
      have := hr.last
      linarith
    obtain ⟨i, hi1, hi2, hi3, hi4, hi5⟩ := he.2 k hend
    obtain ⟨s, hs1, hs2, _⟩ := (C113_vectors tEnd T (vdd / 2) raw (k + 1)).1 hk
    refine ⟨i, s, hi1, hi2, hi3, hi4, hs1, fun m => ?_⟩
    obtain ⟨hlt, hget⟩ := List.getElem?_eq_some_iff.mp hi5
    have := hs2 hlt m
    rw [hget, h2] at this
    exact this

/-- A recording with four time points per clock period: the control terminals are high from the first decision
on. -/
noncomputable def quarter (v : String → ℝ → ℝ) (vdd T : ℝ) (n : ℕ) : Raw :=
  ⟨n, fun i => v "CLK" (i * (T / 4)), fun i _ => if i = 0 then 0 else vdd⟩

theorem quarter_recorded (v : String → ℝ → ℝ) (vdd T tEnd : ℝ) (hT : 0 < T) (n : ℕ) (hn : tEnd ≤ n * (T / 4)) :
    Recorded v T tEnd (quarter v vdd T (n + 1)) fun i => i * (T / 4) where
  some := Nat.succ_pos n
  start := by
    show ((0 : ℕ) : ℝ) * (T / 4) = 0
    rw [Nat.cast_zero, zero_mul]
  mono := by
    intro i _
    show (i : ℝ) * (T / 4) < ((i + 1 : ℕ) : ℝ) * (T / 4)
    push_cast
    linarith
  gap := by
    intro i _
    show ((i + 1 : ℕ) : ℝ) * (T / 4) - (i : ℝ) * (T / 4) < T / 2
    push_cast
    linarith
  last := hn
  clk := fun i _ => rfl

/-- **C115 as stated is false**: in every test bench there is a simulation in which the control terminals are
high at every time point in the low half of every clock period, and still the first vector is zero. -/
theorem C115_false (h : sourceLines ids inputs M T tt vdd = .ok lines) (v : String → ℝ → ℝ)
    (hv : Holds lines v) (htt : 0 < tt) (hT : 2 * tt ≤ T) (hvdd : 0 < vdd) (tEnd : ℝ) (hend : 0 < tEnd) :
    ∃ raw time s, Recorded v T tEnd raw time ∧ (∀ i m, T / 2 + tt / 2 ≤ time i → raw.v i m = vdd) ∧
      call (Sim.next (size tEnd T) (vdd / 2) raw) .new 0 = .ok s ∧ ∀ m, s m = 0 := by
  have hT0 : 0 < T := by linarith
  obtain ⟨n, hn⟩ := exists_nat_ge (tEnd / (T / 4))
  have hn' : tEnd ≤ n * (T / 4) := by
    rw [div_le_iff₀ (by linarith)] at hn
    exact hn
  have hr := quarter_recorded v vdd T tEnd hT0 n hn'
  obtain ⟨s, hs1, hs2⟩ := (C115_partial ids inputs M T tt vdd lines h v hv htt hT hvdd tEnd _ _ hr).1 hend
  refine ⟨_, _, s, hr, ?_, hs1, ?_⟩
  · intro i m hi
    show (if i = 0 then (0 : ℝ) else vdd) = vdd
    rw [if_neg]
    rintro rfl
    rw [Nat.cast_zero, zero_mul] at hi
    linarith
  · intro m
    have h1 := hs2 m
    have h2 : (quarter v vdd T (n + 1)).v 0 m / vdd = 0 := by
      show (if (0 : ℕ) = 0 then (0 : ℝ) else vdd) / vdd = 0
      rw [if_pos rfl, zero_div]
    rw [h2] at h1
    rcases h1 with h1 | h1 | h1
    · exact h1.2
    · linarith [h1.1]
    · linarith [h1.1]

/-- `C114_supply`, `C114_input_partial`, `C115_partial`:
The hypotheses of C114 and C115 are met by a test bench with a clock of period 1, transition time 1/4, supply
1 and two sinusoidal inputs, simulated for three periods. -/
example : ∃ lines v raw time, sourceLines (fun _ _ => "x") [.sinusoidal 1 2 0 0, .sinusoidal 3 1 0 0] 2 1 (1 / 4) 1 =
      .ok lines ∧ Holds lines v ∧ Recorded v 1 3 raw time ∧ 2 < ⌈(3 : ℝ) / 1⌉₊ := by
  obtain ⟨lines, v, h1, h2⟩ :=
    C114_solvable (fun _ _ => "x") 2 1 (1 / 4) 1 [(1, 2, 0, 0), (3, 1, 0, 0)]
  refine ⟨lines, v, _, _, h1, h2, quarter_recorded v 1 1 3 one_pos 12 (by norm_num), ?_⟩
  rw [Nat.lt_ceil]
  norm_num

end Cbadc.TestBench
