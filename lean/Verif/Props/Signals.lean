import Mathlib.Tactic.FinCases
import Mathlib.Data.Rat.Floor
import Mathlib.Tactic.IntervalCases
import Verif.Spec.Signals
import Verif.Lemmas.Signals

/-! # Clocks, ramps, held samples and reference signals: properties -/

namespace Cbadc.Signal

open Spec

variable {K : Type*} [Field K] [LinearOrder K] [IsStrictOrderedRing K] [FloorRing K]

/-! ## C55: clocks -/

/-- C55: a clock signal has period `T`, whatever its parameters. -/
theorem C55_periodic (c : Clock K) (t : K) (k : ℤ) : c.evaluate (t + k * c.T) = c.evaluate t := by
  unfold Clock.evaluate
  have : t + k * c.T - c.td + c.tt2 = t - c.td + c.tt2 + k * c.T := by ring
  rw [this, pyMod_add]

/-- C55: a clock with the default swing, a positive transition time and any parameters the constructor accepts
is a trapezoid whose rising edges are centred at `td + k T`, at all times. -/
theorem C55_waveform {T tt td duty : K} {c : Clock K} (h : Clock.new T tt td duty 2 = .ok c) (htt : 0 < tt) :
    (∀ t, ∃ (k : ℤ) (s : K), -(tt / 2) ≤ s ∧ s < T - tt / 2 ∧ t = td + k * T + s) ∧
    ∀ (k : ℤ) (s : K), -(tt / 2) ≤ s → s < T - tt / 2 →
      ∃ v, c.evaluate (td + k * T + s) = .ok v ∧ Trapezoid T tt duty s v := by
  obtain ⟨rfl, hT, hd0, hd1, h1, h2, -⟩ := Clock.new_ok h htt
  constructor
  · intro t
    obtain ⟨k, x, hx0, hx1, hx⟩ := pyMod_repr (t - td + tt / 2) hT
    exact ⟨k, x - tt / 2, by linarith, by linarith, by linarith⟩
  · intro k s hs0 hs1
    have hm : pyMod (td + k * T + s - td + tt / 2) T = .ok (s + tt / 2) := by
      rw [← pyMod_of_mem (b := T) (x := s + tt / 2) k hT (by linarith) (by linarith)]
      congr 1; ring
    unfold Clock.evaluate
    dsimp only
    rw [hm]
    simp only [bind, Except.bind]
    have htt2 : (0 : K) < tt / 2 := by linarith
    by_cases hc : s + tt / 2 > duty * T
    · rw [if_pos hc, Clock.posEdge_eq _ htt2 (by norm_num) _ (by linarith)]
      dsimp only
      have he : (s + tt / 2 - duty * T - tt / 2) / (tt / 2) = 2 * (s - duty * T) / tt := by field_simp; ring
      rw [he]
      refine ⟨_, rfl, ?_⟩
      have hone : (2 : K) / 2 = 1 := by norm_num
      rw [hone]
      by_cases hg : 2 * (s - duty * T) / tt > 1
      · rw [if_pos hg]
        rw [gt_iff_lt, lt_div_iff₀ htt] at hg
        refine ⟨fun _ h => ?_, fun _ h => ?_, fun _ h => ?_, fun _ h => rfl⟩ <;> exfalso <;> nlinarith
      · rw [if_neg hg]
        rw [not_lt, div_le_iff₀ htt] at hg
        refine ⟨fun _ h => ?_, fun _ h => ?_, fun _ h => rfl, fun h _ => ?_⟩
        · exfalso; nlinarith
        · exfalso; nlinarith
        · have : 2 * (s - duty * T) = tt := by linarith
          rw [this, div_self htt.ne']
    · rw [if_neg hc, Clock.posEdge_eq _ htt2 (by norm_num) _ (by linarith)]
      dsimp only
      have he : (s + tt / 2 - tt / 2) / (tt / 2) = 2 * s / tt := by field_simp; ring
      rw [he]
      refine ⟨_, rfl, ?_⟩
      have hone : (2 : K) / 2 = 1 := by norm_num
      rw [hone]
      rw [gt_iff_lt, not_lt] at hc
      by_cases hg : 2 * s / tt > 1
      · rw [if_pos hg]
        rw [gt_iff_lt, lt_div_iff₀ htt] at hg
        refine ⟨fun _ h => ?_, fun _ h => rfl, fun h _ => ?_, fun h _ => ?_⟩
        · exfalso; linarith
        · have : 2 * (s - duty * T) = -tt := by linarith
          rw [this, neg_div, div_self htt.ne', neg_neg]
        · exfalso; linarith
      · rw [if_neg hg]
        rw [not_lt, div_le_iff₀ htt] at hg
        refine ⟨fun _ _ => rfl, fun h _ => ?_, fun h _ => ?_, fun h _ => ?_⟩
        · have : 2 * s = tt := by linarith
          rw [this, div_self htt.ne']
        · have h3 : 2 * s = tt := by nlinarith
          have h4 : 2 * (s - duty * T) = -tt := by nlinarith
          rw [h3, h4, neg_div, div_self htt.ne', neg_neg]
        · exfalso; linarith

example : ∃ c : Clock ℚ, Clock.new 1 (1 / 10) (1 / 4) (2 / 5) 2 = .ok c ∧
    c.evaluate (1 / 4 + 7) = .ok 0 ∧ c.evaluate (1 / 4 + 7 + 1 / 5) = .ok 1 :=
  ⟨⟨1, 1 / 10, 1 / 20, 1 / 4, 2 / 5, 2 / 5, 1⟩, by decide +kernel, by decide +kernel, by decide +kernel⟩

/-- C55, the part that holds of "bounded by its swing": for a swing of at least 2 no value exceeds half the
swing.  Missing: smaller swings, for which it is false (`C55_swing_false`). -/
theorem C55_bounded_partial {T tt td duty sw : K} {c : Clock K} (h : Clock.new T tt td duty sw = .ok c)
    (htt : 0 < tt) (hsw : 2 ≤ sw) (t : K) : ∃ v, c.evaluate t = .ok v ∧ |v| ≤ sw / 2 := by
  obtain ⟨rfl, hT, hd0, hd1, h1, h2, -⟩ := Clock.new_ok h htt
  obtain ⟨k, x, hx0, hx1, hx⟩ := pyMod_repr (t - td + tt / 2) hT
  have hm : pyMod (t - td + tt / 2) T = .ok x := by
    rw [hx]; exact pyMod_of_mem k hT hx0 hx1
  have htt2 : (0 : K) < tt / 2 := by linarith
  have key : ∀ y : K, 0 ≤ y →
      |(if (y - tt / 2) / (tt / 2) > sw / 2 then 1 else (y - tt / 2) / (tt / 2))| ≤ sw / 2 := by
    intro y hy
    split
    · rw [abs_one]; linarith
    next hg =>
      rw [abs_le]
      refine ⟨?_, not_lt.1 hg⟩
      rw [le_div_iff₀ htt2]
      nlinarith
  unfold Clock.evaluate
  dsimp only
  rw [hm]
  simp only [bind, Except.bind]
  by_cases hc : x > duty * T
  · rw [if_pos hc, Clock.posEdge_eq _ htt2 (by dsimp only; linarith) _ (by linarith)]
    refine ⟨_, rfl, ?_⟩
    rw [abs_neg]
    exact key _ (by linarith)
  · rw [if_neg hc, Clock.posEdge_eq _ htt2 (by dsimp only; linarith) _ hx0]
    exact ⟨_, rfl, key _ hx0⟩

example : ∃ c : Clock ℚ, Clock.new 1 (1 / 10) 0 (1 / 2) 4 = .ok c :=
  ⟨⟨1, 1 / 10, 1 / 20, 0, 1 / 2, 1 / 2, 2⟩, by decide +kernel⟩

/-- C55 is false for small swings: a clock with swing 1 takes the value 1, twice its largest value. -/
theorem C55_swing_false : ∃ c : Clock ℚ, Clock.new 1 (1 / 10) 0 (1 / 2) 1 = .ok c ∧ c.maxValue = 1 / 2 ∧
    c.evaluate (1 / 4) = .ok 1 :=
  ⟨⟨1, 1 / 10, 1 / 20, 0, 1 / 2, 1 / 2, 1 / 2⟩, by decide +kernel, rfl, by decide +kernel⟩

omit [FloorRing K] in
/-- C55 is false of the documented range (0, 1] of the duty cycle: a duty cycle of 1 is rejected for every
positive transition time. -/
theorem C55_full_duty_false (T tt td sw : K) (htt : 0 < tt) :
    Clock.new T tt td 1 sw = .error .exception := by
  rcases h : Clock.new T tt td 1 sw with e | c
  · unfold Clock.new at h
    dsimp only at h
    split at h
    · cases h; rfl
    split at h
    · cases h; rfl
    split at h
    · cases h; rfl
    · cases h
  · obtain ⟨-, -, -, h1, -⟩ := Clock.new_ok h htt
    exact absurd h1 (lt_irrefl 1)

example : Clock.new (1 : ℚ) (1 / 100) 0 1 2 = .error .exception := C55_full_duty_false _ _ _ _ (by norm_num)

/-- C55, the part that holds of `next_tick`: the first rising edge not before `t`, provided `t` does not follow
an edge by less than numpy's absolute tolerance.  Missing: such `t`, see `C55_next_tick_false`. -/
theorem C55_next_tick_partial {T tt td duty sw : K} {c : Clock K} (h : Clock.new T tt td duty sw = .ok c)
    (htt : 0 < tt) (t : K)
    (hclear : ∀ e ∈ risingEdges T td, e < t → 1 / 100000000 < t - e) :
    ∃ e, c.nextTick t = .ok e ∧ FirstEdge T td t e := by
  obtain ⟨rfl, hT, -⟩ := Clock.new_ok h htt
  obtain ⟨k, x, hx0, hx1, hx⟩ := pyMod_repr (t - td) hT
  have hm : pyMod (t - td) T = .ok x := by rw [hx]; exact pyMod_of_mem k hT hx0 hx1
  unfold Clock.nextTick
  dsimp only
  rw [hm]
  simp only [bind, Except.bind]
  have least : ∀ e ∈ {e | e ∈ risingEdges T td ∧ t ≤ e}, ∃ m : ℤ, e = td + m * T ∧ (k : K) * T + x ≤ m * T := by
    rintro e ⟨⟨m, rfl⟩, hte⟩
    exact ⟨m, rfl, by linarith⟩
  have hcl : Control.allclose x 0 (1 / 100000000) ↔ x ≤ 1 / 100000000 := by
    unfold Control.allclose
    rw [sub_zero, abs_of_nonneg hx0, abs_zero, mul_zero, add_zero]
  by_cases hc : Control.allclose x 0 (1 / 100000000)
  · rw [if_pos hc]
    have hx00 : x = 0 := by
      rw [hcl] at hc
      by_contra hne
      have hpos : 0 < x := lt_of_le_of_ne hx0 (Ne.symm hne)
      have := hclear (td + k * T) ⟨k, rfl⟩ (by linarith)
      have : t - (td + k * T) = x := by linarith
      linarith
    refine ⟨t, rfl, ⟨⟨k, by linarith⟩, le_rfl⟩, ?_⟩
    rintro e ⟨-, hte⟩
    exact hte
  · rw [if_neg hc]
    refine ⟨t + T - x, rfl, ⟨⟨k + 1, by push_cast; linarith⟩, by linarith⟩, ?_⟩
    intro e he
    obtain ⟨m, rfl, hm⟩ := least e he
    have hxpos : 0 < x := by
      rw [hcl, not_le] at hc
      have : (0 : K) < 1 / 100000000 := by norm_num
      linarith
    have hkm : (k : K) < m := by
      by_contra hn
      push Not at hn
      have := mul_le_mul_of_nonneg_right hn hT.le
      linarith
    have hkm' : k + 1 ≤ m := by
      have : k < m := by exact_mod_cast hkm
      omega
    have hkm'' : ((k : K) + 1) ≤ m := by exact_mod_cast hkm'
    have := mul_le_mul_of_nonneg_right hkm'' hT.le
    linarith

example : ∃ c : Clock ℚ, Clock.new 1 (1 / 10) (1 / 4) (1 / 2) 2 = .ok c ∧ c.nextTick (1 / 2) = .ok (5 / 4) ∧
    ∀ e ∈ risingEdges (1 : ℚ) (1 / 4), e < 1 / 2 → (1 : ℚ) / 100000000 < 1 / 2 - e := by
  refine ⟨⟨1, 1 / 10, 1 / 20, 1 / 4, 1 / 2, 1 / 2, 1⟩, by decide +kernel, by decide +kernel, ?_⟩
  rintro e ⟨k, rfl⟩ h
  have h1 : (k : ℚ) < 1 := by linarith
  have h2 : k < 1 := by exact_mod_cast h1
  have h3 : (k : ℚ) ≤ 0 := by exact_mod_cast (by omega : k ≤ 0)
  linarith

/-- C55: in any case the time returned by `next_tick` is not in the past and not later than the first edge. -/
theorem C55_next_tick_bounds {T tt td duty sw : K} {c : Clock K} (h : Clock.new T tt td duty sw = .ok c)
    (htt : 0 < tt) (t : K) : ∃ e, c.nextTick t = .ok e ∧ t ≤ e ∧ ∀ e' ∈ risingEdges T td, t ≤ e' → e ≤ e' := by
  obtain ⟨rfl, hT, -⟩ := Clock.new_ok h htt
  obtain ⟨k, x, hx0, hx1, hx⟩ := pyMod_repr (t - td) hT
  have hm : pyMod (t - td) T = .ok x := by rw [hx]; exact pyMod_of_mem k hT hx0 hx1
  by_cases hc : Control.allclose x 0 (1 / 100000000)
  · refine ⟨t, ?_, le_rfl, fun e' _ h => h⟩
    unfold Clock.nextTick
    dsimp only
    rw [hm]
    simp only [bind, Except.bind]
    rw [if_pos hc]; rfl
  · obtain ⟨e, he, hl⟩ := C55_next_tick_partial h htt t (by
      rintro e ⟨m, rfl⟩ hlt
      have hxs : 1 / 100000000 < x := by
        unfold Control.allclose at hc
        rw [sub_zero, abs_of_nonneg hx0, abs_zero, mul_zero, add_zero, not_le] at hc
        exact hc
      have hmk : (m : K) < k + 1 := by
        by_contra hn
        push Not at hn
        have := mul_le_mul_of_nonneg_right hn hT.le
        linarith
      have hmk' : m ≤ k := by
        have : m < k + 1 := by exact_mod_cast hmk
        omega
      have hmk'' : (m : K) ≤ k := by exact_mod_cast hmk'
      have := mul_le_mul_of_nonneg_right hmk'' hT.le
      linarith)
    exact ⟨e, he, hl.1.2, fun e' h1 h2 => hl.2 ⟨h1, h2⟩⟩

example : ∃ c : Clock ℚ, Clock.new 1 (1 / 10) (1 / 4) (1 / 2) 2 = .ok c ∧ c.nextTick (5 / 4 + 1 / 1000) =
    .ok (9 / 4) :=
  ⟨⟨1, 1 / 10, 1 / 20, 1 / 4, 1 / 2, 1 / 2, 1⟩, by decide +kernel, by decide +kernel⟩

/-- C55 is false for fast clocks: with a period of 1 ns, `next_tick` half a period after an edge returns its
argument, which is not an edge. -/
theorem C55_next_tick_false : ∃ c : Clock ℚ,
    Clock.new (1 / 1000000000) (1 / 100000000000000) 0 (1 / 2) 2 = .ok c ∧
    c.nextTick (1 / 2000000000) = .ok (1 / 2000000000) ∧
    ¬ FirstEdge (1 / 1000000000 : ℚ) 0 (1 / 2000000000) (1 / 2000000000) := by
  refine ⟨⟨1 / 1000000000, 1 / 100000000000000, 1 / 200000000000000, 0, 1 / 2, 1 / 2000000000, 1⟩,
    by decide +kernel, by decide +kernel, ?_⟩
  rintro ⟨⟨⟨k, hk⟩, -⟩, -⟩
  have h2 : (2 * k : ℚ) = 1 := by linarith
  have h3 : 2 * k = 1 := by exact_mod_cast h2
  omega

/-! ## C68: delayed clocks -/

/-- C68, the part that holds: for clocks with duty cycle 1/2, `delay_clock_by_duty_cycle` gives the same
waveform shifted by the requested delay, by half a period if none is requested, whenever the total delay is at
most a period; otherwise it raises.  Missing: other duty cycles, see `C68_duty_cycle_false`. -/
theorem C68_delay_partial {T tt td sw : K} {c : Clock K} (h : Clock.new T tt td (1 / 2) sw = .ok c) (htt : 0 < tt)
    (delay : K) :
    (td + (if delay = 0 then T / 2 else delay) ≤ T → ∃ c', delayClock c delay = .ok c' ∧
      ∀ t, c'.evaluate (t + if delay = 0 then T / 2 else delay) = c.evaluate t) ∧
    (T < td + (if delay = 0 then T / 2 else delay) → delayClock c delay = .error .exception) := by
  obtain ⟨rfl, hT, -, -, h1, h2, -⟩ := Clock.new_ok h htt
  have hd : ∀ p : Prop, ∀ [Decidable p], (if p then (1 / 2 : K) * T else delay) = if p then T / 2 else delay := by
    intro p _; split
    · ring
    · rfl
  have hmin : ¬ tt > T * min (1 / 2) (1 - 1 / 2 : K) := by
    have : (1 - 1 / 2 : K) = 1 / 2 := by norm_num
    rw [this, min_self]
    exact not_lt.2 h1
  have hrange : ¬ ((1 / 2 : K) > 1 ∨ (1 / 2 : K) ≤ 0) := by
    push Not
    constructor <;> norm_num
  constructor
  · intro hle
    refine ⟨⟨T, tt, tt / 2, td + (if delay = 0 then T / 2 else delay), 1 / 2, 1 / 2 * T, sw / 2⟩, ?_, ?_⟩
    · unfold delayClock Clock.new Clock.maxStep
      dsimp only
      rw [hd, if_neg hrange, if_neg hmin, if_neg (not_lt.2 hle)]
      have : sw / 2 * 2 / 2 = sw / 2 := by ring
      rw [this]
    · intro t
      unfold Clock.evaluate
      dsimp only
      have : t + (if delay = 0 then T / 2 else delay) - (td + if delay = 0 then T / 2 else delay) + tt / 2 =
          t - td + tt / 2 := by ring
      rw [this]
      rfl
  · intro hgt
    unfold delayClock Clock.new Clock.maxStep
    dsimp only
    rw [hd, if_neg hrange, if_neg hmin, if_pos hgt]

example : ∃ c : Clock ℚ, Clock.new 1 (1 / 10) (1 / 4) (1 / 2) 2 = .ok c ∧
    (∃ c', delayClock c (1 / 3) = .ok c') ∧ delayClock c (4 / 5) = .error .exception :=
  ⟨⟨1, 1 / 10, 1 / 20, 1 / 4, 1 / 2, 1 / 2, 1⟩, by decide +kernel,
    ⟨⟨1, 1 / 10, 1 / 20, 7 / 12, 1 / 2, 1 / 2, 1⟩, by decide +kernel⟩, by decide +kernel⟩

/-- C68 is false for other duty cycles: a clock that is high for a quarter of its period comes back high for
half of it. -/
theorem C68_duty_cycle_false : ∃ c c' : Clock ℚ, Clock.new 1 (1 / 100) 0 (1 / 4) 2 = .ok c ∧
    delayClock c (1 / 10) = .ok c' ∧ c.evaluate (2 / 5) = .ok (-1) ∧ c'.evaluate (2 / 5 + 1 / 10) = .ok 1 :=
  ⟨⟨1, 1 / 100, 1 / 200, 0, 1 / 4, 1 / 4, 1⟩, ⟨1, 1 / 100, 1 / 200, 1 / 10, 1 / 2, 1 / 2, 1⟩,
    by decide +kernel, by decide +kernel, by decide +kernel, by decide +kernel⟩

/-! ## C69: ramps -/

/-- C69, the part that holds: a ramp is linear on each period with slope `amplitude`, starting from
`offset - amplitude / 2`.  In particular it stays within `amplitude / 2` of its offset for a period of one
second.  Missing: other periods, for which the swing is `amplitude` times the period
(`C69_amplitude_false`). -/
theorem C69_ramp_partial (amplitude period phase offset : K) (hp : 0 < period) :
    (∀ t, ∃ (k : ℤ) (x : K), 0 ≤ x ∧ x < period ∧ t = k * period - phase + x) ∧
    (∀ (k : ℤ) (x : K), 0 ≤ x → x < period →
      (Ramp.new amplitude period phase offset).evaluate (k * period - phase + x) =
        .ok (offset - amplitude / 2 + amplitude * x)) ∧
    (period = 1 → ∀ t, ∃ v, (Ramp.new amplitude period phase offset).evaluate t = .ok v ∧
      |v - offset| ≤ |amplitude| / 2) := by
  have hlin : ∀ (k : ℤ) (x : K), 0 ≤ x → x < period →
      (Ramp.new amplitude period phase offset).evaluate (k * period - phase + x) =
        .ok (offset - amplitude / 2 + amplitude * x) := by
    intro k x h0 h1
    unfold Ramp.evaluate Ramp.new
    dsimp only
    have : k * period - phase + x + phase = x + k * period := by ring
    rw [this, pyMod_of_mem k hp h0 h1]
    simp only [bind, Except.bind]
    show Except.ok _ = _
    congr 1; ring
  have hrep : ∀ t, ∃ (k : ℤ) (x : K), 0 ≤ x ∧ x < period ∧ t = k * period - phase + x := by
    intro t
    obtain ⟨k, x, h0, h1, hx⟩ := pyMod_repr (t + phase) hp
    exact ⟨k, x, h0, h1, by linarith⟩
  refine ⟨hrep, hlin, ?_⟩
  intro h1 t
  obtain ⟨k, x, hx0, hx1, rfl⟩ := hrep t
  refine ⟨_, hlin k x hx0 hx1, ?_⟩
  have he : offset - amplitude / 2 + amplitude * x - offset = amplitude * (x - 1 / 2) := by ring
  rw [he, abs_mul, div_eq_mul_one_div |amplitude| 2]
  refine mul_le_mul_of_nonneg_left ?_ (abs_nonneg _)
  rw [abs_le]
  constructor <;> linarith

example : (Ramp.new (2 : ℚ) 1 0 5).evaluate (7 / 2) = .ok 5 := by decide +kernel

/-- C69 is false for any other period: with amplitude 1, offset 0 and period 4 s the ramp reaches 2.5. -/
theorem C69_amplitude_false : (Ramp.new (1 : ℚ) 4 0 0).evaluate 3 = .ok (5 / 2) := by decide +kernel

/-! ## C70: held samples -/

/-- C70, the part that holds: a `ZeroOrderHold` returns sample `k mod n` during the period number `k` after
time zero.  Missing: negative times, see `C70_negative_time_false`. -/
theorem C70_hold_partial (data : List K) (hne : data ≠ []) (T : K) (hT : 0 < T) (k : ℕ) (t : K)
    (h0 : k * T ≤ t) (h1 : t < (k + 1) * T) :
    (ZOH.mk (some data) T).evaluate t = .ok (data.getD (k % data.length) 0) := by
  unfold ZOH.evaluate pyDiv
  dsimp only
  rw [if_neg hT.ne']
  simp only [bind, Except.bind]
  have hl : data.length ≠ 0 := by
    intro h; exact hne (List.length_eq_zero_iff.1 h)
  rw [if_neg hl]
  have hk : pyInt (t / T) = (k : ℤ) := by
    unfold pyInt
    have hk0 : (0 : K) ≤ k := Nat.cast_nonneg k
    have hq0 : (k : K) ≤ t / T := (le_div_iff₀ hT).2 h0
    rw [if_pos (hk0.trans hq0), Int.floor_eq_iff]
    exact ⟨by exact_mod_cast hq0, by
      have := (div_lt_iff₀ hT).2 h1
      exact_mod_cast this⟩
  rw [hk]
  show Except.ok _ = _
  congr 2

example : (ZOH.mk (some [3, 1, 4]) (1 / 2 : ℚ)).evaluate (9 / 4) = .ok 1 := by decide +kernel

/-- C70 is false for negative times: the first sample is held for two periods around time zero, although the
sequence is continued periodically (the period before starts with the last sample). -/
theorem C70_negative_time_false :
    (ZOH.mk (some [3, 1, 4]) (1 : ℚ)).evaluate (-1 / 2) = .ok 3 ∧
    (ZOH.mk (some [3, 1, 4]) (1 : ℚ)).evaluate (-1 / 2 + 3) = .ok 4 := by
  constructor <;> decide +kernel

/-! ## C56: reference signals -/

omit [IsStrictOrderedRing K] [FloorRing K] in
/-- C56: at any evaluation times, a binary, ternary or Gaussian signal returns a value that was drawn. -/
theorem C56_finite_alphabet (S : Set K) (draws : ℕ → ℕ → K) (hS : ∀ b i, draws b i ∈ S) (T : K) (ts : ℕ → K)
    (n : ℕ) : Rand.returned Rand.finiteStep (Rand.new draws T) ts n ∈ S := by
  unfold Rand.returned Rand.value
  rw [(Rand.after_finite_T _ _ _).2]
  exact hS _ _

example : ∀ b i : ℕ, (fun b i => if (b + i) % 2 = 0 then (-1 : ℚ) + 0 else 1 + 0) b i ∈
    {x | x ∈ binarySet (1 : ℚ) 0} := by
  intro b i
  show (if (b + i) % 2 = 0 then (-1 : ℚ) + 0 else 1 + 0) ∈ [-1 + 0, 1 + 0]
  split <;> simp

omit [FloorRing K] [IsStrictOrderedRing K] in
/-- C56: a binary reference signal only takes the two values at distance `amplitude` from the offset, a ternary one also the
offset itself; and the values are the drawn ones. -/
theorem C56_reference_values (T amplitude offset : K) (ts : ℕ → K) (n : ℕ) :
    (∀ ix : ℕ → ℕ → Fin 2,
      Rand.returned Rand.finiteStep (Rand.binary ix T amplitude offset) ts n = offset - amplitude ∨
      Rand.returned Rand.finiteStep (Rand.binary ix T amplitude offset) ts n = offset + amplitude) ∧
    (∀ ix : ℕ → ℕ → Fin 3,
      Rand.returned Rand.finiteStep (Rand.ternary ix T amplitude offset) ts n = offset - amplitude ∨
      Rand.returned Rand.finiteStep (Rand.ternary ix T amplitude offset) ts n = offset ∨
      Rand.returned Rand.finiteStep (Rand.ternary ix T amplitude offset) ts n = offset + amplitude) := by
  constructor
  · intro ix
    have := C56_finite_alphabet {x | x = offset - amplitude ∨ x = offset + amplitude}
      (fun b i => (binarySet amplitude offset)[ix b i]) (by
        intro b i
        generalize ix b i = j
        fin_cases j
        · left
          show -amplitude + offset = _
          ring
        · right
          show amplitude + offset = _
          ring) T ts n
    exact this
  · intro ix
    have := C56_finite_alphabet {x | x = offset - amplitude ∨ x = offset ∨ x = offset + amplitude}
      (fun b i => (ternarySet amplitude offset)[ix b i]) (by
        intro b i
        generalize ix b i = j
        fin_cases j
        · left
          show -amplitude + offset = _
          ring
        · exact .inr (.inl rfl)
        · right; right
          show amplitude + offset = _
          ring) T ts n
    exact this

/-- both values of a binary signal occur -/
example : Rand.returned Rand.finiteStep (Rand.binary (fun _ i => if i = 0 then 0 else 1) (1 : ℚ) 2 5) (fun k => k * 1) 0 = 3 ∧
    Rand.returned Rand.finiteStep (Rand.binary (fun _ i => if i = 0 then 0 else 1) (1 : ℚ) 2 5) (fun k => k * 1) 1 = 7 := by
  decide +kernel

omit [FloorRing K] in
/-- C56: at any evaluation times (in any order), a binary, ternary or Gaussian signal changes its value for the
first time not before `T`, and two changes are at least one period apart. -/
theorem C56_finite_held (draws : ℕ → ℕ → K) (T : K) (hT : 0 < T) (ts : ℕ → K) :
    let v := Rand.returned Rand.finiteStep (Rand.new draws T) ts
    (∀ i, v (i + 1) ≠ v i → T ≤ ts (i + 1)) ∧
    ∀ i j, i < j → v (i + 1) ≠ v i → v (j + 1) ≠ v j → ts (i + 1) + T ≤ ts (j + 1) := by
  intro v
  have hTn : ∀ n, (Rand.after Rand.finiteStep (Rand.new draws T) ts n).T = T := fun n =>
    (Rand.after_finite_T _ ts n).1
  have hchg : ∀ i, v (i + 1) ≠ v i →
      T ≤ ts (i + 1) - (Rand.after Rand.finiteStep (Rand.new draws T) ts (i + 1)).t ∧
        (Rand.after Rand.finiteStep (Rand.new draws T) ts (i + 2)).t = ts (i + 1) := by
    intro i h
    have := Rand.finite_changed (r := Rand.after Rand.finiteStep (Rand.new draws T) ts (i + 1))
      (t := ts (i + 1)) h
    rw [hTn] at this
    exact this
  constructor
  · intro i h
    have h1 := (hchg i h).1
    have h2 := Rand.after_finite_mono (Rand.new draws T) hT.le ts 0 (i + 1)
    rw [Nat.zero_add] at h2
    have h3 : (Rand.after Rand.finiteStep (Rand.new draws T) ts 0).t = 0 := rfl
    linarith
  · intro i j hij hi hj
    have h1 := (hchg j hj).1
    have h2 := (hchg i hi).2
    obtain ⟨k, rfl⟩ := Nat.exists_eq_add_of_lt hij
    have h3 := Rand.after_finite_mono (Rand.new draws T) hT.le ts (i + 2) k
    have h4 : i + 2 + k = i + k + 1 + 1 := by omega
    rw [h4] at h3
    linarith

example : ∃ (draws : ℕ → ℕ → ℚ) (ts : ℕ → ℚ),
    Rand.returned Rand.finiteStep (Rand.new draws 1) ts 1 ≠
      Rand.returned Rand.finiteStep (Rand.new draws 1) ts 0 :=
  ⟨fun _ i => if i = 0 then 1 else -1, fun n => n, by decide +kernel⟩

omit [FloorRing K] in
/-- C56: evaluated once per period, a binary, ternary or Gaussian signal delivers the drawn values one after
the other, without repetition or omission. -/
theorem C56_finite_sequence (draws : ℕ → ℕ → K) (T : K) (hT : 0 < T) (n : ℕ) :
    Rand.returned Rand.finiteStep (Rand.new draws T) (fun k => k * T) n = draws (n / 1024) (n % 1024) := by
  have key : ∀ n, (Rand.after Rand.finiteStep (Rand.new draws T) (fun k => k * T) (n + 1)).Holds draws n ∧
      (Rand.after Rand.finiteStep (Rand.new draws T) (fun k => k * T) (n + 1)).t = n * T := by
    intro n
    induction n with
    | zero =>
      have : Rand.after Rand.finiteStep (Rand.new draws T) (fun k => k * T) 1 = Rand.new draws T := by
        show Rand.finiteStep (Rand.new draws T) _ = _
        unfold Rand.finiteStep
        rw [if_neg]
        show ¬ _ - (0 : K) ≥ T
        simpa using hT
      rw [this]
      exact ⟨Rand.new_holds draws T, by simp [Rand.new]⟩
    | succ n ih =>
      have hTn := (Rand.after_finite_T (Rand.new draws T) (fun k => (k : K) * T) (n + 1)).1
      have : Rand.after Rand.finiteStep (Rand.new draws T) (fun k => (k : K) * T) (n + 2) =
          Rand.advance { Rand.after Rand.finiteStep (Rand.new draws T) (fun k => (k : K) * T) (n + 1) with
            t := ((n + 1 : ℕ) : K) * T } := by
        show Rand.finiteStep (Rand.after Rand.finiteStep (Rand.new draws T) (fun k => (k : K) * T) (n + 1))
          (((n + 1 : ℕ) : K) * T) = _
        generalize Rand.after Rand.finiteStep (Rand.new draws T) (fun k => (k : K) * T) (n + 1) = r at *
        unfold Rand.finiteStep
        rw [if_pos]
        rw [hTn, ih.2]
        show T ≤ _
        push_cast
        linarith
      rw [this]
      exact ⟨Rand.Holds.advance ih.1, (Rand.advance_t _).1⟩
  exact (key n).1.value

example : Rand.returned Rand.finiteStep (Rand.new (fun b i => ((b * 7 + i : ℕ) : ℚ)) (1 / 2)) (fun k => k * (1 / 2)) 3
    = 3 := by decide +kernel

omit [IsStrictOrderedRing K] [FloorRing K] in
/-- C56: at any evaluation times, a uniform signal returns a value of `[low + offset, high + offset)`, the
interval its random generator draws from. -/
theorem C56_uniform_interval (low high offset : K) (draws : ℕ → ℕ → K)
    (hdraw : ∀ b i, low + offset ≤ draws b i ∧ draws b i < high + offset) (T : K) (ts : ℕ → K) (n : ℕ) :
    low + offset ≤ Rand.returned Rand.uniformStep (Rand.new draws T) ts n ∧
      Rand.returned Rand.uniformStep (Rand.new draws T) ts n < high + offset := by
  unfold Rand.returned Rand.value
  rw [(Rand.after_uniform_T _ _ _).2]
  exact hdraw _ _

example : ∀ _b i : ℕ, (-1 : ℚ) + 2 ≤ (fun _ i => (1 + 1 / (i + 1) : ℚ)) _b i - 0 ∧
    (fun _ i => (1 + 1 / (i + 1) : ℚ)) _b i < 1 + 2 := by
  intro b i
  have h : (0 : ℚ) < i + 1 := by positivity
  have h1 : (1 : ℚ) / (i + 1) ≤ 1 := by
    rw [div_le_one h]
    have : (0 : ℚ) ≤ i := Nat.cast_nonneg i
    linarith
  have h2 : (0 : ℚ) < 1 / (i + 1) := by positivity
  constructor
  · show (-1 : ℚ) + 2 ≤ 1 + 1 / (i + 1) - 0
    linarith
  · show (1 : ℚ) + 1 / (i + 1) < 1 + 2
    linarith

/-- C56, the part that holds for uniform signals: if the signal is evaluated at increasing times, never more
than a period apart, its value at time `t` is the draw number `⌈t / T⌉ - 1`: it is held for exactly one period
and changes right after multiples of the period.  Missing: evaluations further apart
(`C56_uniform_false`). -/
theorem C56_uniform_partial (draws : ℕ → ℕ → K) (T : K) (hT : 0 < T) (ts : ℕ → K) (h0 : ts 0 ≤ T)
    (hmono : ∀ n, ts n ≤ ts (n + 1)) (hdense : ∀ n, ts (n + 1) ≤ ts n + T) (n : ℕ) :
    Rand.returned Rand.uniformStep (Rand.new draws T) ts n =
      draws ((⌈ts n / T⌉ - 1).toNat / 1024) ((⌈ts n / T⌉ - 1).toNat % 1024) := by
  have key : ∀ n, (Rand.after Rand.uniformStep (Rand.new draws T) ts (n + 1)).Holds draws
      (⌈ts n / T⌉ - 1).toNat ∧
      (Rand.after Rand.uniformStep (Rand.new draws T) ts (n + 1)).t = ((⌈ts n / T⌉ - 1).toNat : K) * T := by
    intro n
    induction n with
    | zero =>
      have : Rand.after Rand.uniformStep (Rand.new draws T) ts 1 = Rand.new draws T := by
        show Rand.uniformStep (Rand.new draws T) _ = _
        unfold Rand.uniformStep
        rw [if_neg]
        show ¬ _ - (0 : K) > T
        simpa using h0
      rw [this]
      have hc : (⌈ts 0 / T⌉ - 1).toNat = 0 := by
        have : ⌈ts 0 / T⌉ ≤ 1 := by
          rw [Int.ceil_le]
          rw [div_le_iff₀ hT]
          simpa using h0
        omega
      rw [hc]
      exact ⟨Rand.new_holds draws T, by simp [Rand.new]⟩
    | succ n ih =>
      obtain ⟨ih1, ih2⟩ := ih
      have hTn := (Rand.after_uniform_T (Rand.new draws T) ts (n + 1)).1
      have hstep : Rand.after Rand.uniformStep (Rand.new draws T) ts (n + 2) =
        Rand.uniformStep (Rand.after Rand.uniformStep (Rand.new draws T) ts (n + 1)) (ts (n + 1)) := rfl
      rw [hstep]
      have hle : ⌈ts n / T⌉ ≤ ⌈ts (n + 1) / T⌉ :=
        Int.ceil_mono ((div_le_div_iff_of_pos_right hT).2 (hmono n))
      have hle' : ⌈ts (n + 1) / T⌉ ≤ ⌈ts n / T⌉ + 1 := by
        rw [← Int.ceil_add_one]
        refine Int.ceil_mono ?_
        rw [div_le_iff₀ hT, add_mul, one_mul, div_mul_cancel₀ _ hT.ne']
        exact hdense n
      generalize Rand.after Rand.uniformStep (Rand.new draws T) ts (n + 1) = r at *
      have hTr : r.T = T := hTn
      set a := ⌈ts n / T⌉ with ha
      set b := ⌈ts (n + 1) / T⌉ with hb
      have hbT : ts (n + 1) ≤ b * T := by
        have := Int.le_ceil (ts (n + 1) / T)
        rwa [div_le_iff₀ hT] at this
      have hbT' : ((b : K) - 1) * T < ts (n + 1) := by
        have := Int.ceil_lt_add_one (ts (n + 1) / T)
        rw [← hb] at this
        rw [← lt_div_iff₀ hT]
        linarith
      unfold Rand.uniformStep
      by_cases hup : 2 ≤ b ∧ b = a + 1
      · -- update
        obtain ⟨hb2, hba⟩ := hup
        have hn1 : (b - 1).toNat = (a - 1).toNat + 1 := by omega
        have hcast : (((a - 1).toNat : ℕ) : K) = (b : K) - 2 := by
          have : (((a - 1).toNat : ℕ) : ℤ) = b - 2 := by omega
          have h' : ((((a - 1).toNat : ℕ) : ℤ) : K) = ((b - 2 : ℤ) : K) := by rw [this]
          rw [Int.cast_natCast, Int.cast_sub, Int.cast_ofNat] at h'
          exact h'
        rw [if_pos (by
          rw [hTr, ih2, hcast]
          show T < _
          nlinarith)]
        refine ⟨?_, ?_⟩
        · rw [hn1]
          exact Rand.Holds.advance (r := { r with t := r.t + r.T }) ih1
        · rw [(Rand.advance_t _).1]
          show r.t + r.T = _
          rw [ih2, hTr, hn1]
          push_cast
          ring
      · -- no update
        have hn1 : (b - 1).toNat = (a - 1).toNat := by omega
        rw [hn1]
        rw [if_neg (by
          rw [hTr, ih2, not_lt]
          have hz : (b : ℤ) ≤ ((a - 1).toNat : ℤ) + 1 := by omega
          have hz' : (b : K) ≤ ((a - 1).toNat : K) + 1 := by exact_mod_cast hz
          have := mul_le_mul_of_nonneg_right hz' hT.le
          linarith)]
        exact ⟨ih1, ih2⟩
  exact (key n).1.value

example : ∃ ts : ℕ → ℚ, ts 0 ≤ 1 ∧ (∀ n, ts n ≤ ts (n + 1)) ∧ (∀ n, ts (n + 1) ≤ ts n + 1) ∧
    Rand.returned Rand.uniformStep (Rand.new (fun _ i => (i : ℚ)) 1) ts 5 = 2 := by
  refine ⟨fun n => n / 2, by norm_num, fun n => ?_, fun n => ?_, by decide +kernel⟩ <;>
  · push_cast
    linarith

/-- C56 is false for uniform signals: after a long pause the value changes at every evaluation although
(almost) no time passes between them. -/
theorem C56_uniform_false : ∃ (draws : ℕ → ℕ → ℚ) (ts : ℕ → ℚ), (∀ n, ts n ≤ ts (n + 1)) ∧
    Rand.returned Rand.uniformStep (Rand.new draws 1) ts 1 ≠
      Rand.returned Rand.uniformStep (Rand.new draws 1) ts 0 ∧
    Rand.returned Rand.uniformStep (Rand.new draws 1) ts 2 ≠
      Rand.returned Rand.uniformStep (Rand.new draws 1) ts 1 ∧ ts 2 < ts 1 + 1 :=
  ⟨fun _ i => i, fun _ => 10, fun _ => le_rfl, by decide +kernel, by decide +kernel, by norm_num⟩

/-! ## C73: reference signals as functions of time -/

omit [FloorRing K] in
/-- C73, the part that holds: evaluating a binary, ternary or Gaussian signal again at the same time gives the
same value, whatever happened before.  Missing: evaluations at other times in between
(`C73_history_false`) and uniform signals (`C73_uniform_false`). -/
theorem C73_repeat_partial (r : Rand K) (hT : 0 < r.T) (t : K) :
    (r.finiteStep t).finiteStep t = r.finiteStep t := by
  by_cases h : t - r.t ≥ r.T
  · have h1 : r.finiteStep t = Rand.advance { r with t := t } := by unfold Rand.finiteStep; rw [if_pos h]
    rw [h1]
    have := Rand.advance_t { r with t := t }
    obtain ⟨h2, h3, -⟩ := this
    generalize Rand.advance { r with t := t } = r' at *
    unfold Rand.finiteStep
    rw [if_neg]
    rw [h2, h3, not_le]
    show t - t < r.T
    linarith
  · have h1 : r.finiteStep t = r := by unfold Rand.finiteStep; rw [if_neg h]
    rw [h1, h1]

example : (Rand.new (fun _ i => (i : ℚ)) 1).finiteStep 3 ≠ Rand.new (fun _ i => (i : ℚ)) 1 := by
  intro h
  have := congrArg Rand.index h
  revert this
  decide +kernel

/-- C73 is false: the value at a time depends on the evaluations made before.  A solver that looks ahead and
comes back sees different values at the same time. -/
theorem C73_history_false : ∃ (draws : ℕ → ℕ → ℚ) (ts : ℕ → ℚ), ts 0 = ts 2 ∧
    Rand.returned Rand.finiteStep (Rand.new draws 1) ts 0 ≠
      Rand.returned Rand.finiteStep (Rand.new draws 1) ts 2 :=
  ⟨fun _ i => i, fun n => if n = 1 then 1 else 1 / 2, by norm_num, by decide +kernel⟩

/-- C73 is false for uniform signals even for immediate repetition. -/
theorem C73_uniform_false : ∃ (draws : ℕ → ℕ → ℚ),
    Rand.returned Rand.uniformStep (Rand.new draws 1) (fun _ => 5) 0 ≠
      Rand.returned Rand.uniformStep (Rand.new draws 1) (fun _ => 5) 1 :=
  ⟨fun _ i => i, by decide +kernel⟩

end Cbadc.Signal
