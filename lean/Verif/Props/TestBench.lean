import Mathlib.Algebra.Order.Floor.Ring
import Mathlib.Analysis.Real.Pi.Bounds
import Mathlib.Tactic.Linarith
import Mathlib.Tactic.NormNum
import Verif.Lemmas.TestBench
import Verif.Props.NgSpice

/-!
# C114, C115: what the test bench applies, and when the control vectors are read
-/

namespace Cbadc.TestBench
open Circuit Spec

/-! ## C114: supplies, clock and inputs -/

theorem clock_high (T tt vdd : ℝ) (htt : 0 < tt) (hT : 2 * tt ≤ T) (hv : 0 < vdd) (t : ℝ) (ht : 0 ≤ t) :
    (0 ≤ value (pulseWave 0 vdd T tt tt) t ∧ value (pulseWave 0 vdd T tt tt) t ≤ vdd) ∧
    (value (pulseWave 0 vdd T tt tt) t > vdd / 2 ↔ High T tt t) := by
  have hT0 : 0 < T := by linarith
  have hf0 : (0 : ℝ) ≤ (⌊(t - 0) / T⌋ : ℝ) := by
    have : 0 ≤ ⌊(t - 0) / T⌋ := Int.floor_nonneg.mpr (by rw [sub_zero]; positivity)
    exact_mod_cast this
  have hp1 : T * (⌊(t - 0) / T⌋ : ℝ) ≤ t := by
    have := Int.floor_le ((t - 0) / T)
    rw [le_div_iff₀ hT0] at this
    linarith
  have hp2 : t < T * (⌊(t - 0) / T⌋ : ℝ) + T := by
    have := Int.lt_floor_add_one ((t - 0) / T)
    rw [div_lt_iff₀ hT0] at this
    linarith
  have hhigh : High T tt t ↔ tt / 2 < t - T * (⌊(t - 0) / T⌋ : ℝ) ∧ t - T * (⌊(t - 0) / T⌋ : ℝ) < T / 2 + tt / 2 := by
    constructor
    · rintro ⟨k, h1, h2⟩
      have hk : ⌊(t - 0) / T⌋ = (k : ℤ) := by
        rw [Int.floor_eq_iff, le_div_iff₀ hT0, div_lt_iff₀ hT0]
        push_cast
        constructor
        · linarith
        · linarith
      rw [hk]
      push_cast
      constructor <;> linarith
    · rintro ⟨h1, h2⟩
      have hk : (0 : ℤ) ≤ ⌊(t - 0) / T⌋ := by exact_mod_cast hf0
      refine ⟨⌊(t - 0) / T⌋.toNat, ?_, ?_⟩
      · have : ((⌊(t - 0) / T⌋.toNat : ℕ) : ℝ) = (⌊(t - 0) / T⌋ : ℝ) := by
          have : ((⌊(t - 0) / T⌋.toNat : ℕ) : ℤ) = ⌊(t - 0) / T⌋ := Int.toNat_of_nonneg hk
          exact_mod_cast this
        rw [this]
        linarith
      · have : ((⌊(t - 0) / T⌋.toNat : ℕ) : ℝ) = (⌊(t - 0) / T⌋ : ℝ) := by
          have : ((⌊(t - 0) / T⌋.toNat : ℕ) : ℤ) = ⌊(t - 0) / T⌋ := Int.toNat_of_nonneg hk
          exact_mod_cast this
        rw [this]
        linarith
  rw [hhigh]
  have hval : value (pulseWave 0 vdd T tt tt) t =
      if t < 0 then 0
      else if t - 0 - T * (⌊(t - 0) / T⌋ : ℝ) < tt then 0 + (vdd - 0) * ((t - 0 - T * (⌊(t - 0) / T⌋ : ℝ)) / tt)
      else if t - 0 - T * (⌊(t - 0) / T⌋ : ℝ) < tt + (T * (1 / 2) - tt) then vdd
      else if t - 0 - T * (⌊(t - 0) / T⌋ : ℝ) < tt + (T * (1 / 2) - tt) + tt then
        vdd + (0 - vdd) * ((t - 0 - T * (⌊(t - 0) / T⌋ : ℝ) - (tt + (T * (1 / 2) - tt))) / tt)
      else 0 := rfl
  have hsub : t - T * (⌊(t - 0) / T⌋ : ℝ) = t - 0 - T * (⌊(t - 0) / T⌋ : ℝ) := by ring
  rw [hval, hsub]
  have hq0 : 0 ≤ t - 0 - T * (⌊(t - 0) / T⌋ : ℝ) := by linarith
  generalize t - 0 - T * (⌊(t - 0) / T⌋ : ℝ) = p at hq0 ⊢
  rw [if_neg (not_lt.mpr ht)]
  by_cases h1 : p < tt
  · rw [if_pos h1]
    have e : 0 + (vdd - 0) * (p / tt) = vdd * p / tt := by ring
    rw [e]
    refine ⟨⟨by positivity, ?_⟩, ?_⟩
    · rw [div_le_iff₀ htt]
      nlinarith
    · rw [gt_iff_lt, lt_div_iff₀ htt]
      constructor
      · intro h
        constructor
        · nlinarith
        · linarith
      · rintro ⟨h, _⟩
        nlinarith
  · rw [if_neg h1]
    by_cases h2 : p < tt + (T * (1 / 2) - tt)
    · rw [if_pos h2]
      refine ⟨⟨hv.le, le_refl _⟩, ?_⟩
      constructor
      · intro _
        constructor <;> linarith
      · intro _
        linarith
    · rw [if_neg h2]
      by_cases h3 : p < tt + (T * (1 / 2) - tt) + tt
      · rw [if_pos h3]
        have hr0 : 0 ≤ (p - (tt + (T * (1 / 2) - tt))) / tt := div_nonneg (by linarith) htt.le
        have hr1 : (p - (tt + (T * (1 / 2) - tt))) / tt ≤ 1 := by
          rw [div_le_iff₀ htt]
          linarith
        refine ⟨⟨by nlinarith, by nlinarith⟩, ?_⟩
        have hr2 : (p - (tt + (T * (1 / 2) - tt))) / tt < 1 / 2 ↔ p < T / 2 + tt / 2 := by
          rw [div_lt_iff₀ htt]
          constructor <;> intro h <;> linarith
        rw [← hr2]
        constructor
        · intro h
          exact ⟨by linarith, by nlinarith⟩
        · rintro ⟨_, h⟩
          nlinarith
      · rw [if_neg h3]
        refine ⟨⟨le_refl _, hv.le⟩, ?_⟩
        constructor
        · intro h
          linarith
        · rintro ⟨_, h⟩
          linarith

variable (ids : String → ℕ → String) (inputs : List Signal) (M : ℕ) (T tt vdd : ℝ) (lines : List SourceLine)

/-- **C114** the supplies are symmetric about the common mode voltage, and the clock toggles between the rails: it
is above the common mode voltage during the first half of every period, late by half a transition time. -/
theorem C114_supply (h : sourceLines ids inputs M T tt vdd = .ok lines) (v : String → ℝ → ℝ)
    (hv : Holds lines v) (t : ℝ) (ht : 0 ≤ t) :
    v "VDD" t = vdd ∧ v "VCM" t = vdd / 2 ∧
    (0 < tt → 2 * tt ≤ T → 0 < vdd → (0 ≤ v "CLK" t ∧ v "CLK" t ≤ vdd) ∧ (v "CLK" t > v "VCM" t ↔ High T tt t)) := by
  obtain ⟨waves, _, hm⟩ := lines_mem ids inputs M T tt vdd lines h
  have h1 := hv.2 _ ((hm _).mpr (Or.inl (Or.inl rfl))) t ht
  have h2 := hv.2 _ ((hm _).mpr (Or.inl (Or.inr (Or.inl rfl)))) t ht
  have h3 := hv.2 _ ((hm _).mpr (Or.inl (Or.inr (Or.inr rfl)))) t ht
  have h0 := hv.1 t
  have h1' : v "VDD" t - v "VCM" t = vdd / 2 := h1
  have h2' : v "VCM" t - v "0" t = vdd / 2 := h2
  have h3' : v "CLK" t - v "0" t = value (pulseWave 0 vdd T tt tt) t := h3
  rw [h0, sub_zero] at h2' h3'
  refine ⟨by linarith, h2', fun a b c => ?_⟩
  rw [h3', h2']
  exact clock_high T tt vdd a b c t ht

/-- The voltages of an input. -/
theorem input_voltage (h : sourceLines ids inputs M T tt vdd = .ok lines) (v : String → ℝ → ℝ)
    (hv : Holds lines v) (l : ℕ) (a f ph o : ℝ) (hl : inputs[l]? = some (.sinusoidal a f ph o)) (t : ℝ) (ht : 0 ≤ t) :
    v (fmt "IN" l "_P") t = vdd / 2 + (o + a / 2 * Real.sin (2 * Real.pi * f * t + ph * Real.pi / 180)) ∧
    v (fmt "IN" l "_N") t = vdd / 2 - (o + a / 2 * Real.sin (2 * Real.pi * f * t + ph * Real.pi / 180)) := by
  have hs := C114_supply ids inputs M T tt vdd lines h v hv t ht
  obtain ⟨waves, hw, hm⟩ := lines_mem ids inputs M T tt vdd lines h
  obtain ⟨w, hw1, hw2⟩ := (mapM_ok inputWave inputs waves hw).2 l _ hl
  have hw3 : w = .sin o (a / 2) f 0 0 ph := (Except.ok.inj hw1).symm
  subst hw3
  have h1 := hv.2 _ ((hm _).mpr (Or.inr ⟨l, _, hw2, Or.inl rfl⟩)) t ht
  have h2 := hv.2 _ ((hm _).mpr (Or.inr ⟨l, _, hw2, Or.inr rfl⟩)) t ht
  have hval : value (.sin o (a / 2) f 0 0 ph) t =
      o + a / 2 * Real.sin (2 * Real.pi * f * t + ph * Real.pi / 180) := by
    unfold value
    dsimp only
    rw [if_neg (not_lt.mpr ht), mul_zero, Real.exp_zero, mul_one, sub_zero]
  have h1' : v (fmt "IN" l "_P") t - v "VCM" t = value (.sin o (a / 2) f 0 0 ph) t := h1
  have h2' : v "VCM" t - v (fmt "IN" l "_N") t = value (.sin o (a / 2) f 0 0 ph) t := h2
  rw [hval, hs.2.1] at h1' h2'
  exact ⟨by linarith, by linarith⟩

/-- **C114 (part that holds)** the differential voltage at an input without phase and offset is the signal the
user gave, and whatever the signal it is centred at the common mode voltage. -/
theorem C114_input_partial (h : sourceLines ids inputs M T tt vdd = .ok lines) (v : String → ℝ → ℝ)
    (hv : Holds lines v) (l : ℕ) (a f ph o : ℝ) (hl : inputs[l]? = some (.sinusoidal a f ph o)) (t : ℝ) (ht : 0 ≤ t) :
    (v (fmt "IN" l "_P") t + v (fmt "IN" l "_N") t) / 2 = v "VCM" t ∧
    (ph = 0 → o = 0 → v (fmt "IN" l "_P") t - v (fmt "IN" l "_N") t = wanted a f ph o t) := by
  obtain ⟨h1, h2⟩ := input_voltage ids inputs M T tt vdd lines h v hv l a f ph o hl t ht
  have hs := C114_supply ids inputs M T tt vdd lines h v hv t ht
  refine ⟨by rw [h1, h2, hs.2.1]; ring, ?_⟩
  intro hp ho
  rw [h1, h2, hp, ho]
  unfold wanted
  rw [zero_mul, zero_div]
  ring

/-- **C114 is false for a signal with an offset**, which arrives doubled. -/
theorem C114_offset_false (h : sourceLines ids [.sinusoidal 0 1 0 1] M T tt vdd = .ok lines) (v : String → ℝ → ℝ)
    (hv : Holds lines v) (t : ℝ) (ht : 0 ≤ t) :
    v (fmt "IN" 0 "_P") t - v (fmt "IN" 0 "_N") t = 2 * wanted 0 1 0 1 t ∧ wanted 0 1 0 1 t = 1 := by
  obtain ⟨h1, h2⟩ := input_voltage ids _ M T tt vdd lines h v hv 0 0 1 0 1 rfl t ht
  have hw : wanted 0 1 0 1 t = 1 := by unfold wanted; ring
  refine ⟨?_, hw⟩
  rw [h1, h2, hw]
  ring

/-- **C114 is false for a signal with a phase**: the phase is in radian, the netlist takes it in degrees.  The
cosine (phase `π / 2`), which is one at the start, starts below one tenth. -/
theorem C114_phase_false (h : sourceLines ids [.sinusoidal 1 1 (Real.pi / 2) 0] M T tt vdd = .ok lines)
    (v : String → ℝ → ℝ) (hv : Holds lines v) :
    v (fmt "IN" 0 "_P") 0 - v (fmt "IN" 0 "_N") 0 < 1 / 10 ∧ wanted 1 1 (Real.pi / 2) 0 0 = 1 := by
  obtain ⟨h1, h2⟩ := input_voltage ids _ M T tt vdd lines h v hv 0 1 1 (Real.pi / 2) 0 rfl 0 (le_refl _)
  have hw : wanted 1 1 (Real.pi / 2) 0 0 = 1 := by
    unfold wanted
    rw [mul_zero, zero_add, Real.sin_pi_div_two]
    norm_num
  refine ⟨?_, hw⟩
  rw [h1, h2]
  simp only [mul_zero, zero_add]
  have hpos : 0 < Real.pi / 2 * Real.pi / 180 := by have := Real.pi_pos; positivity
  have hs := Real.sin_lt hpos
  have hb : Real.pi / 2 * Real.pi / 180 < 1 / 10 := by
    have h3 := Real.pi_pos
    have h4 : Real.pi < 4 := Real.pi_lt_four
    nlinarith
  linarith

/-- **C114** every input signal has to be sinusoidal; otherwise the test bench is refused. -/
theorem C114_refused (h : Signal.other ∈ inputs) :
    sourceLines ids inputs M T tt vdd = .error .typeError := by
  unfold sourceLines
  rw [mapM_error inputWave .typeError inputs ?_ ⟨_, h, rfl⟩]
  · rfl
  · intro a _ x hx
    cases a with
    | sinusoidal => cases hx
    | other => exact (Except.error.inj hx).symm

/-- Potentials meeting the hypotheses of C114 exist for every test bench: each input node is driven by its own
source. -/
theorem C114_solvable (sigs : List (ℝ × ℝ × ℝ × ℝ)) :
    ∃ lines v, sourceLines ids (sigs.map fun s => .sinusoidal s.1 s.2.1 s.2.2.1 s.2.2.2) M T tt vdd = .ok lines ∧
      Holds lines v := by
  have hok : ∀ sigs : List (ℝ × ℝ × ℝ × ℝ),
      (sigs.map fun s => Signal.sinusoidal s.1 s.2.1 s.2.2.1 s.2.2.2).mapM inputWave =
      (.ok (sigs.map fun s => Wave.sin s.2.2.2 (s.1 / 2) s.2.1 0 0 s.2.2.1) : Res (List Wave)) := by
    intro sigs
    induction sigs with
    | nil => rfl
    | cons s l ih =>
      rw [List.map_cons, List.mapM_cons, ih]
      rfl
  have hl : ∃ lines, sourceLines ids (sigs.map fun s => .sinusoidal s.1 s.2.1 s.2.2.1 s.2.2.2) M T tt vdd =
      .ok lines := by
    unfold sourceLines
    rw [hok sigs]
    exact ⟨_, rfl⟩
  obtain ⟨lines, hl⟩ := hl
  obtain ⟨waves, hw, hm⟩ := lines_mem ids _ M T tt vdd lines hl
  classical
  let v : String → ℝ → ℝ := fun x t =>
    if x = "VDD" then vdd else if x = "VCM" then vdd / 2
    else if x = "CLK" then value (pulseWave 0 vdd T tt tt) t
    else if h : ∃ l w, waves[l]? = some w ∧ x = fmt "IN" l "_P" then vdd / 2 + value h.choose_spec.choose t
    else if h : ∃ l w, waves[l]? = some w ∧ x = fmt "IN" l "_N" then vdd / 2 - value h.choose_spec.choose t
    else 0
  have ne1 : ∀ (l : ℕ) (s : String), fmt "IN" l s ≠ "VDD" ∧ fmt "IN" l s ≠ "VCM" ∧ fmt "IN" l s ≠ "CLK" ∧
      "0" ≠ fmt "IN" l s := by
    intro l s
    refine ⟨?_, ?_, ?_, ?_⟩ <;> intro e <;> (names at e)
  have ne2 : ∀ l l' : ℕ, fmt "IN" l "_N" ≠ fmt "IN" l' "_P" := by
    intro l l' e
    names at e
  have inj : ∀ (l l' : ℕ) (s : String), s = "_P" ∨ s = "_N" → fmt "IN" l s = fmt "IN" l' s → l = l' := by
    intro l l' s hs e
    rcases hs with rfl | rfl
    · names at e
      exact e
    · names at e
      exact e
  have v0 : ∀ t, v "0" t = 0 := by
    intro t
    have a1 : ¬ ∃ l w, waves[l]? = some w ∧ "0" = fmt "IN" l "_P" := by
      rintro ⟨l, w, _, e⟩
      exact (ne1 l "_P").2.2.2 e
    have a2 : ¬ ∃ l w, waves[l]? = some w ∧ "0" = fmt "IN" l "_N" := by
      rintro ⟨l, w, _, e⟩
      exact (ne1 l "_N").2.2.2 e
    show (if "0" = "VDD" then _ else _) = _
    rw [if_neg (by decide), if_neg (by decide), if_neg (by decide), dif_neg a1, dif_neg a2]
  have vP : ∀ l w t, waves[l]? = some w → v (fmt "IN" l "_P") t = vdd / 2 + value w t := by
    intro l w t hw
    have a1 : ∃ l' w', waves[l']? = some w' ∧ fmt "IN" l "_P" = fmt "IN" l' "_P" := ⟨l, w, hw, rfl⟩
    show (if fmt "IN" l "_P" = "VDD" then _ else _) = _
    rw [if_neg (ne1 l "_P").1, if_neg (ne1 l "_P").2.1, if_neg (ne1 l "_P").2.2.1, dif_pos a1]
    have h1 := a1.choose_spec.choose_spec
    have h2 := inj _ _ _ (Or.inl rfl) h1.2
    have h3 : waves[a1.choose]? = some w := by rw [← h2]; exact hw
    rw [Option.some.inj (h1.1.symm.trans h3)]
  have vN : ∀ l w t, waves[l]? = some w → v (fmt "IN" l "_N") t = vdd / 2 - value w t := by
    intro l w t hw
    have a0 : ¬ ∃ l' w', waves[l']? = some w' ∧ fmt "IN" l "_N" = fmt "IN" l' "_P" := by
      rintro ⟨l', w', _, e⟩
      exact ne2 l l' e
    have a1 : ∃ l' w', waves[l']? = some w' ∧ fmt "IN" l "_N" = fmt "IN" l' "_N" := ⟨l, w, hw, rfl⟩
    show (if fmt "IN" l "_N" = "VDD" then _ else _) = _
    rw [if_neg (ne1 l "_N").1, if_neg (ne1 l "_N").2.1, if_neg (ne1 l "_N").2.2.1, dif_neg a0, dif_pos a1]
    have h1 := a1.choose_spec.choose_spec
    have h2 := inj _ _ _ (Or.inr rfl) h1.2
    have h3 : waves[a1.choose]? = some w := by rw [← h2]; exact hw
    rw [Option.some.inj (h1.1.symm.trans h3)]
  refine ⟨lines, v, hl, v0, ?_⟩
  intro x hx t _
  rcases (hm x).mp hx with (rfl | rfl | rfl) | ⟨l, w, hg, rfl | rfl⟩
  · show vdd - vdd / 2 = vdd / 2
    ring
  · show vdd / 2 - v "0" t = vdd / 2
    rw [v0]
    ring
  · show value (pulseWave 0 vdd T tt tt) t - v "0" t = value (pulseWave 0 vdd T tt tt) t
    rw [v0]
    ring
  · show v (fmt "IN" l "_P") t - vdd / 2 = value w t
    rw [vP l w t hg]
    ring
  · show vdd / 2 - v (fmt "IN" l "_N") t = value w t
    rw [vN l w t hg]
    ring

end Cbadc.TestBench
