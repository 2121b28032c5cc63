import Mathlib.Tactic.NormNum
import Verif.Lemmas.FilterDesign
import Verif.Spec.FilterDesign

/-! # C161: filters designed from a specification -/

namespace Cbadc.Filters
open Finset Complex Cbadc.Analog Cbadc.Analog.Spec

theorem design_eq (ellipap : ℕ → ℝ → ℝ → Zpk) (other : FType → Freq → Freq → ℝ → ℝ → ℕ × Freq)
    (sort : List ℂ → List ℂ) (wp ws : Freq) (gpass gstop : ℝ) (ft : FType) (b : Band) (hb : bandOf wp ws = .ok b)
    (hp : 0 < gpass) (hs : gpass ≤ gstop) (f f' : Zpk)
    (hf : prototype ellipap ft (order other ft b wp ws gpass gstop).1 gpass gstop = .ok f)
    (ht : transform f b (order other ft b wp ws gpass gstop).2 = .ok f') :
    iirDesign ellipap other sort wp ws gpass gstop ft = system sort f' := by
  unfold iirDesign
  rw [hb]
  simp only [bind, Except.bind]
  rw [if_neg (by rintro (h | h | h) <;> linarith), hf]
  dsimp only
  rw [ht]

theorem split_length (wo : ℝ) (l : List ℂ) : (split wo l).length = 2 * l.length := by
  simp [split, two_mul]

/-- **C161 (part that holds)** for every filter type and every band: if the low-pass prototype that scipy offers is
one (conjugate pairs, stable, positive gain) and the transformed poles and zeros have no two pairs with the same
imaginary parts, then `IIRDesign` is constructed with one input and one output and one state per pole, and its
transfer function is the one of the prototype at the transformed frequency, and zero at the transformed zeros. -/
theorem C161_transform_partial (ellipap : ℕ → ℝ → ℝ → Zpk) (other : FType → Freq → Freq → ℝ → ℝ → ℕ × Freq)
    (sort : List ℂ → List ℂ) (hsort : Sorts sort) (wp ws : Freq) (gpass gstop : ℝ) (ft : FType) (b : Band)
    (hb : bandOf wp ws = .ok b) (hgp : 0 < gpass) (hgs : gpass ≤ gstop) (N : ℕ) (w : Freq)
    (ho : order other ft b wp ws gpass gstop = (N, w)) (hw : ∀ lo hi, w = .two lo hi → lo < hi) (f f' : Zpk)
    (hf : prototype ellipap ft N gpass gstop = .ok f) (ht : transform f b w = .ok f') (hproto : Prototype f)
    (hz : Conjugate (f'.z.filter fun z => z.im ≠ 0)) (hp : Conjugate f'.p) :
    ∃ g, iirDesign ellipap other sort wp ws gpass gstop ft = .ok g ∧ g.N = f'.p.length ∧ g.L = 1 ∧ g.Nt = 1 ∧
      ∀ s : ℂ, (∀ r ∈ f'.p, s ≠ r) →
        (s • (1 : Matrix (Fin g.N) (Fin g.N) ℂ) - toM g.N g.N g.A).det ≠ 0 ∧
        (Spec.Finite b w s → ∀ i j, g.tfm s i j = zpkValue f.z f.p (f.k : ℝ) (Spec.toLowpass b w s)) ∧
        (s ∈ f'.z → ∀ i j, g.tfm s i j = 0) := by
  have hd := design_eq ellipap other sort wp ws gpass gstop ft b hb hgp hgs f f' (by rw [ho]; exact hf)
    (by rw [ho]; exact ht)
  have hlen := hproto.len
  have hk := hproto.k
  have hne := hproto.ne
  obtain ⟨hgain, -⟩ := hproto.gain sort hsort
  -- sizes, the sign of the gain and the value, band by band
  have key : f'.z.length ≤ f'.p.length ∧ f'.p ≠ [] ∧ 0 < f'.k ∧ ∀ s, Spec.Finite b w s →
      zpkValue f'.z f'.p (f'.k : ℝ) s = zpkValue f.z f.p (f.k : ℝ) (Spec.toLowpass b w s) := by
    cases b <;> cases w <;> simp only [transform] at ht <;> try cases ht
    · rename_i w
      split_ifs at ht with h
      cases ht
      push Not at h
      refine ⟨by simpa [lp2lp] using hlen, by simpa [lp2lp] using hne, ?_, fun s _ => ?_⟩
      · show 0 < f.k * w ^ _
        positivity
      · exact value_lp f hlen w h.ne' s
    · rename_i w
      split_ifs at ht with h
      cases ht
      refine ⟨?_, by simpa [lp2hp] using hne, hgain, fun s hs => ?_⟩
      · simp only [lp2hp, List.length_append, List.length_map, List.length_replicate]
        omega
      · exact value_hp f hproto sort hsort w s hs
    · rename_i lo hi
      split_ifs at ht with h
      cases ht
      push Not at h
      have hwo : ((Real.sqrt (lo * hi) : ℝ) : ℂ) ^ 2 = lo * hi := by
        rw [← ofReal_pow, Real.sq_sqrt (by nlinarith [h.1, h.2]), ofReal_mul]
      refine ⟨?_, ?_, hgain, fun s hs => ?_⟩
      · simp only [lp2bs, List.length_append, split_length, List.length_map, List.length_replicate]
        omega
      · rw [← List.length_pos_iff] at hne ⊢
        simp only [lp2bs, split_length, List.length_map]
        omega
      · have := value_bs f hproto sort hsort (Real.sqrt (lo * hi)) (hi - lo) s (by rw [hwo]; exact hs)
        rw [this, hwo, Spec.toLowpass]
        push_cast
        rfl
    · rename_i lo hi
      split_ifs at ht with h
      cases ht
      push Not at h
      have hbw : 0 < hi - lo := sub_pos.mpr (hw lo hi rfl)
      have hwo : ((Real.sqrt (lo * hi) : ℝ) : ℂ) ^ 2 = lo * hi := by
        rw [← ofReal_pow, Real.sq_sqrt (by nlinarith [h.1, h.2]), ofReal_mul]
      refine ⟨?_, ?_, ?_, fun s hs => ?_⟩
      · simp only [lp2bp, List.length_append, split_length, List.length_map, List.length_replicate]
        omega
      · rw [← List.length_pos_iff] at hne ⊢
        simp only [lp2bp, split_length, List.length_map]
        omega
      · show 0 < f.k * (hi - lo) ^ _
        positivity
      · have := value_bp f hlen (Real.sqrt (lo * hi)) (hi - lo) hbw.ne' s hs
        rw [this, hwo, Spec.toLowpass]
        push_cast
        rfl
  obtain ⟨h1, h2, h3, h4⟩ := key
  obtain ⟨g, hg, hN, hL, hNt, h⟩ := system_real sort hsort f' hz hp h1 h2
  refine ⟨g, by rw [hd, hg], hN, hL, hNt, fun s hr => ⟨(h s hr).1, fun hs i j => ?_, fun hs i j => ?_⟩⟩
  · rw [(h s hr).2, abs_of_pos h3, h4 s hs]
  · rw [(h s hr).2, zpkValue]
    have : (f'.z.map fun z => s - z).prod = 0 := List.prod_eq_zero (List.mem_map.mpr ⟨s, hs, sub_self s⟩)
    rw [this]
    simp

/-- **C161** every Butterworth low-pass that is asked for is constructed, it is stable, and it meets the
specification: at most `gpass` decibel of loss up to `wp` and at least `gstop` decibel of attenuation from `ws` on. -/
theorem C161_lowpass (ellipap : ℕ → ℝ → ℝ → Zpk) (other : FType → Freq → Freq → ℝ → ℝ → ℕ × Freq)
    (sort : List ℂ → List ℂ) (hsort : Sorts sort) (wp ws gpass gstop : ℝ) (hwp : 0 < wp) (hws : wp < ws)
    (hgp : 0 < gpass) (hgs : gpass < gstop) :
    ∃ g, iirDesign ellipap other sort (.one wp) (.one ws) gpass gstop .butter = .ok g ∧ g.L = 1 ∧ g.Nt = 1 ∧
      (∀ s : ℂ, 0 ≤ s.re → (s • (1 : Matrix (Fin g.N) (Fin g.N) ℂ) - toM g.N g.N g.A).det ≠ 0) ∧
      ∀ i j, Spec.Meets (fun ω => ‖g.tfm (jw ω) i j‖ ^ 2) (fun ω => |ω| ≤ wp) (fun ω => ws ≤ |ω|) gpass gstop := by
  have hb : bandOf (.one wp) (.one ws) = .ok .lowpass := by
    simp only [bandOf]
    rw [if_neg (by linarith)]
  have hsel : selectivity (.one wp) (.one ws) = ws / wp := by
    simp only [selectivity]
    rw [if_neg (by linarith)]
  have hnat : 1 < ws / wp := by rwa [one_lt_div hwp]
  have hN := order_pos hgp hgs hnat
  set N := buttOrder (ws / wp) gpass gstop with hNdef
  have ho : order other .butter .lowpass (.one wp) (.one ws) gpass gstop = (N, .one (buttW0 N gpass * wp)) := by
    simp only [order, hsel, buttWn, ← hNdef]
  have hW := W0_pos hgp N
  have hproto := butt_prototype hN
  have hwn : 0 < buttW0 N gpass * wp := mul_pos hW hwp
  obtain ⟨g, hg, -, hL, hNt, h⟩ := C161_transform_partial ellipap other sort hsort (.one wp) (.one ws) gpass gstop
    .butter .lowpass hb hgp hgs.le N _ ho (fun _ _ h => by cases h) (buttap N) (lp2lp (buttap N) (buttW0 N gpass * wp))
    rfl (by rw [transform, if_neg (by linarith)]) hproto
    ⟨List.nodup_nil, by simp [lp2lp, buttap], by simp [lp2lp, buttap]⟩ (Conjugate.scale hproto.conjp hwn.ne')
  have hpole : ∀ s : ℂ, 0 ≤ s.re → ∀ r ∈ (lp2lp (buttap N) (buttW0 N gpass * wp)).p, s ≠ r := by
    rintro s h0 r hr rfl
    obtain ⟨p, hp, rfl⟩ := List.mem_map.mp hr
    have := hproto.pre p hp
    simp only [mul_re, ofReal_re, ofReal_im, zero_mul, sub_zero] at h0
    nlinarith
  refine ⟨g, hg, hL, hNt, fun s h0 => (h s (hpole s h0)).1, fun i j => ?_⟩
  have hM : ∀ ω : ℝ, ‖g.tfm (jw ω) i j‖ ^ 2 = Cbadc.Spec.butterworth N (ω / wp / buttW0 N gpass) := by
    intro ω
    rw [(h (jw ω) (hpole _ (by simp [jw]))).2.1 trivial, Spec.toLowpass, ← butt_value hN]
    congr 4
    rw [jw]
    push_cast
    have h1 : (wp : ℂ) ≠ 0 := by exact_mod_cast hwp.ne'
    have h2 : (buttW0 N gpass : ℂ) ≠ 0 := by exact_mod_cast hW.ne'
    field_simp
  constructor
  · intro ω hω
    rw [hM]
    refine butt_pass hgp hN ?_
    rwa [abs_div, abs_of_pos hwp, div_le_one hwp]
  · intro ω hω
    rw [hM]
    refine butt_stop hgp hgs hnat ?_
    rw [abs_div, abs_of_pos hwp]
    exact div_le_div_of_nonneg_right hω hwp.le

/-- **C161** every Butterworth high-pass that is asked for is constructed, it is stable, and it meets the
specification: at least `gstop` decibel of attenuation up to `ws` and at most `gpass` decibel of loss from `wp` on. -/
theorem C161_highpass (ellipap : ℕ → ℝ → ℝ → Zpk) (other : FType → Freq → Freq → ℝ → ℝ → ℕ × Freq)
    (sort : List ℂ → List ℂ) (hsort : Sorts sort) (wp ws gpass gstop : ℝ) (hws : 0 < ws) (hwp : ws < wp)
    (hgp : 0 < gpass) (hgs : gpass < gstop) :
    ∃ g, iirDesign ellipap other sort (.one wp) (.one ws) gpass gstop .butter = .ok g ∧ g.L = 1 ∧ g.Nt = 1 ∧
      (∀ s : ℂ, 0 ≤ s.re → (s • (1 : Matrix (Fin g.N) (Fin g.N) ℂ) - toM g.N g.N g.A).det ≠ 0) ∧
      ∀ i j, Spec.Meets (fun ω => ‖g.tfm (jw ω) i j‖ ^ 2) (fun ω => wp ≤ |ω|) (fun ω => |ω| ≤ ws) gpass gstop := by
  have hwp0 : 0 < wp := hws.trans hwp
  have hb : bandOf (.one wp) (.one ws) = .ok .highpass := by
    simp only [bandOf]
    rw [if_pos (by linarith)]
  have hsel : selectivity (.one wp) (.one ws) = wp / ws := by
    simp only [selectivity]
    rw [if_pos (by linarith)]
  have hnat : 1 < wp / ws := by rwa [one_lt_div hws]
  have hN := order_pos hgp hgs hnat
  set N := buttOrder (wp / ws) gpass gstop with hNdef
  have ho : order other .butter .highpass (.one wp) (.one ws) gpass gstop = (N, .one (wp / buttW0 N gpass)) := by
    simp only [order, hsel, buttWn, ← hNdef]
  have hW := W0_pos hgp N
  have hproto := butt_prototype hN
  have hwn : 0 < wp / buttW0 N gpass := div_pos hwp0 hW
  obtain ⟨g, hg, -, hL, hNt, h⟩ := C161_transform_partial ellipap other sort hsort (.one wp) (.one ws) gpass gstop
    .butter .highpass hb hgp hgs.le N _ ho (fun _ _ h => by cases h) (buttap N) (lp2hp (buttap N) (wp / buttW0 N gpass))
    rfl (by rw [transform, if_neg (by linarith)]) hproto (by
      have : ((lp2hp (buttap N) (wp / buttW0 N gpass)).z.filter fun z => z.im ≠ 0) = [] := by
        rw [List.filter_eq_nil_iff]
        intro z hz
        simp only [lp2hp, buttap, List.map_nil, List.nil_append] at hz
        simp [List.eq_of_mem_replicate hz]
      rw [this]
      exact ⟨List.nodup_nil, by simp, by simp⟩) (by
      rw [butt_hp]
      exact Conjugate.scale (Conjugate.star hproto.conjp) hwn.ne')
  have hpole : ∀ s : ℂ, 0 ≤ s.re → ∀ r ∈ (lp2hp (buttap N) (wp / buttW0 N gpass)).p, s ≠ r := by
    rintro s h0 r hr rfl
    rw [butt_hp, List.map_map] at hr
    obtain ⟨p, hp, rfl⟩ := List.mem_map.mp hr
    have := hproto.pre p hp
    simp only [Function.comp_apply, mul_re, ofReal_re, ofReal_im, zero_mul, sub_zero, conj_re] at h0
    nlinarith
  refine ⟨g, hg, hL, hNt, fun s h0 => (h s (hpole s h0)).1, fun i j => ?_⟩
  have hM : ∀ ω : ℝ, ω ≠ 0 → ‖g.tfm (jw ω) i j‖ ^ 2 = Cbadc.Spec.butterworth N (-(wp / ω) / buttW0 N gpass) := by
    intro ω hω
    have h3 : (ω : ℂ) ≠ 0 := by exact_mod_cast hω
    have hs : jw ω ≠ 0 := mul_ne_zero h3 I_ne_zero
    rw [(h (jw ω) (hpole _ (by simp [jw]))).2.1 hs, Spec.toLowpass, ← butt_value hN]
    congr 4
    rw [jw]
    push_cast
    have h2 : (buttW0 N gpass : ℂ) ≠ 0 := by exact_mod_cast hW.ne'
    have h4 := I_sq
    rw [div_div, div_eq_iff (mul_ne_zero h2 (mul_ne_zero h3 I_ne_zero))]
    field_simp
    rw [h4]
    ring
  have h0 : g.tfm (jw 0) i j = 0 := by
    refine (h (jw 0) (hpole _ (by simp [jw]))).2.2 ?_ i j
    have : jw 0 = 0 := by simp [jw]
    rw [this]
    have hl : 0 < (buttap N).p.length - (buttap N).z.length := by
      rw [butt_pole]
      simpa [buttap] using hN
    exact List.mem_append.mpr (Or.inr (List.mem_replicate.mpr ⟨hl.ne', rfl⟩))
  constructor
  · intro ω hω
    have hω0 : 0 < |ω| := lt_of_lt_of_le hwp0 hω
    rw [hM ω (abs_pos.mp hω0)]
    refine butt_pass hgp hN ?_
    rw [abs_neg, abs_div, abs_of_pos hwp0, div_le_one hω0]
    exact hω
  · intro ω hω
    by_cases hz : ω = 0
    · rw [hz, h0, norm_zero, zero_pow two_ne_zero]
      positivity
    · rw [hM ω hz]
      refine butt_stop hgp hgs hnat ?_
      rw [abs_neg, abs_div, abs_of_pos hwp0]
      exact div_le_div_of_nonneg_left hwp0.le (abs_pos.mpr hz) hω

/-- the band edges that are chosen for a Butterworth band-pass: their product and their difference -/
theorem butt_edges {W0 p0 p1 : ℝ} (hW : 0 < W0) (h0 : 0 < p0) (h1 : p0 < p1) :
    ∃ lo hi, buttWn W0 .bandpass (.two p0 p1) = .two lo hi ∧ 0 < lo ∧ 0 < hi ∧ lo * hi = p0 * p1 ∧
      hi - lo = W0 * (p1 - p0) := by
  set r := Real.sqrt (W0 ^ 2 / 4 * (p1 - p0) ^ 2 + p0 * p1) with hr
  have hpp : 0 < p0 * p1 := mul_pos h0 (h0.trans h1)
  have hr2 : r ^ 2 = W0 ^ 2 / 4 * (p1 - p0) ^ 2 + p0 * p1 := Real.sq_sqrt (by positivity)
  have hr0 : 0 ≤ r := Real.sqrt_nonneg _
  have hd : 0 < W0 * (p1 - p0) := mul_pos hW (by linarith)
  have hlo : 0 < -W0 * (p1 - p0) / 2 + r := by
    have : (W0 * (p1 - p0) / 2) ^ 2 < r ^ 2 := by rw [hr2]; nlinarith
    have := lt_of_pow_lt_pow_left₀ 2 hr0 this
    linarith
  have hhi : 0 < W0 * (p1 - p0) / 2 + r := by linarith
  refine ⟨-W0 * (p1 - p0) / 2 + r, W0 * (p1 - p0) / 2 + r, ?_, hlo, hhi, ?_, by ring⟩
  · simp only [buttWn]
    rw [← hr, abs_of_pos hlo, abs_of_pos hhi]
  · linear_combination hr2

/-- the distance from the centre of the band, relative to the band -/
theorem band_pass {p0 p1 ω : ℝ} (h0 : 0 < p0) (h1 : p0 < p1) (ha : p0 ≤ |ω|) (hb : |ω| ≤ p1) :
    |(ω ^ 2 - p0 * p1) / (ω * (p1 - p0))| ≤ 1 := by
  have hω : 0 < |ω| := lt_of_lt_of_le h0 ha
  have hd : 0 < p1 - p0 := by linarith
  rw [abs_div, abs_mul, abs_of_pos hd, div_le_one (by positivity), ← sq_abs ω, abs_le]
  constructor <;> nlinarith

theorem band_stop {p0 p1 s ω : ℝ} (h0 : 0 < p0) (h1 : p0 < p1)
    (h : (0 < |ω| ∧ |ω| ≤ s ∧ s ≤ p0) ∨ (p1 ≤ s ∧ s ≤ |ω|)) :
    |(s ^ 2 - p0 * p1) / (s * (p0 - p1))| ≤ |(ω ^ 2 - p0 * p1) / (ω * (p1 - p0))| := by
  have hd : 0 < p1 - p0 := by linarith
  have hpp : 0 < p0 * p1 := mul_pos h0 (h0.trans h1)
  have hs : 0 < s := by
    rcases h with h | h
    · linarith [h.1, h.2.1]
    · linarith [h.1]
  have hω : 0 < |ω| := by
    rcases h with h | h
    · exact h.1
    · linarith [h.2]
  have e : s * (p0 - p1) = -(s * (p1 - p0)) := by ring
  rw [e, div_neg, abs_neg, abs_div, abs_div, abs_mul, abs_mul, abs_of_pos hd, abs_of_pos hs,
    div_le_div_iff₀ (by positivity) (by positivity), ← sq_abs ω]
  set w := |ω|
  rcases h with ⟨-, h2, h3⟩ | ⟨h2, h3⟩
  · have e1 : s ^ 2 - p0 * p1 ≤ 0 := by nlinarith
    have e2 : w ^ 2 - p0 * p1 ≤ 0 := by nlinarith
    rw [abs_of_nonpos e1, abs_of_nonpos e2]
    have : (p0 * p1 - s ^ 2) * w ≤ (p0 * p1 - w ^ 2) * s := by
      have : 0 ≤ (s - w) * (p0 * p1 + s * w) := mul_nonneg (by linarith) (by positivity)
      nlinarith
    nlinarith
  · have e1 : 0 ≤ s ^ 2 - p0 * p1 := by nlinarith
    have e2 : 0 ≤ w ^ 2 - p0 * p1 := by nlinarith
    rw [abs_of_nonneg e1, abs_of_nonneg e2]
    have : (s ^ 2 - p0 * p1) * w ≤ (w ^ 2 - p0 * p1) * s := by
      have : 0 ≤ (w - s) * (p0 * p1 + s * w) := mul_nonneg (by linarith) (by positivity)
      nlinarith
    nlinarith

theorem band_sel {p0 p1 s : ℝ} (h0 : 0 < p0) (h1 : p0 < p1) (h : (0 < s ∧ s < p0) ∨ p1 < s) :
    1 < |(s ^ 2 - p0 * p1) / (s * (p0 - p1))| := by
  have hd : 0 < p1 - p0 := by linarith
  have hs : 0 < s := by
    rcases h with h | h
    · exact h.1
    · linarith
  have e : s * (p0 - p1) = -(s * (p1 - p0)) := by ring
  rw [e, div_neg, abs_neg, abs_div, abs_mul, abs_of_pos hd, abs_of_pos hs, one_lt_div (by positivity), lt_abs]
  rcases h with h | h
  · right
    nlinarith
  · left
    nlinarith

/-- **C161 (part that holds)** a Butterworth band-pass is constructed, stable, and meets its specification (at most
`gpass` decibel of loss from `p0` to `p1`, at least `gstop` decibel of attenuation below `s0` and above `s1`) if its
band is not wider than the square root of two times its centre.  (`W0` is the factor by which scipy widens the band
for the loss `gpass` at the band edges.) -/
theorem C161_bandpass_partial (ellipap : ℕ → ℝ → ℝ → Zpk) (other : FType → Freq → Freq → ℝ → ℝ → ℕ × Freq)
    (sort : List ℂ → List ℂ) (hsort : Sorts sort) (p0 p1 s0 s1 gpass gstop : ℝ) (hs0 : 0 < s0) (h0 : s0 < p0)
    (h1 : p0 < p1) (h2 : p1 < s1) (hgp : 0 < gpass) (hgs : gpass < gstop)
    (hnarrow : (buttW0 (buttOrder (selectivity (.two p0 p1) (.two s0 s1)) gpass gstop) gpass * (p1 - p0)) ^ 2 <
      2 * (p0 * p1)) :
    ∃ g, iirDesign ellipap other sort (.two p0 p1) (.two s0 s1) gpass gstop .butter = .ok g ∧ g.L = 1 ∧ g.Nt = 1 ∧
      (∀ s : ℂ, 0 ≤ s.re → (s • (1 : Matrix (Fin g.N) (Fin g.N) ℂ) - toM g.N g.N g.A).det ≠ 0) ∧
      ∀ i j, Spec.Meets (fun ω => ‖g.tfm (jw ω) i j‖ ^ 2) (fun ω => p0 ≤ |ω| ∧ |ω| ≤ p1)
        (fun ω => |ω| ≤ s0 ∨ s1 ≤ |ω|) gpass gstop := by
  have hp0 : 0 < p0 := hs0.trans h0
  have hpp : 0 < p0 * p1 := mul_pos hp0 (hp0.trans h1)
  have hb : bandOf (.two p0 p1) (.two s0 s1) = .ok .bandpass := by
    simp only [bandOf]
    rw [if_pos (by linarith)]
  set nat := selectivity (.two p0 p1) (.two s0 s1) with hnatdef
  have hnat : 1 < nat := by
    rw [hnatdef]
    exact lt_min (band_sel hp0 h1 (Or.inl ⟨hs0, h0⟩)) (band_sel hp0 h1 (Or.inr h2))
  have hN := order_pos hgp hgs hnat
  set N := buttOrder nat gpass gstop with hNdef
  have hW := W0_pos hgp N
  obtain ⟨lo, hi, hedge, hlo, hhi, hprod, hdiff⟩ := butt_edges hW hp0 h1
  have ho : order other .butter .bandpass (.two p0 p1) (.two s0 s1) gpass gstop = (N, .two lo hi) := by
    simp only [order, ← hnatdef, ← hNdef, hedge]
  have hproto := butt_prototype hN
  have hd : 0 < p1 - p0 := by linarith
  have hbw : 0 < hi - lo := by rw [hdiff]; positivity
  have hwo : 0 < Real.sqrt (lo * hi) := Real.sqrt_pos.mpr (mul_pos hlo hhi)
  have hwo2 : Real.sqrt (lo * hi) ^ 2 = p0 * p1 := by rw [Real.sq_sqrt (by positivity), hprod]
  obtain ⟨hconj, hre⟩ := butt_bp hN hwo hbw (by rw [hwo2, hdiff]; exact hnarrow)
  obtain ⟨g, hg, -, hL, hNt, h⟩ := C161_transform_partial ellipap other sort hsort (.two p0 p1) (.two s0 s1) gpass gstop
    .butter .bandpass hb hgp hgs.le N _ ho (fun _ _ h => by cases h; linarith) (buttap N)
    (lp2bp (buttap N) (Real.sqrt (lo * hi)) (hi - lo)) rfl
    (by rw [transform, if_neg (by rintro (h | h) <;> linarith)]) hproto (by
      have : ((lp2bp (buttap N) (Real.sqrt (lo * hi)) (hi - lo)).z.filter fun z => z.im ≠ 0) = [] := by
        rw [List.filter_eq_nil_iff]
        intro z hz
        simp only [lp2bp, buttap, List.map_nil, split, List.nil_append] at hz
        simp [List.eq_of_mem_replicate hz]
      rw [this]
      exact ⟨List.nodup_nil, by simp, by simp⟩) hconj
  have hpole : ∀ s : ℂ, 0 ≤ s.re → ∀ r ∈ (lp2bp (buttap N) (Real.sqrt (lo * hi)) (hi - lo)).p, s ≠ r := by
    rintro s hs0 r hr rfl
    linarith [hre s hr]
  refine ⟨g, hg, hL, hNt, fun s h0 => (h s (hpole s h0)).1, fun i j => ?_⟩
  have hM : ∀ ω : ℝ, ω ≠ 0 → ‖g.tfm (jw ω) i j‖ ^ 2 =
      Cbadc.Spec.butterworth N ((ω ^ 2 - p0 * p1) / (ω * (p1 - p0)) / buttW0 N gpass) := by
    intro ω hω
    have h3 : (ω : ℂ) ≠ 0 := by exact_mod_cast hω
    have hs : jw ω ≠ 0 := mul_ne_zero h3 I_ne_zero
    rw [(h (jw ω) (hpole _ (by simp [jw]))).2.1 hs, Spec.toLowpass, ← butt_value hN]
    congr 4
    have e1 : (lo : ℂ) * hi = p0 * p1 := by exact_mod_cast hprod
    have e2 : (hi : ℂ) - lo = buttW0 N gpass * (p1 - p0) := by exact_mod_cast hdiff
    rw [e1, e2, jw]
    push_cast
    have h2 : (buttW0 N gpass : ℂ) ≠ 0 := by exact_mod_cast hW.ne'
    have h4 : (p1 : ℂ) - p0 ≠ 0 := by exact_mod_cast hd.ne'
    have h5 := I_sq
    rw [div_eq_iff (mul_ne_zero (mul_ne_zero h2 h4) (mul_ne_zero h3 I_ne_zero))]
    field_simp
    linear_combination (p0 : ℂ) * p1 * h5
  have hzero : g.tfm (jw 0) i j = 0 := by
    refine (h (jw 0) (hpole _ (by simp [jw]))).2.2 ?_ i j
    have : jw 0 = 0 := by simp [jw]
    rw [this]
    have hl : 0 < (buttap N).p.length - (buttap N).z.length := by
      rw [butt_pole]
      simpa [buttap] using hN
    exact List.mem_append.mpr (Or.inr (List.mem_replicate.mpr ⟨hl.ne', rfl⟩))
  constructor
  · intro ω hω
    rw [hM ω (abs_pos.mp (lt_of_lt_of_le hp0 hω.1))]
    exact butt_pass hgp hN (band_pass hp0 h1 hω.1 hω.2)
  · intro ω hω
    by_cases hz : ω = 0
    · rw [hz, hzero, norm_zero, zero_pow two_ne_zero]
      positivity
    · rw [hM ω hz]
      refine butt_stop hgp hgs hnat ?_
      rw [hnatdef]
      rcases hω with hω | hω
      · exact (min_le_left _ _).trans (band_stop hp0 h1 (Or.inl ⟨abs_pos.mpr hz, hω, h0.le⟩))
      · exact (min_le_right _ _).trans (band_stop hp0 h1 (Or.inr ⟨h2.le, hω⟩))

/-- a sorting as the filters need it, which in addition reverses the order of entries with the same `|imag|`, as the
stable sorting of short lists by numpy followed by `[::-1]` does -/
theorem stable_sort : ∃ sort : List ℂ → List ℂ, Sorts sort ∧
    ∀ l : List ℂ, (∀ a ∈ l, ∀ b ∈ l, |a.im| = |b.im|) → sort l = l.reverse := by
  classical
  let r : ℂ → ℂ → Prop := fun a b => |a.im| ≤ |b.im|
  have : Std.Total r := ⟨fun a b => le_total _ _⟩
  have : IsTrans ℂ r := ⟨fun a b c h1 h2 => le_trans h1 h2⟩
  refine ⟨fun l => (l.insertionSort r).reverse, fun l => ⟨?_, ?_⟩, fun l hl => ?_⟩
  · exact (List.reverse_perm _).trans (List.perm_insertionSort _ _)
  · rw [List.pairwise_reverse]
    exact List.pairwise_insertionSort r l
  · have : l.insertionSort r = l := by
      refine List.Pairwise.insertionSort_eq ?_
      rw [List.pairwise_iff_forall_sublist]
      intro a b hab
      exact (hl a (hab.subset (by simp)) b (hab.subset (by simp))).le
    show (l.insertionSort r).reverse = _
    rw [this]

/-- `C161_transform_partial`: the low-pass, the high-pass and the band-pass, with a sorting that there is; the band-pass is an octave wide and
loses four decibel at its edges -/
example : ∃ sort, Sorts sort ∧ ∀ ellipap other,
    (∃ g, iirDesign ellipap other sort (.one 1000) (.one 2000) 1 80 .butter = .ok g) ∧
    (∃ g, iirDesign ellipap other sort (.one 2000) (.one 1000) 1 80 .butter = .ok g) ∧
    ∃ g, iirDesign ellipap other sort (.two 1000 2000) (.two 500 4000) 10 80 .butter = .ok g := by
  obtain ⟨sort, hsort, -⟩ := stable_sort
  refine ⟨sort, hsort, fun ellipap other => ⟨?_, ?_, ?_⟩⟩
  · obtain ⟨g, hg, -⟩ := C161_lowpass ellipap other sort hsort 1000 2000 1 80 (by norm_num) (by norm_num) (by norm_num)
      (by norm_num)
    exact ⟨g, hg⟩
  · obtain ⟨g, hg, -⟩ := C161_highpass ellipap other sort hsort 2000 1000 1 80 (by norm_num) (by norm_num)
      (by norm_num) (by norm_num)
    exact ⟨g, hg⟩
  · obtain ⟨g, hg, -⟩ := C161_bandpass_partial ellipap other sort hsort 1000 2000 500 4000 10 80 (by norm_num)
      (by norm_num) (by norm_num) (by norm_num) (by norm_num) (by norm_num) (by
        have h : buttW0 (buttOrder (selectivity (.two 1000 2000) (.two 500 4000)) 10 80) 10 ≤ 1 := by
          unfold buttW0
          refine Real.rpow_le_one_of_one_le_of_nonpos (by norm_num) ?_
          rw [neg_div]
          exact neg_nonpos.mpr (by positivity)
        have h' := (W0_pos (by norm_num : (0 : ℝ) < 10) (buttOrder (selectivity (.two 1000 2000) (.two 500 4000)) 10 80)).le
        nlinarith)
    exact ⟨g, hg⟩

/-- **C161 (false for band-stop filters)** every Butterworth and every Chebyshev type I band-stop of order two or more
is rejected: its zeros come in pairs at the same two places, and the sorting puts the equal ones next to each other. -/
theorem C161_bandstop_false (ellipap : ℕ → ℝ → ℝ → Zpk) (other : FType → Freq → Freq → ℝ → ℝ → ℕ × Freq)
    (sort : List ℂ → List ℂ) (hstable : ∀ l : List ℂ, (∀ a ∈ l, ∀ b ∈ l, |a.im| = |b.im|) → sort l = l.reverse)
    (p0 p1 s0 s1 gpass gstop : ℝ) (h0 : p0 < s0) (hgp : 0 < gpass) (hgs : gpass ≤ gstop) (ft : FType)
    (hft : ft = .butter ∨ ft = .cheby1) (N : ℕ) (lo hi : ℝ)
    (ho : other ft (.two p0 p1) (.two s0 s1) gpass gstop = (N, .two lo hi)) (hN : 2 ≤ N) (hlo : 0 < lo) (hhi : 0 < hi)
    (hw : 1e-8 < Real.sqrt (lo * hi)) :
    iirDesign ellipap other sort (.two p0 p1) (.two s0 s1) gpass gstop ft = .error .exception := by
  have hb : bandOf (.two p0 p1) (.two s0 s1) = .ok .bandstop := by
    simp only [bandOf]
    rw [if_neg (by linarith)]
  have ho' : order other ft .bandstop (.two p0 p1) (.two s0 s1) gpass gstop = (N, .two lo hi) := by
    rcases hft with rfl | rfl <;> simpa [order] using ho
  obtain ⟨f, hf, hfz, hfp⟩ : ∃ f, prototype ellipap ft N gpass gstop = .ok f ∧ f.z = [] ∧ f.p.length = N := by
    rcases hft with rfl | rfl
    · exact ⟨_, rfl, rfl, by simp [buttap]⟩
    · exact ⟨_, rfl, rfl, by simp [cheb1ap]⟩
  set wo := Real.sqrt (lo * hi) with hwo
  have ht : transform f .bandstop (.two lo hi) = .ok (lp2bs f wo (hi - lo)) := by
    rw [transform, if_neg (by rintro (h | h) <;> linarith)]
  rw [design_eq ellipap other sort _ _ gpass gstop ft .bandstop hb hgp hgs f _ (by rw [ho']; exact hf)
    (by rw [ho']; exact ht)]
  have hz : (lp2bs f wo (hi - lo)).z = List.replicate N (I * wo) ++ List.replicate N (-I * wo) := by
    simp [lp2bs, hfz, hfp, split]
  have hp : (lp2bs f wo (hi - lo)).p.length = 2 * N := by
    simp [lp2bs, split_length, hfp]
  have hsz : sort (lp2bs f wo (hi - lo)).z = List.replicate N (-I * wo) ++ List.replicate N (I * wo) := by
    rw [hstable, hz, List.reverse_append, List.reverse_replicate, List.reverse_replicate]
    have : ∀ a ∈ (lp2bs f wo (hi - lo)).z, |a.im| = |wo| := by
      intro a ha
      rw [hz, List.mem_append] at ha
      rcases ha with ha | ha
      · simp [List.eq_of_mem_replicate ha]
      · simp [List.eq_of_mem_replicate ha]
    intro a ha b hb
    rw [this a ha, this b hb]
  have hbad : sortByComplex sort (lp2bs f wo (hi - lo)).z = .error .exception := by
    unfold sortByComplex
    dsimp only
    rw [if_neg]
    rw [hsz]
    obtain ⟨n, rfl⟩ := Nat.exists_eq_add_of_le hN
    have hne : (-I * (wo : ℂ)).im ≠ 0 := by
      simp only [mul_im, I_re, ofReal_im, mul_zero, neg_im, I_im, ofReal_re, zero_add, neg_mul, one_mul, ne_eq,
        neg_eq_zero]
      linarith
    rw [show 2 + n = n + 1 + 1 by omega, List.replicate_succ, List.replicate_succ, List.cons_append, List.cons_append,
      List.filter_cons_of_pos (by simpa using hne), List.filter_cons_of_pos (by simpa using hne)]
    rintro ⟨hc, -⟩
    unfold closeC at hc
    have e1 : -I * (wo : ℂ) - starRingEnd ℂ (-I * (wo : ℂ)) = ((2 * wo : ℝ) : ℂ) * -I := by
      rw [map_mul, map_neg, conj_I, conj_ofReal]
      push_cast
      ring
    have hwo0 : 0 < wo := by linarith
    rw [e1, norm_mul, norm_neg, norm_I, mul_one, norm_real, Real.norm_eq_abs, abs_of_pos (by linarith),
      RingHomIsometric.norm_map, norm_mul, norm_neg, norm_I, one_mul, norm_real, Real.norm_eq_abs,
      abs_of_pos hwo0] at hc
    norm_num at hc hw
    linarith
  unfold system zpk2abcd
  rw [if_neg]
  · simp only [bind, Except.bind]
    cases hs : sortByComplex sort (lp2bs f wo (hi - lo)).p with
    | error e =>
      unfold sortByComplex at hs
      dsimp only at hs
      split_ifs at hs
      cases hs
      rfl
    | ok p' =>
      dsimp only
      rw [hbad]
  · rw [hz, hp]
    simp only [List.length_append, List.length_replicate]
    omega

/-- the hypotheses hold for a notch of order three -/
example : ∃ (other : FType → Freq → Freq → ℝ → ℝ → ℕ × Freq) (sort : List ℂ → List ℂ), Sorts sort ∧ ∀ ellipap,
    iirDesign ellipap other sort (.two 1 6) (.two 2 5) 1 40 .butter = .error .exception := by
  obtain ⟨sort, hsort, hst⟩ := stable_sort
  refine ⟨fun _ _ _ _ _ => (3, .two 1 4), sort, hsort, fun ellipap => ?_⟩
  refine C161_bandstop_false ellipap _ sort hst 1 6 2 5 1 40 (by norm_num) (by norm_num) (by norm_num) .butter (Or.inl rfl)
    3 1 4 rfl (by norm_num) (by norm_num) (by norm_num) ?_
  refine lt_of_lt_of_le (by norm_num : (1e-8 : ℝ) < 1) (Real.le_sqrt_of_sq_le (by norm_num))

/-- **C161 (false for Bessel filters)** the documented choice `'bessel'` raises `ValueError`, whatever is asked for. -/
theorem C161_bessel_false (ellipap : ℕ → ℝ → ℝ → Zpk) (other : FType → Freq → Freq → ℝ → ℝ → ℕ × Freq)
    (sort : List ℂ → List ℂ) (wp ws : Freq) (gpass gstop : ℝ) :
    iirDesign ellipap other sort wp ws gpass gstop .bessel = .error .valueError := by
  unfold iirDesign
  cases hb : bandOf wp ws with
  | error e =>
    cases wp <;> cases ws <;> simp only [bandOf] at hb <;> cases hb <;> rfl
  | ok b =>
    simp only [bind, Except.bind, prototype]
    split_ifs <;> rfl

/-- **C161** edges of different shapes and losses that are not positive or in the wrong order are rejected with a
`ValueError`. -/
theorem C161_rejects (ellipap : ℕ → ℝ → ℝ → Zpk) (other : FType → Freq → Freq → ℝ → ℝ → ℕ × Freq)
    (sort : List ℂ → List ℂ) (gpass gstop : ℝ) (ft : FType) :
    (∀ wp lo hi, iirDesign ellipap other sort (.one wp) (.two lo hi) gpass gstop ft = .error .valueError ∧
      iirDesign ellipap other sort (.two lo hi) (.one wp) gpass gstop ft = .error .valueError) ∧
    ∀ wp ws, (gpass ≤ 0 ∨ gstop ≤ 0 ∨ gstop < gpass) →
      iirDesign ellipap other sort wp ws gpass gstop ft = .error .valueError := by
  refine ⟨fun _ _ _ => ⟨rfl, rfl⟩, fun wp ws h => ?_⟩
  unfold iirDesign
  cases hb : bandOf wp ws with
  | error e =>
    cases wp <;> cases ws <;> simp only [bandOf] at hb <;> cases hb <;> rfl
  | ok b =>
    simp only [bind, Except.bind]
    rw [if_pos h]

/-- **C161 (part that holds)** `Cauer` is constructed, is stable, and keeps the ripple `rp` up to `Wn` and the
attenuation `rs` from the stop-band edge on, if scipy's elliptic prototype does so at the frequency one and at its
stop-band edge `X`. -/
theorem C161_cauer_partial (ellipap : ℕ → ℝ → ℝ → Zpk) (sort : List ℂ → List ℂ) (hsort : Sorts sort) (N : ℕ)
    (Wn rp rs X : ℝ) (hW : 0 < Wn) (hrp : 0 ≤ rp) (hrs : 0 ≤ rs) (hproto : Prototype (ellipap N rp rs))
    (hmeets : Spec.Meets (fun x => ‖zpkValue (ellipap N rp rs).z (ellipap N rp rs).p ((ellipap N rp rs).k : ℝ) (jw x)‖ ^ 2)
      (fun x => |x| ≤ 1) (fun x => X ≤ |x|) rp rs) :
    ∃ g, cauer ellipap sort N Wn rp rs = .ok g ∧ g.N = (ellipap N rp rs).p.length ∧ g.L = 1 ∧ g.Nt = 1 ∧
      (∀ s : ℂ, 0 ≤ s.re → (s • (1 : Matrix (Fin g.N) (Fin g.N) ℂ) - toM g.N g.N g.A).det ≠ 0) ∧
      ∀ i j, Spec.Meets (fun ω => ‖g.tfm (jw ω) i j‖ ^ 2) (fun ω => |ω| ≤ Wn) (fun ω => X * Wn ≤ |ω|) rp rs := by
  set f := ellipap N rp rs with hf
  obtain ⟨g, hg, hN, hL, hNt, h⟩ := system_ok sort hsort (lp2lp f Wn) (Conjugate.scale hproto.conjz hW.ne')
    (Conjugate.scale hproto.conjp hW.ne') (by simpa [lp2lp] using hproto.len) (by simpa [lp2lp] using hproto.ne)
  have hpole : ∀ s : ℂ, 0 ≤ s.re → ∀ r ∈ (lp2lp f Wn).p, s ≠ r := by
    rintro s h0 r hr rfl
    obtain ⟨p, hp, rfl⟩ := List.mem_map.mp hr
    have := hproto.pre p hp
    simp only [mul_re, ofReal_re, ofReal_im, zero_mul, sub_zero] at h0
    nlinarith
  have hk : 0 < (lp2lp f Wn).k := by
    have := hproto.k
    show 0 < f.k * Wn ^ _
    positivity
  refine ⟨g, ?_, by rw [hN]; simp [lp2lp], hL, hNt, fun s h0 => (h s (hpole s h0)).1, fun i j => ?_⟩
  · rw [cauer, if_neg (by rintro (h | h | h) <;> linarith), ← hf, hg]
  have hM : ∀ ω : ℝ, ‖g.tfm (jw ω) i j‖ ^ 2 = ‖zpkValue f.z f.p (f.k : ℝ) (jw (ω / Wn))‖ ^ 2 := by
    intro ω
    rw [(h (jw ω) (hpole _ (by simp [jw]))).2, abs_of_pos hk, value_lp f hproto.len Wn hW.ne']
    congr 3
    simp only [jw]
    push_cast
    ring
  constructor
  · intro ω hω
    rw [hM]
    exact hmeets.pass _ (by rwa [abs_div, abs_of_pos hW, div_le_one hW])
  · intro ω hω
    rw [hM]
    exact hmeets.stop _ (by rwa [abs_div, abs_of_pos hW, le_div_iff₀ hW])

/-- the hypotheses on the prototype hold for one that there is (the Butterworth prototype of order two, taken as the
elliptic one, with ten decibel of loss and of attenuation) -/
example : Prototype (buttap 2) ∧ Spec.Meets
    (fun x => ‖zpkValue (buttap 2).z (buttap 2).p ((buttap 2).k : ℝ) (jw x)‖ ^ 2) (fun x => |x| ≤ 1) (fun x => 2 ≤ |x|)
    10 10 := by
  refine ⟨butt_prototype (by norm_num), ⟨fun x hx => ?_, fun x hx => ?_⟩⟩
  · rw [jw, butt_value (by norm_num), Cbadc.Spec.butterworth]
    have h1 : x ^ 2 ≤ 1 := by rw [← sq_abs]; exact pow_le_one₀ (abs_nonneg x) hx
    have h2 : x ^ (2 * 2) = (x ^ 2) ^ 2 := by ring
    have h3 : (x ^ 2) ^ 2 ≤ 1 := pow_le_one₀ (sq_nonneg x) h1
    constructor
    · rw [h2, le_div_iff₀ (by positivity)]
      norm_num [Real.rpow_neg_one]
      linarith
    · rw [h2, div_le_one (by positivity)]
      nlinarith [sq_nonneg (x ^ 2)]
  · rw [jw, butt_value (by norm_num), Cbadc.Spec.butterworth]
    have h1 : 2 ^ 2 ≤ x ^ 2 := by rw [← sq_abs x]; exact pow_le_pow_left₀ (by norm_num) hx 2
    have h2 : x ^ (2 * 2) = (x ^ 2) ^ 2 := by ring
    rw [h2, div_le_iff₀ (by positivity)]
    norm_num [Real.rpow_neg_one]
    nlinarith

end Cbadc.Filters
