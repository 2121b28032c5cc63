import Mathlib.Tactic.Positivity
import Mathlib.Tactic.LinearCombination
import Verif.Lemmas.Filters
import Verif.Model.FilterDesign
import Verif.Props.Filters

/-! # Band transforms and the Butterworth order -/

namespace Cbadc.Filters
open Finset Complex Cbadc.Analog Cbadc.Analog.Spec

/-! ### products over lists -/

theorem prod_lp (w : ℝ) (hw : w ≠ 0) (l : List ℂ) (s : ℂ) :
    ((l.map fun z => (w : ℂ) * z).map fun z => s - z).prod =
      (w : ℂ) ^ l.length * (l.map fun z => s / w - z).prod := by
  have hw' : (w : ℂ) ≠ 0 := by exact_mod_cast hw
  induction l with
  | nil => simp
  | cons a l ih =>
    simp only [List.map_cons, List.prod_cons, ih, List.length_cons, pow_succ]
    have : s - w * a = w * (s / w - a) := by field_simp
    rw [this]
    ring

theorem prod_hp (w : ℝ) (l : List ℂ) (hl : ∀ z ∈ l, z ≠ 0) (s : ℂ) (hs : s ≠ 0) :
    ((l.map fun z => (w : ℂ) / z).map fun z => s - z).prod * (l.map fun z => -z).prod =
      s ^ l.length * (l.map fun z => w / s - z).prod := by
  induction l with
  | nil => simp
  | cons a l ih =>
    have ha := hl a (by simp)
    have ih := ih fun z hz => hl z (by simp [hz])
    simp only [List.map_cons, List.prod_cons, List.length_cons, pow_succ]
    have : (s - w / a) * -a = s * (w / s - a) := by field_simp; ring
    calc _ = ((s - w / a) * -a) * (((l.map fun z => (w : ℂ) / z).map fun z => s - z).prod *
          (l.map fun z => -z).prod) := by ring
      _ = _ := by rw [ih, this]; ring

theorem csqrt_sq (x : ℂ) : csqrt x ^ 2 = x := cpow_nat_inv_pow x two_ne_zero

theorem split_factor (wo : ℝ) (x s : ℂ) :
    (s - (x + csqrt (x ^ 2 - (wo : ℂ) ^ 2))) * (s - (x - csqrt (x ^ 2 - (wo : ℂ) ^ 2))) =
      s ^ 2 - 2 * x * s + (wo : ℂ) ^ 2 := by
  have := csqrt_sq (x ^ 2 - (wo : ℂ) ^ 2)
  linear_combination -this

theorem prod_split (wo : ℝ) (l : List ℂ) (s : ℂ) :
    ((split wo l).map fun z => s - z).prod = (l.map fun x => s ^ 2 - 2 * x * s + (wo : ℂ) ^ 2).prod := by
  unfold split
  rw [List.map_append, List.prod_append, List.map_map, List.map_map, ← List.prod_map_mul]
  congr 1
  exact List.map_congr_left fun x _ => split_factor wo x s

theorem prod_bp (wo bw : ℝ) (hb : bw ≠ 0) (l : List ℂ) (s : ℂ) (hs : s ≠ 0) :
    ((split wo (l.map fun z => z * bw / 2)).map fun z => s - z).prod =
      (bw * s) ^ l.length * (l.map fun z => (s ^ 2 + (wo : ℂ) ^ 2) / (bw * s) - z).prod := by
  have hb' : (bw : ℂ) ≠ 0 := by exact_mod_cast hb
  rw [prod_split, List.map_map]
  induction l with
  | nil => simp
  | cons a l ih =>
    simp only [List.map_cons, List.prod_cons, ih, List.length_cons, Function.comp_apply]
    have : s ^ 2 - 2 * (a * bw / 2) * s + (wo : ℂ) ^ 2 = (bw * s) * ((s ^ 2 + (wo : ℂ) ^ 2) / (bw * s) - a) := by
      field_simp
      ring
    rw [this, pow_succ (bw * s)]
    ring

theorem prod_bs (wo bw : ℝ) (l : List ℂ) (hl : ∀ z ∈ l, z ≠ 0) (s : ℂ) (hs : s ^ 2 + (wo : ℂ) ^ 2 ≠ 0) :
    ((split wo (l.map fun z => (bw : ℂ) / 2 / z)).map fun z => s - z).prod * (l.map fun z => -z).prod =
      (s ^ 2 + (wo : ℂ) ^ 2) ^ l.length * (l.map fun z => bw * s / (s ^ 2 + (wo : ℂ) ^ 2) - z).prod := by
  rw [prod_split, List.map_map]
  induction l with
  | nil => simp
  | cons a l ih =>
    have ha := hl a (by simp)
    have ih := ih fun z hz => hl z (by simp [hz])
    simp only [List.map_cons, List.prod_cons, List.length_cons, Function.comp]
    rw [pow_succ (s ^ 2 + (wo : ℂ) ^ 2)]
    have e : (s ^ 2 - 2 * ((bw : ℂ) / 2 / a) * s + (wo : ℂ) ^ 2) * -a =
        (s ^ 2 + (wo : ℂ) ^ 2) * (bw * s / (s ^ 2 + (wo : ℂ) ^ 2) - a) := by
      rw [mul_sub, mul_div_cancel₀ _ hs]
      field_simp
      ring
    simp only [Function.comp_def] at ih
    calc _ = ((s ^ 2 - 2 * ((bw : ℂ) / 2 / a) * s + (wo : ℂ) ^ 2) * -a) *
          ((l.map fun z => s ^ 2 - 2 * ((bw : ℂ) / 2 / z) * s + (wo : ℂ) ^ 2).prod * (l.map fun z => -z).prod) := by
          simp only [Function.comp_def]
          ring
      _ = _ := by rw [ih, e]; ring

/-- a low-pass prototype: conjugate pairs with different imaginary parts and at most one real pole, all poles in the
open left half plane, no real zero, a positive gain -/
structure Prototype (f : Zpk) : Prop where
  conjz : Conjugate f.z
  conjp : Conjugate f.p
  zim : ∀ z ∈ f.z, z.im ≠ 0
  pre : ∀ p ∈ f.p, p.re < 0
  len : f.z.length ≤ f.p.length
  ne : f.p ≠ []
  k : 0 < f.k

theorem Prototype.z0 {f : Zpk} (h : Prototype f) : ∀ z ∈ f.z, z ≠ 0 := by
  rintro z hz rfl
  exact h.zim 0 hz rfl

theorem Prototype.p0 {f : Zpk} (h : Prototype f) : ∀ z ∈ f.p, z ≠ 0 := by
  rintro z hz rfl
  exact lt_irrefl _ (h.pre 0 hz)

/-- the gain of the high-pass and of the band-stop transform -/
theorem Prototype.gain {f : Zpk} (h : Prototype f) (sort : List ℂ → List ℂ) (hsort : Sorts sort) :
    0 < f.k * ((f.z.map fun z => -z).prod / (f.p.map fun p => -p).prod).re ∧
    ((f.k * ((f.z.map fun z => -z).prod / (f.p.map fun p => -p).prod).re : ℝ) : ℂ) =
      f.k * ((f.z.map fun z => -z).prod / (f.p.map fun p => -p).prod) ∧
    (f.z.map fun z => -z).prod ≠ 0 ∧ (f.p.map fun p => -p).prod ≠ 0 := by
  obtain ⟨a, ha, ea⟩ := prod_neg_pos sort hsort h.conjz fun z hz h0 => absurd h0 (h.zim z hz)
  obtain ⟨b, hb, eb⟩ := prod_neg_pos sort hsort h.conjp fun z hz _ => h.pre z hz
  rw [ea, eb, ← ofReal_div, ofReal_re]
  have := h.k
  refine ⟨by positivity, by push_cast; rfl, ?_, ?_⟩
  · exact_mod_cast ha.ne'
  · exact_mod_cast hb.ne'

theorem value_lp (f : Zpk) (h : f.z.length ≤ f.p.length) (w : ℝ) (hw : w ≠ 0) (s : ℂ) :
    zpkValue (lp2lp f w).z (lp2lp f w).p ((lp2lp f w).k : ℝ) s = zpkValue f.z f.p (f.k : ℝ) (s / w) := by
  have hw' : (w : ℂ) ≠ 0 := by exact_mod_cast hw
  unfold zpkValue lp2lp
  dsimp only
  rw [prod_lp w hw, prod_lp w hw]
  obtain ⟨d, hd⟩ := Nat.exists_eq_add_of_le h
  rw [hd, Nat.add_sub_cancel_left, pow_add]
  push_cast
  have h1 := pow_ne_zero f.z.length hw'
  have h2 := pow_ne_zero d hw'
  rw [show (f.k : ℂ) * (w : ℂ) ^ d * ((w : ℂ) ^ f.z.length * (f.z.map fun z => s / w - z).prod) =
    ((w : ℂ) ^ f.z.length * (w : ℂ) ^ d) * (f.k * (f.z.map fun z => s / w - z).prod) by ring,
    mul_div_mul_left _ _ (mul_ne_zero h1 h2)]

theorem cancel (k Z P : ℂ) {a b A D : ℂ} (ha : a ≠ 0) (hb : b ≠ 0) (hA : A ≠ 0) (hD : D ≠ 0) :
    k * (a / b) * (A * Z / a * D) / (A * D * P / b) = k * Z / P := by
  by_cases hP : P = 0
  · simp [hP]
  · field_simp

theorem value_hp (f : Zpk) (h : Prototype f) (sort : List ℂ → List ℂ) (hsort : Sorts sort) (w : ℝ) (s : ℂ)
    (hs : s ≠ 0) :
    zpkValue (lp2hp f w).z (lp2hp f w).p ((lp2hp f w).k : ℝ) s = zpkValue f.z f.p (f.k : ℝ) (w / s) := by
  obtain ⟨-, e, hz, hp⟩ := h.gain sort hsort
  unfold zpkValue lp2hp
  dsimp only
  rw [e, List.map_append, List.prod_append, List.map_replicate, List.prod_replicate, sub_zero]
  have ez := prod_hp w f.z h.z0 s hs
  have ep := prod_hp w f.p h.p0 s hs
  obtain ⟨d, hd⟩ := Nat.exists_eq_add_of_le h.len
  rw [hd] at ep ⊢
  rw [Nat.add_sub_cancel_left]
  rw [← eq_div_iff hz] at ez
  rw [← eq_div_iff hp] at ep
  rw [ez, ep, pow_add, cancel _ _ _ hz hp (pow_ne_zero _ hs) (pow_ne_zero _ hs)]

theorem value_bp (f : Zpk) (h : f.z.length ≤ f.p.length) (wo bw : ℝ) (hb : bw ≠ 0) (s : ℂ) (hs : s ≠ 0) :
    zpkValue (lp2bp f wo bw).z (lp2bp f wo bw).p ((lp2bp f wo bw).k : ℝ) s =
      zpkValue f.z f.p (f.k : ℝ) ((s ^ 2 + (wo : ℂ) ^ 2) / (bw * s)) := by
  have hb' : (bw : ℂ) ≠ 0 := by exact_mod_cast hb
  unfold zpkValue lp2bp
  dsimp only
  rw [List.map_append, List.prod_append, List.map_replicate, List.prod_replicate, sub_zero, prod_bp wo bw hb _ s hs,
    prod_bp wo bw hb _ s hs]
  obtain ⟨d, hd⟩ := Nat.exists_eq_add_of_le h
  rw [hd, Nat.add_sub_cancel_left, pow_add]
  push_cast
  have h1 := pow_ne_zero f.z.length (mul_ne_zero hb' hs)
  have h2 := pow_ne_zero d (mul_ne_zero hb' hs)
  set Z := (f.z.map fun z => (s ^ 2 + (wo : ℂ) ^ 2) / (bw * s) - z).prod
  rw [show (f.k : ℂ) * (bw : ℂ) ^ d * ((bw * s) ^ f.z.length * Z * s ^ d) =
    ((bw * s) ^ f.z.length * (bw * s) ^ d) * (f.k * Z) by rw [mul_pow (bw : ℂ) s d]; ring,
    mul_div_mul_left _ _ (mul_ne_zero h1 h2)]

theorem value_bs (f : Zpk) (h : Prototype f) (sort : List ℂ → List ℂ) (hsort : Sorts sort) (wo bw : ℝ) (s : ℂ)
    (hs : s ^ 2 + (wo : ℂ) ^ 2 ≠ 0) :
    zpkValue (lp2bs f wo bw).z (lp2bs f wo bw).p ((lp2bs f wo bw).k : ℝ) s =
      zpkValue f.z f.p (f.k : ℝ) (bw * s / (s ^ 2 + (wo : ℂ) ^ 2)) := by
  obtain ⟨-, e, hz, hp⟩ := h.gain sort hsort
  unfold zpkValue lp2bs
  dsimp only
  rw [e, List.map_append, List.prod_append, List.map_append, List.prod_append, List.map_replicate,
    List.prod_replicate, List.map_replicate, List.prod_replicate, ← mul_pow]
  have e2 : (s - I * wo) * (s - -I * wo) = s ^ 2 + (wo : ℂ) ^ 2 := by linear_combination -(wo : ℂ) ^ 2 * I_sq
  rw [e2]
  have ez := prod_bs wo bw f.z h.z0 s hs
  have ep := prod_bs wo bw f.p h.p0 s hs
  obtain ⟨d, hd⟩ := Nat.exists_eq_add_of_le h.len
  rw [hd] at ep ⊢
  rw [Nat.add_sub_cancel_left]
  rw [← eq_div_iff hz] at ez
  rw [← eq_div_iff hp] at ep
  rw [ez, ep, pow_add, cancel _ _ _ hz hp (pow_ne_zero _ hs) (pow_ne_zero _ hs)]

/-! ### patterns -/

theorem Conjugate.scale {l : List ℂ} (h : Conjugate l) {c : ℝ} (hc : c ≠ 0) : Conjugate (l.map fun z => (c : ℂ) * z) := by
  have hc' : (c : ℂ) ≠ 0 := by exact_mod_cast hc
  refine ⟨h.nodup.map fun a b e => mul_left_cancel₀ hc' e, ?_, ?_⟩
  · intro a ha
    obtain ⟨b, hb, rfl⟩ := List.mem_map.mp ha
    exact List.mem_map.mpr ⟨_, h.conj b hb, by simp⟩
  · intro a ha b hb e
    obtain ⟨a, ha', rfl⟩ := List.mem_map.mp ha
    obtain ⟨b, hb', rfl⟩ := List.mem_map.mp hb
    simp only [mul_im, ofReal_re, ofReal_im, zero_mul, add_zero, abs_mul] at e
    rcases h.im a ha' b hb' (mul_left_cancel₀ (abs_ne_zero.mpr hc) e) with h | h
    · exact Or.inl (by rw [h])
    · exact Or.inr (by rw [h]; simp)

theorem Conjugate.star {l : List ℂ} (h : Conjugate l) : Conjugate (l.map fun z => starRingEnd ℂ z) := by
  refine ⟨h.nodup.map fun a b e => (starRingEnd ℂ).injective e, ?_, ?_⟩
  · intro a ha
    obtain ⟨b, hb, rfl⟩ := List.mem_map.mp ha
    exact List.mem_map.mpr ⟨_, h.conj b hb, rfl⟩
  · intro a ha b hb e
    obtain ⟨a, ha', rfl⟩ := List.mem_map.mp ha
    obtain ⟨b, hb', rfl⟩ := List.mem_map.mp hb
    simp only [conj_im, abs_neg] at e
    rcases h.im a ha' b hb' e with h | h
    · exact Or.inl (by rw [h])
    · exact Or.inr (by rw [h])

/-- the constructor on a pattern with real zeros -/
theorem system_real (sort : List ℂ → List ℂ) (hsort : Sorts sort) (f : Zpk)
    (hz : Conjugate (f.z.filter fun z => z.im ≠ 0)) (hp : Conjugate f.p)
    (hlen : f.z.length ≤ f.p.length) (hne : f.p ≠ []) :
    ∃ g, system sort f = .ok g ∧ g.N = f.p.length ∧ g.L = 1 ∧ g.Nt = 1 ∧ ∀ s : ℂ, (∀ r ∈ f.p, s ≠ r) →
      (s • (1 : Matrix (Fin g.N) (Fin g.N) ℂ) - toM g.N g.N g.A).det ≠ 0 ∧
      ∀ i j, g.tfm s i j = zpkValue f.z f.p (|f.k| : ℝ) s := by
  obtain ⟨q, hq, hn, h⟩ := C26_real_zeros_partial sort hsort f.z f.p f.k hz hp hlen hne
  refine ⟨q.sys, ?_, hn, rfl, rfl, fun s hs => ⟨(h s hs).1, fun i j => ?_⟩⟩
  · unfold system
    rw [hq]
    exact q.sys_new
  · rw [(h s hs).2]
    rfl

/-! ### Butterworth -/

theorem butt_pole (N : ℕ) : (buttap N).p = (List.range N).map (pole 1 1 N) := by
  simp only [buttap]
  refine List.map_congr_left fun i _ => ?_
  rw [← pole_circle 1 N i]
  simp

theorem butt_norm {N : ℕ} {p : ℂ} (hp : p ∈ (buttap N).p) : normSq p = 1 := by
  rw [butt_pole] at hp
  obtain ⟨i, -, rfl⟩ := List.mem_map.mp hp
  rw [normSq_apply]
  simp only [pole]
  nlinarith [Real.sin_sq_add_cos_sq (angle N i)]

theorem butt_prototype {N : ℕ} (hN : 0 < N) : Prototype (buttap N) := by
  refine ⟨⟨List.nodup_nil, by simp [buttap], by simp [buttap]⟩, ?_, by simp [buttap], ?_, by simp [buttap], ?_, one_pos⟩
  · rw [butt_pole]
    exact pole_conjugate 1 one_pos N
  · intro p hp
    rw [butt_pole] at hp
    obtain ⟨i, hi, rfl⟩ := List.mem_map.mp hp
    exact pole_re one_pos 1 (List.mem_range.mp hi)
  · rw [← List.length_pos_iff, butt_pole]
    simpa using hN

theorem butt_value {N : ℕ} (hN : 0 < N) (x : ℝ) :
    ‖zpkValue (buttap N).z (buttap N).p ((buttap N).k : ℝ) (x * I)‖ ^ 2 = Spec.butterworth N x := by
  have h := norm_prod 1 1 N x
  rw [circle_prod 1 hN] at h
  have h : ‖∏ i ∈ range N, (x * I - pole 1 1 N i)‖ ^ 2 = x ^ (2 * N) + 1 := by
    have h2 : ((‖∏ i ∈ range N, (x * I - pole 1 1 N i)‖ ^ 2 : ℝ) : ℂ) = ((x ^ (2 * N) + 1 : ℝ) : ℂ) := by
      rw [h]
      push_cast
      rw [← pow_mul, one_pow]
    exact_mod_cast h2
  unfold zpkValue
  rw [butt_pole, List.map_map, list_prod]
  simp only [Function.comp_apply]
  rw [norm_div, div_pow, h]
  simp only [buttap, List.map_nil, List.prod_nil, mul_one]
  rw [Spec.butterworth]
  simp [add_comm]

/-- the poles of a Butterworth high-pass -/
theorem butt_hp (N : ℕ) (w : ℝ) : (lp2hp (buttap N) w).p =
    (((buttap N).p.map fun p => starRingEnd ℂ p).map fun p => (w : ℂ) * p) := by
  unfold lp2hp
  dsimp only
  rw [List.map_map]
  refine List.map_congr_left fun p hp => ?_
  have h := butt_norm hp
  simp only [Function.comp_apply]
  rw [div_eq_mul_inv, inv_def, h]
  simp

theorem mem_split (wo : ℝ) (l : List ℂ) (s : ℂ) :
    s ∈ split wo l ↔ ∃ x ∈ l, s ^ 2 - 2 * x * s + (wo : ℂ) ^ 2 = 0 := by
  unfold split
  rw [List.mem_append, List.mem_map, List.mem_map]
  constructor
  · rintro (⟨x, hx, rfl⟩ | ⟨x, hx, rfl⟩)
    · refine ⟨x, hx, ?_⟩
      rw [← split_factor]
      simp
    · refine ⟨x, hx, ?_⟩
      rw [← split_factor]
      simp
  · rintro ⟨x, hx, h⟩
    rw [← split_factor] at h
    rcases mul_eq_zero.mp h with h | h
    · exact Or.inl ⟨x, hx, (sub_eq_zero.mp h).symm⟩
    · exact Or.inr ⟨x, hx, (sub_eq_zero.mp h).symm⟩

/-- a pole of a Butterworth band-pass: where it lies -/
theorem butt_root {p s : ℂ} {wo bw : ℝ} (hp : normSq p = 1) (hre : p.re < 0) (hw : 0 < wo) (hb : 0 < bw)
    (h : s ^ 2 - 2 * (p * bw / 2) * s + (wo : ℂ) ^ 2 = 0) :
    0 < normSq s ∧ s.re < 0 ∧
    normSq s ^ 2 - (bw ^ 2 - 2 * wo ^ 2) * normSq s + (wo ^ 4 - 4 * wo ^ 2 * s.im ^ 2) = 0 := by
  have hs : s ≠ 0 := by
    rintro rfl
    have : (wo : ℂ) ^ 2 = 0 := by simpa using h
    have : (wo : ℂ) = 0 := pow_eq_zero_iff two_ne_zero |>.mp this
    exact hw.ne' (by exact_mod_cast this)
  have hR : 0 < normSq s := normSq_pos.mpr hs
  have h' : s ^ 2 + (wo : ℂ) ^ 2 = bw * p * s := by linear_combination h
  refine ⟨hR, ?_, ?_⟩
  · have e : (normSq s : ℂ) * s + (wo : ℂ) ^ 2 * starRingEnd ℂ s = bw * p * normSq s := by
      rw [← mul_conj]
      linear_combination starRingEnd ℂ s * h'
    have e := congrArg re e
    rw [← ofReal_pow] at e
    simp only [add_re, mul_re, ofReal_re, ofReal_im, zero_mul, sub_zero, conj_re, mul_im, add_zero, mul_zero] at e
    have h1 : bw * p.re * normSq s < 0 := by
      have := mul_neg_of_pos_of_neg hb hre
      exact mul_neg_of_neg_of_pos this hR
    by_contra hc
    push Not at hc
    have h2 : 0 ≤ normSq s * s.re + wo ^ 2 * s.re := by positivity
    linarith
  · have e := congrArg normSq h'
    rw [normSq_mul, normSq_mul, hp, normSq_ofReal, ← ofReal_pow] at e
    have e1 : normSq (s ^ 2 + ((wo ^ 2 : ℝ) : ℂ)) =
        normSq s ^ 2 + 2 * wo ^ 2 * (normSq s - 2 * s.im ^ 2) + wo ^ 4 := by
      simp only [normSq_apply, pow_two, add_re, mul_re, ofReal_re, add_im, mul_im, ofReal_im]
      ring
    rw [e1] at e
    linear_combination e

theorem butt_bp {N : ℕ} (hN : 0 < N) {wo bw : ℝ} (hw : 0 < wo) (hb : 0 < bw) (hn : bw ^ 2 < 2 * wo ^ 2) :
    Conjugate (lp2bp (buttap N) wo bw).p ∧ ∀ s ∈ (lp2bp (buttap N) wo bw).p, s.re < 0 := by
  have hproto := butt_prototype hN
  have hw' : (wo : ℂ) ≠ 0 := by exact_mod_cast hw.ne'
  have hb' : (bw : ℂ) ≠ 0 := by exact_mod_cast hb.ne'
  have hmem : ∀ s, s ∈ (lp2bp (buttap N) wo bw).p ↔
      ∃ p ∈ (buttap N).p, s ^ 2 - 2 * (p * bw / 2) * s + (wo : ℂ) ^ 2 = 0 := by
    intro s
    show s ∈ split wo _ ↔ _
    rw [mem_split]
    constructor
    · rintro ⟨x, hx, h⟩
      obtain ⟨p, hp, rfl⟩ := List.mem_map.mp hx
      exact ⟨p, hp, h⟩
    · rintro ⟨p, hp, h⟩
      exact ⟨_, List.mem_map.mpr ⟨p, hp, rfl⟩, h⟩
  have hroot : ∀ s ∈ (lp2bp (buttap N) wo bw).p, 0 < normSq s ∧ s.re < 0 ∧
      normSq s ^ 2 - (bw ^ 2 - 2 * wo ^ 2) * normSq s + (wo ^ 4 - 4 * wo ^ 2 * s.im ^ 2) = 0 := by
    intro s hs
    obtain ⟨p, hp, h⟩ := (hmem s).mp hs
    exact butt_root (butt_norm hp) (hproto.pre p hp) hw hb h
  refine ⟨⟨?_, ?_, ?_⟩, fun s hs => (hroot s hs).2.1⟩
  · -- the same number cannot come from two poles of the prototype
    have huniq : ∀ x y s : ℂ, s ^ 2 - 2 * x * s + (wo : ℂ) ^ 2 = 0 → s ^ 2 - 2 * y * s + (wo : ℂ) ^ 2 = 0 → x = y := by
      intro x y s h1 h2
      have hs : s ≠ 0 := by
        rintro rfl
        have : (wo : ℂ) ^ 2 = 0 := by simpa using h1
        exact hw' (pow_eq_zero_iff two_ne_zero |>.mp this)
      have : (2 * s) * (x - y) = 0 := by linear_combination h2 - h1
      exact sub_eq_zero.mp ((mul_eq_zero.mp this).resolve_left (mul_ne_zero two_ne_zero hs))
    have hplus : ∀ x : ℂ, (x + csqrt (x ^ 2 - (wo : ℂ) ^ 2)) ^ 2 - 2 * x * (x + csqrt (x ^ 2 - (wo : ℂ) ^ 2)) +
        (wo : ℂ) ^ 2 = 0 := by
      intro x
      rw [← split_factor]
      simp
    have hminus : ∀ x : ℂ, (x - csqrt (x ^ 2 - (wo : ℂ) ^ 2)) ^ 2 - 2 * x * (x - csqrt (x ^ 2 - (wo : ℂ) ^ 2)) +
        (wo : ℂ) ^ 2 = 0 := by
      intro x
      rw [← split_factor]
      simp
    have hnd : ((buttap N).p.map fun p : ℂ => p * bw / 2).Nodup := by
      refine hproto.conjp.nodup.map fun a b e => ?_
      have e : a * bw / 2 = b * bw / 2 := e
      have : a * bw = b * bw := by linear_combination 2 * e
      exact mul_right_cancel₀ hb' this
    show (split wo _).Nodup
    unfold split
    refine List.Nodup.append (hnd.map fun x y e => ?_) (hnd.map fun x y e => ?_) ?_
    · have e : x + csqrt (x ^ 2 - (wo : ℂ) ^ 2) = y + csqrt (y ^ 2 - (wo : ℂ) ^ 2) := e
      exact huniq x y _ (hplus x) (by rw [e]; exact hplus y)
    · have e : x - csqrt (x ^ 2 - (wo : ℂ) ^ 2) = y - csqrt (y ^ 2 - (wo : ℂ) ^ 2) := e
      exact huniq x y _ (hminus x) (by rw [e]; exact hminus y)
    · intro s h1 h2
      obtain ⟨x, hx, rfl⟩ := List.mem_map.mp h1
      obtain ⟨y, hy, e⟩ := List.mem_map.mp h2
      obtain rfl := huniq y x _ (hminus y) (by rw [e]; exact hplus x)
      have h0 : csqrt (y ^ 2 - (wo : ℂ) ^ 2) = 0 := by linear_combination -(1 / 2 : ℂ) * e
      have h3 := csqrt_sq (y ^ 2 - (wo : ℂ) ^ 2)
      rw [h0] at h3
      have h4 : y ^ 2 = (wo : ℂ) ^ 2 := by linear_combination -h3
      obtain ⟨p, hp, rfl⟩ := List.mem_map.mp hx
      have h5 := congrArg normSq h4
      rw [map_pow, map_pow, normSq_ofReal, normSq_div, normSq_mul, butt_norm hp, normSq_ofReal] at h5
      have h6 : normSq (2 : ℂ) = 4 := by
        rw [show (2 : ℂ) = ((2 : ℝ) : ℂ) by norm_num, normSq_ofReal]
        norm_num
      rw [h6, pow_left_inj₀ (by positivity) (by positivity) two_ne_zero] at h5
      nlinarith [pow_pos hw 2]
  · intro s hs
    obtain ⟨p, hp, h⟩ := (hmem s).mp hs
    refine (hmem _).mpr ⟨_, hproto.conjp.conj p hp, ?_⟩
    have h2 : starRingEnd ℂ (2 : ℂ) = 2 := map_ofNat _ 2
    have := congrArg (starRingEnd ℂ) h
    simpa [h2] using this
  · intro s hs t ht e
    obtain ⟨h1, h2, h3⟩ := hroot s hs
    obtain ⟨h1', h2', h3'⟩ := hroot t ht
    have e2 : s.im ^ 2 = t.im ^ 2 := (sq_eq_sq_iff_abs_eq_abs _ _).mpr e
    rw [e2] at h3
    have h4 : (normSq s - normSq t) * (normSq s + normSq t + (2 * wo ^ 2 - bw ^ 2)) = 0 := by
      linear_combination h3 - h3'
    have h5 : normSq s = normSq t := by
      rcases mul_eq_zero.mp h4 with h | h
      · linarith
      · linarith
    have h6 : s.re ^ 2 = t.re ^ 2 := by
      rw [normSq_apply, normSq_apply] at h5
      nlinarith
    have h7 : s.re = t.re := by
      rcases sq_eq_sq_iff_eq_or_eq_neg.mp h6 with h | h
      · exact h
      · linarith
    rcases sq_eq_sq_iff_eq_or_eq_neg.mp e2 with h | h
    · exact Or.inl (Complex.ext h7 h)
    · exact Or.inr (Complex.ext (by simpa using h7) (by simpa using h))

/-! ### the order -/

section Order
variable {nat gpass gstop : ℝ}

theorem gain_pos (h : 0 < gpass) : 0 < (10 : ℝ) ^ (gpass / 10) - 1 := by
  have : (1 : ℝ) < (10 : ℝ) ^ (gpass / 10) := Real.one_lt_rpow (by norm_num) (by positivity)
  linarith

theorem order_pos (hp : 0 < gpass) (hs : gpass < gstop) (hn : 1 < nat) : 0 < buttOrder nat gpass gstop := by
  have h1 := gain_pos hp
  have h2 : (10 : ℝ) ^ (gpass / 10) < (10 : ℝ) ^ (gstop / 10) :=
    Real.rpow_lt_rpow_of_exponent_lt (by norm_num) (by linarith)
  refine Nat.ceil_pos.mpr (div_pos (Real.logb_pos (by norm_num) ?_) (mul_pos two_pos (Real.logb_pos (by norm_num) hn)))
  rw [lt_div_iff₀ h1]
  linarith

theorem W0_pos (hp : 0 < gpass) (N : ℕ) : 0 < buttW0 N gpass := Real.rpow_pos_of_pos (gain_pos hp) _

theorem W0_pow (hp : 0 < gpass) {N : ℕ} (hN : 0 < N) :
    (buttW0 N gpass) ^ (2 * N) = ((10 : ℝ) ^ (gpass / 10) - 1)⁻¹ := by
  have h1 := gain_pos hp
  have hN' : (N : ℝ) ≠ 0 := by exact_mod_cast hN.ne'
  unfold buttW0
  rw [← Real.rpow_natCast, ← Real.rpow_mul h1.le, ← Real.rpow_neg_one]
  congr 1
  push_cast
  field_simp

/-- inside the pass band -/
theorem butt_pass (hp : 0 < gpass) {N : ℕ} (hN : 0 < N) {y : ℝ} (hy : |y| ≤ 1) :
    (10 : ℝ) ^ (-gpass / 10) ≤ Spec.butterworth N (y / buttW0 N gpass) ∧
    Spec.butterworth N (y / buttW0 N gpass) ≤ 1 := by
  have h1 := gain_pos hp
  have h2 : y ^ (2 * N) ≤ 1 := by
    rw [pow_mul]
    refine pow_le_one₀ (sq_nonneg y) ?_
    rw [← sq_abs]
    exact pow_le_one₀ (abs_nonneg y) hy
  have h3 : 0 ≤ y ^ (2 * N) := by rw [pow_mul]; positivity
  unfold Spec.butterworth
  rw [div_pow, W0_pow hp hN, div_inv_eq_mul]
  have h4 : 0 ≤ y ^ (2 * N) * ((10 : ℝ) ^ (gpass / 10) - 1) := by positivity
  constructor
  · rw [neg_div, Real.rpow_neg (by norm_num), ← one_div]
    refine one_div_le_one_div_of_le (by linarith) ?_
    nlinarith
  · rw [div_le_one (by linarith)]
    linarith

/-- inside the stop band -/
theorem butt_stop (hp : 0 < gpass) (hs : gpass < gstop) (hn : 1 < nat) {y : ℝ} (hy : nat ≤ |y|) :
    Spec.butterworth (buttOrder nat gpass gstop) (y / buttW0 (buttOrder nat gpass gstop) gpass) ≤
      (10 : ℝ) ^ (-gstop / 10) := by
  have h1 := gain_pos hp
  have h1' := gain_pos (hp.trans hs)
  have hN := order_pos hp hs hn
  set N := buttOrder nat gpass gstop with hNdef
  have hlog : 0 < Real.logb 10 nat := Real.logb_pos (by norm_num) hn
  have hceil : Real.logb 10 (((10 : ℝ) ^ (gstop / 10) - 1) / ((10 : ℝ) ^ (gpass / 10) - 1)) ≤
      Real.logb 10 (nat ^ (2 * N)) := by
    have := Nat.le_ceil (Real.logb 10 (((10 : ℝ) ^ (gstop / 10) - 1) / ((10 : ℝ) ^ (gpass / 10) - 1)) /
      (2 * Real.logb 10 nat))
    rw [← buttOrder, ← hNdef, div_le_iff₀ (by positivity)] at this
    rw [Real.logb_pow]
    push_cast
    linarith
  have h2 := (Real.logb_le_logb (by norm_num) (by positivity) (by positivity)).mp hceil
  rw [div_le_iff₀ h1] at h2
  have h3 : nat ^ (2 * N) ≤ y ^ (2 * N) := by
    rw [pow_mul y, ← sq_abs, ← pow_mul]
    exact pow_le_pow_left₀ (by linarith) hy _
  unfold Spec.butterworth
  rw [div_pow, W0_pow hp hN, div_inv_eq_mul, neg_div, Real.rpow_neg (by norm_num), ← one_div]
  refine one_div_le_one_div_of_le (by positivity) ?_
  nlinarith

end Order

end Cbadc.Filters
