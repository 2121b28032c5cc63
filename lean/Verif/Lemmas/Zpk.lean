import Verif.Props.Zpk

/-! # Zero-pole-gain realisation of conjugate patterns -/

namespace Cbadc.Analog
open Finset Spec Complex

/-- conjugate pairs, then at most one real entry -/
inductive Paired : List ℂ → Prop
  | nil : Paired []
  | one (r : ℂ) (h : r.im = 0) : Paired [r]
  | pair (a b : ℂ) (l : List ℂ) (h : a.im ≠ 0) (e : a = starRingEnd ℂ b) (hl : Paired l) : Paired (a :: b :: l)

/-- entries that can be used two by two: pairs with real sum and real product, then at most one real entry -/
inductive Usable : List ℂ → Prop
  | nil : Usable []
  | one (r : ℂ) (h : r.im = 0) : Usable [r]
  | pair (a b : ℂ) (l : List ℂ) (hs : (a + b).im = 0) (hp : (a * b).im = 0) (hl : Usable l) : Usable (a :: b :: l)

theorem Paired.usable {l : List ℂ} (h : Paired l) : Usable l := by
  induction h with
  | nil => exact .nil
  | one r h => exact .one r h
  | pair a b l h e hl ih =>
    refine .pair a b l ?_ ?_ ih
    · rw [e]
      simp
    · rw [e]
      simp
      ring

/-- closed under conjugation, and no two entries with the same `|imag|` except conjugates -/
structure Conjugate (l : List ℂ) : Prop where
  nodup : l.Nodup
  conj : ∀ a ∈ l, starRingEnd ℂ a ∈ l
  im : ∀ a ∈ l, ∀ b ∈ l, |a.im| = |b.im| → a = b ∨ a = starRingEnd ℂ b

theorem Conjugate.perm {l l' : List ℂ} (h : Conjugate l) (p : l'.Perm l) : Conjugate l' :=
  ⟨p.nodup_iff.mpr h.nodup, fun a ha => p.mem_iff.mpr (h.conj a (p.mem_iff.mp ha)),
    fun a ha b hb => h.im a (p.mem_iff.mp ha) b (p.mem_iff.mp hb)⟩

theorem Conjugate.paired (n : ℕ) : ∀ l : List ℂ, l.length = n → Conjugate l →
    l.Pairwise (fun a b => |b.im| ≤ |a.im|) → Paired l := by
  induction n using Nat.strong_induction_on with
  | _ n ih =>
    intro l hn h hs
    match l, hn, h, hs with
    | [], _, _, _ => exact .nil
    | [a], _, h, _ =>
      refine .one a ?_
      have := h.conj a (by simp)
      rw [List.mem_singleton] at this
      exact conj_eq_iff_im.mp this
    | a :: b :: t, hn, h, hs =>
      have hnd := h.nodup
      simp only [List.nodup_cons, List.mem_cons, not_or] at hnd
      simp only [List.pairwise_cons, List.mem_cons] at hs
      have hba := hs.1 b (Or.inl rfl)
      have ha : a.im ≠ 0 := by
        intro h0
        have hb0 : |b.im| = 0 := by
          rw [h0, abs_zero] at hba
          exact le_antisymm hba (abs_nonneg _)
        rcases h.im a (by simp) b (by simp) (by rw [h0, abs_zero, hb0]) with e | e
        · exact hnd.1.1 e
        · have : b.im = 0 := abs_eq_zero.mp hb0
          rw [conj_eq_iff_im.mpr this] at e
          exact hnd.1.1 e
      have hca : starRingEnd ℂ a ≠ a := fun e => ha (conj_eq_iff_im.mp e)
      have hb : b = starRingEnd ℂ a := by
        have hm := h.conj a (by simp)
        simp only [List.mem_cons] at hm
        rcases hm with e | e | e
        · exact absurd e hca
        · exact e.symm
        · have h1 := hs.2.1 _ e
          rw [conj_im, abs_neg] at h1
          rcases h.im b (by simp) a (by simp) (le_antisymm hba h1) with e' | e'
          · exact absurd e'.symm hnd.1.1
          · rw [e'] at hnd
            exact absurd e hnd.2.1
      have hab : a = starRingEnd ℂ b := by rw [hb, conj_conj]
      refine .pair a b t ha hab (ih t.length ?_ t rfl ?_ hs.2.2)
      · rw [← hn]
        simp
      · refine ⟨hnd.2.2, ?_, fun c hc d hd => h.im c (by simp [hc]) d (by simp [hd])⟩
        intro c hc
        have hm := h.conj c (by simp [hc])
        simp only [List.mem_cons] at hm
        rcases hm with e | e | e
        · have : c = b := by rw [hb, ← e, conj_conj]
          rw [this] at hc
          exact absurd hc hnd.2.1
        · have : c = a := by rw [hab, ← e, conj_conj]
          rw [this] at hc
          exact absurd hc hnd.1.2
        · exact e

theorem close_self (a : ℂ) : closeC a a := by
  unfold closeC
  rw [sub_self, norm_zero]
  positivity

theorem Paired.conjPairs {l : List ℂ} (h : Paired l) : conjPairs (l.filter fun z => z.im ≠ 0) := by
  induction h with
  | nil => trivial
  | one r h => simp [h, Analog.conjPairs]
  | pair a b l ha e hl ih =>
    have hb : b.im ≠ 0 := by
      intro h0
      apply ha
      rw [e, conj_im, h0, neg_zero]
    rw [List.filter_cons_of_pos (by simpa using ha), List.filter_cons_of_pos (by simpa using hb)]
    refine ⟨?_, ih⟩
    rw [e]
    exact close_self _

theorem paired_zeros (kps a b c d : ℝ) (z : List ℂ) (hz : Usable z) (hc : c ≠ 0) :
    ∃ g, zpkZeros kps a b c d z = .ok g ∧ g.N = 2 ∧ ∀ s : ℂ, (s - a) * (s - d) - (b : ℂ) * c ≠ 0 →
      Gain g s ((kps : ℂ) ^ 2 * ((z.take 2).map fun z => s - z).prod / ((s - a) * (s - d) - (b : ℂ) * c)) := by
  have hc' : (c : ℂ) ≠ 0 := by exact_mod_cast hc
  unfold zpkZeros
  rw [if_neg hc]
  cases hz with
  | nil =>
    refine ⟨_, new2_eq _ _ _ _ _ _ _ _, rfl, fun s h => ?_⟩
    have := gain2 a b c d ((kps ^ 2 : ℝ) : ℂ) 0 ((1 / c : ℝ) : ℂ) 0 s h
    convert this using 1
    push_cast
    simp
    field_simp
  | one z1 hi =>
    dsimp only
    rw [if_neg (not_not.mpr hi)]
    refine ⟨_, new2_eq _ _ _ _ _ _ _ _, rfl, fun s h => ?_⟩
    have hz1 : z1 = (z1.re : ℂ) := by
      apply Complex.ext <;> simp [hi]
    have := gain2 a b c d ((kps ^ 2 : ℝ) : ℂ) 1 (((d - z1.re) / c : ℝ) : ℂ) 0 s h
    convert this using 1
    simp only [List.take_succ_cons, List.take_nil, List.map_cons, List.map_nil, List.prod_cons, List.prod_nil]
    push_cast
    rw [← hz1]
    field_simp
    ring
  | pair z1 z2 l hs hp hl =>
    dsimp only
    have hi0 : (z1 + z2 - a - d).im = 0 := by
      simp only [sub_im, ofReal_im, sub_zero]
      exact hs
    have hi1 : (z1 * z2 - a * d + b * c).im = 0 := by
      have : ((a : ℂ) * d).im = 0 := by rw [← ofReal_mul, ofReal_im]
      have h' : ((b : ℂ) * c).im = 0 := by rw [← ofReal_mul, ofReal_im]
      rw [add_im, sub_im, this, h', hp]
      simp
    rw [if_pos (by rw [hi0, hi1, abs_zero]; norm_num)]
    refine ⟨_, new2_eq _ _ _ _ _ _ _ _, rfl, fun s h => ?_⟩
    have h0 : (((z1 + z2 - a - d).re : ℝ) : ℂ) = z1 + z2 - a - d := by
      apply Complex.ext
      · simp
      · rw [ofReal_im, hi0]
    have h1 : (((z1 * z2 - a * d + b * c).re : ℝ) : ℂ) = z1 * z2 - a * d + b * c := by
      apply Complex.ext
      · simp
      · rw [ofReal_im, hi1]
    have := gain2 a b c d ((kps ^ 2 : ℝ) : ℂ) (-(((z1 + z2 - a - d).re : ℝ) : ℂ))
      (((((z1 * z2 - a * d + b * c).re : ℝ) : ℂ) + d * -(((z1 + z2 - a - d).re : ℝ) : ℂ)) / c)
      ((kps ^ 2 : ℝ) : ℂ) s h
    have e : sys2 a b c d ((kps ^ 2 : ℝ) : ℂ) ((-(z1 + z2 - a - d).re : ℝ) : ℂ)
        ((((z1 * z2 - a * d + b * c).re + d * -(z1 + z2 - a - d).re) / c : ℝ) : ℂ) ((kps ^ 2 : ℝ) : ℂ) =
      sys2 a b c d ((kps ^ 2 : ℝ) : ℂ) (-(((z1 + z2 - a - d).re : ℝ) : ℂ))
      (((((z1 * z2 - a * d + b * c).re : ℝ) : ℂ) + d * -(((z1 + z2 - a - d).re : ℝ) : ℂ)) / c)
      ((kps ^ 2 : ℝ) : ℂ) := by
      push_cast
      rfl
    rw [← e] at this
    rw [h0, h1] at this
    convert this using 1
    simp only [List.take_succ_cons, List.take_zero, List.map_cons, List.map_nil, List.prod_cons, List.prod_nil]
    push_cast
    rw [div_mul_cancel₀ _ hc', div_eq_iff h, add_mul, div_mul_cancel₀ _ h]
    ring

theorem Usable.drop {z : List ℂ} (h : Usable z) : Usable (z.drop 2) := by
  cases h with
  | nil => exact .nil
  | one r h => exact .nil
  | pair a b l hs hp hl => exact hl

/-- the loop on conjugate pairs -/
theorem paired_loop (kps : ℝ) {p : List ℂ} (hp : Paired p) : ∀ z : List ℂ, Usable z → z.length ≤ p.length →
    ∃ l, zpkLoop kps p z = .ok l ∧ (∀ g ∈ l, g.L = 1 ∧ g.Nt = 1) ∧ (p ≠ [] → l ≠ []) ∧ total Sys.N l = p.length ∧
      ∀ s : ℂ, (∀ q ∈ p, s - q ≠ 0) → ∃ v : List ℂ, List.Forall₂ (fun g v => Gain g s v) l v ∧
        v.prod = (kps : ℂ) ^ p.length * (z.map fun z => s - z).prod / (p.map fun p => s - p).prod := by
  have nonpole : ∀ l : List ℂ, ∃ s : ℂ, ∀ q ∈ l, s - q ≠ 0 := by
    intro l
    obtain ⟨s, hs⟩ := Infinite.exists_notMem_finset l.toFinset
    refine ⟨s, fun q hq => sub_ne_zero.mpr ?_⟩
    rintro rfl
    exact hs (List.mem_toFinset.mpr hq)
  induction hp with
  | nil =>
    intro z hz hlen
    have : z = [] := by simpa using hlen
    subst this
    exact ⟨[], rfl, by simp, fun h => absurd rfl h, rfl, fun s _ => ⟨[], List.Forall₂.nil, by simp⟩⟩
  | one r h =>
    intro z hz hlen
    have hok : ∃ g, zpkOne kps r z = .ok g ∧ g.N = 1 := by
      unfold zpkOne
      rw [if_neg (not_not.mpr h)]
      match z, hz, hlen with
      | [], _, _ => exact ⟨_, new1_eq _ _ _ _, rfl⟩
      | [z1], hz, _ =>
        cases hz with
        | one _ hi =>
          dsimp only
          rw [if_neg (not_not.mpr hi)]
          exact ⟨_, new1_eq _ _ _ _, rfl⟩
    obtain ⟨g, hg, hgN⟩ := hok
    have hgain := fun s (hs : s - r ≠ 0) => zpkOne_gain kps r z hlen g hg s hs
    obtain ⟨s0, hs0⟩ := nonpole [r]
    refine ⟨[g], ?_, ?_, fun _ => by simp, by simp [total, hgN], fun s hs => ?_⟩
    · rw [zpkLoop, hg]
      rfl
    · intro g' hg'
      rw [List.mem_singleton.mp hg']
      exact ⟨(hgain s0 (hs0 r (by simp))).hL, (hgain s0 (hs0 r (by simp))).hNt⟩
    · refine ⟨[_], List.Forall₂.cons (hgain s (hs r (by simp))) List.Forall₂.nil, ?_⟩
      simp
  | pair a b p ha e hp ih =>
    intro z hz hlen
    have him : a.im = -b.im := by rw [e, conj_im]
    have hre : a.re = b.re := by rw [e, conj_re]
    have hb : b.im ≠ 0 := by
      intro h0
      apply ha
      rw [him, h0, neg_zero]
    obtain ⟨g, hg, hgN, hgain⟩ := paired_zeros kps a.re a.im b.im b.re z hz hb
    obtain ⟨l, hl, hsiso, -, hlN, hval⟩ := ih (z.drop 2) hz.drop (by simp at hlen ⊢; omega)
    have hden : ∀ s : ℂ, (s - a.re) * (s - b.re) - (a.im : ℂ) * b.im = (s - a) * (s - b) := by
      intro s
      have h1' : a = (b.re : ℂ) - (b.im : ℂ) * I := by
        apply Complex.ext
        · simp [hre]
        · simp [him]
      have h2' : b = (b.re : ℂ) + (b.im : ℂ) * I := (re_add_im b).symm
      rw [hre, him]
      push_cast
      conv_rhs => rw [h1', h2']
      simp only [add_re, ofReal_re, mul_re, I_re, mul_zero, ofReal_im, I_im, mul_one, sub_self, add_zero, add_im,
        mul_im, zero_add]
      ring_nf
      rw [I_sq]
      ring
    have htwo : zpkTwo kps a b z = .ok g := by
      unfold zpkTwo
      rw [if_pos (by rw [e]; exact close_self _), hg]
    obtain ⟨s0, hs0⟩ := nonpole [a, b]
    refine ⟨g :: l, ?_, ?_, fun _ => by simp, ?_, fun s hs => ?_⟩
    · rw [zpkLoop, htwo]
      simp only [bind, Except.bind]
      rw [hl]
    · intro g' hg'
      rcases List.mem_cons.mp hg' with rfl | hg'
      · have := hgain s0 (by rw [hden]; exact mul_ne_zero (hs0 a (by simp)) (hs0 b (by simp)))
        exact ⟨this.hL, this.hNt⟩
      · exact hsiso g' hg'
    · rw [total] at hlN ⊢
      rw [List.map_cons, List.sum_cons, hlN, hgN, List.length_cons, List.length_cons]
      omega
    · obtain ⟨v, h1, h2⟩ := hval s (fun q hq => hs q (by simp [hq]))
      have h3 := hgain s (by rw [hden]; exact mul_ne_zero (hs a (by simp)) (hs b (by simp)))
      rw [hden] at h3
      refine ⟨_ :: v, List.Forall₂.cons h3 h1, ?_⟩
      rw [List.prod_cons, h2]
      have e : (z.map fun z => s - z).prod =
          ((z.take 2).map fun z => s - z).prod * ((z.drop 2).map fun z => s - z).prod := by
        conv_lhs => rw [← List.take_append_drop 2 z]
        rw [List.map_append, List.prod_append]
      rw [e]
      simp only [List.map_cons, List.prod_cons, List.length_cons]
      rw [div_mul_div_comm, pow_succ, pow_succ]
      congr 1 <;> ring

/-- the gain of a chain of single input, single output systems -/
theorem chain_gain (l : List (Sys ℂ)) (g : Sys ℂ) (hg : chain l = .ok g) (s : ℂ) (v : List ℂ)
    (hv : List.Forall₂ (fun g v => Gain g s v) l v) :
    (s • (1 : Matrix (Fin (toABCD g).sys.N) (Fin (toABCD g).sys.N) ℂ) -
      toM (toABCD g).sys.N (toABCD g).sys.N (toABCD g).sys.A).det ≠ 0 ∧
    (toABCD g).sys.tfm s = Matrix.of fun (_ : Fin 1) (_ : Fin 1) => v.prod := by
  have hgain : ∀ f ∈ l, ∃ w, Gain f s w := by
    intro f hf
    obtain ⟨i, hi, rfl⟩ := List.getElem_of_mem hf
    exact ⟨_, hv.get hi (by rw [← hv.length_eq]; exact hi)⟩
  have hdet : ∀ f ∈ l, (s • (1 : Matrix (Fin f.N) (Fin f.N) ℂ) - toM f.N f.N f.A).det ≠ 0 := by
    intro f hf
    obtain ⟨w, hw⟩ := hgain f hf
    exact (regular_iff_det _ _ _).mp hw.reg
  have hgdet := (C22_transfer_function_partial _ _ hg s hdet).1
  have hreg := (regular_iff_det _ _ _).mpr hgdet
  have hregS : Regular (toABCD g).sys.N (toABCD g).sys.A s := hreg
  refine ⟨hgdet, siso_tfm _ s _ hregS ?_⟩
  intro y hy
  obtain ⟨f, t, a, rfl, hloop, hN, hL, hNt, -⟩ := chain_ok_data _ _ hg
  have hgL : g.L = 1 := by
    obtain ⟨w, hw⟩ := hgain f (by simp)
    rw [hL, hw.hL]
  have hgNt : g.Nt = 1 := by
    rw [hNt]
    refine loop_p _ _ _ _ _ ?_ (fun f' hf' => ?_) hloop
    · obtain ⟨w, hw⟩ := hgain f (by simp)
      exact hw.hNt
    · obtain ⟨w, hw⟩ := hgain f' hf'
      exact hw.hNt
  have hyg : Transfers g s (fun _ => 1) y := by
    obtain ⟨x, h1, h2⟩ := hy
    refine ⟨x, ?_, ?_⟩
    · rw [hgL]; exact h1
    · rw [hgL, hgNt]; exact h2
  rw [cascade_gain s _ v hv _ _ ((C22_chain_partial _ _ hg s _ _).mp hyg), mul_one]

end Cbadc.Analog
