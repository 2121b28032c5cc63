import Mathlib.Tactic.NormNum
import Mathlib.Tactic.FieldSimp
import Mathlib.Tactic.Linarith
import Verif.Model.Zpk
import Verif.Props.Topology

/-! # C26: zero-pole-gain realisation -/

namespace Cbadc.Analog
open Finset Spec Complex

/-! ### specification -/

/-- `k ∏ (s - z) / ∏ (s - p)` (specification) -/
noncomputable def zpkValue (z p : List ℂ) (k s : ℂ) : ℂ :=
  k * (z.map fun z => s - z).prod / (p.map fun p => s - p).prod

/-- what is known of the sorting: a rearrangement by descending `|imag|` (specification;
`src/cbadc/analog_system/topology.py:289-290`) -/
def Sorts (sort : List ℂ → List ℂ) : Prop :=
  ∀ l, (sort l).Perm l ∧ (sort l).Pairwise fun a b => |b.im| ≤ |a.im|

/-- no two entries are conjugate up to the tolerance of `np.allclose` without being conjugate
(specification of the inputs on which the tolerance is harmless) -/
def Separated (l : List ℂ) : Prop := ∀ a ∈ l, ∀ b ∈ l, closeC a (starRingEnd ℂ b) → a = starRingEnd ℂ b

/-- no imaginary part below the absolute tolerance of `np.allclose`, other than zero (specification) -/
def NotTiny (l : List ℂ) : Prop := ∀ a ∈ l, a.im = 0 ∨ 1e-8 < |a.im|

/-! ### blocks -/

/-- a two-state block -/
noncomputable def sys2 (a b c d β c1 c2 δ : ℂ) : Sys ℂ :=
  ⟨2, 1, 0, 0, 1, fun i j => if i = 0 then (if j = 0 then a else b) else (if j = 0 then c else d),
    fun i _ => if i = 0 then β else 0, fun _ j => if j = 0 then c1 else c2, none, none, fun _ _ => δ,
    fun _ _ => 0, fun _ _ => 0⟩

/-- a one-state block -/
noncomputable def sys1 (a β c δ : ℂ) : Sys ℂ :=
  ⟨1, 1, 0, 0, 1, fun _ _ => a, fun _ _ => β, fun _ _ => c, none, none, fun _ _ => δ, fun _ _ => 0, fun _ _ => 0⟩

theorem new2_eq (a b c d β c1 c2 δ : ℂ) : new2 a b c d β c1 c2 δ = .ok (sys2 a b c d β c1 c2 δ) := by
  unfold new2
  rw [new_ok]
  simp [checkGamma_ok, checkGammaT_ok, checkB_ok, checkCT_ok, checkOpt_ok, sys2]

theorem new1_eq (a β c δ : ℂ) : new1 a β c δ = .ok (sys1 a β c δ) := by
  unfold new1
  rw [new_ok]
  simp [checkGamma_ok, checkGammaT_ok, checkB_ok, checkCT_ok, checkOpt_ok, sys1]

/-- one input, one output, no pole at `s`, and gain `v` there -/
structure Gain (g : Sys ℂ) (s v : ℂ) : Prop where
  hL : g.L = 1
  hNt : g.Nt = 1
  reg : Regular g.N g.A s
  val : ∀ u y, Transfers g s u y → y 0 = v * u 0

theorem gain2 (a b c d β c1 c2 δ s : ℂ) (h : (s - a) * (s - d) - b * c ≠ 0) :
    Gain (sys2 a b c d β c1 c2 δ) s
      (δ + β * (c1 * (s - d) + c2 * c) / ((s - a) * (s - d) - b * c)) := by
  have st : ∀ (w : ℂ) (x : ℕ → ℂ),
      StateEq 2 1 (sys2 a b c d β c1 c2 δ).A (sys2 a b c d β c1 c2 δ).B s (fun _ => w) x →
      s * x 0 = a * x 0 + b * x 1 + β * w ∧ s * x 1 = c * x 0 + d * x 1 := by
    intro w x hx
    have e0 := hx 0 (by norm_num)
    have e1 := hx 1 (by norm_num)
    simp only [sys2, Finset.sum_range_succ, Finset.sum_range_zero, if_true, one_ne_zero, if_false, zero_add,
      zero_mul, add_zero] at e0 e1
    exact ⟨e0, e1⟩
  refine ⟨rfl, rfl, ?_, ?_⟩
  · intro x hx
    obtain ⟨e0, e1⟩ := st 0 x (by
      intro r hr
      rw [hx r hr]
      simp only [mul_zero, sum_const_zero, add_zero]
      rfl)
    have h0 : ((s - a) * (s - d) - b * c) * x 0 = 0 := by linear_combination (s - d) * e0 + b * e1
    have h1 : ((s - a) * (s - d) - b * c) * x 1 = 0 := by linear_combination c * e0 + (s - a) * e1
    have h0' := (mul_eq_zero.mp h0).resolve_left h
    have h1' := (mul_eq_zero.mp h1).resolve_left h
    intro r hr
    have hr2 : r < 2 := hr
    rcases Nat.lt_or_ge r 1 with h | h
    · obtain rfl : r = 0 := by omega
      exact h0'
    · obtain rfl : r = 1 := by omega
      exact h1'
  · rintro u y ⟨x, hS, hO⟩
    obtain ⟨e0, e1⟩ := st (u 0) x (by
      intro r hr
      rw [hS r hr]
      simp [sys2])
    have eo := hO 0 (by simp [sys2])
    simp only [sys2, Finset.sum_range_succ, Finset.sum_range_zero, if_true, one_ne_zero, if_false, zero_add] at eo
    have h0 : x 0 = (s - d) * β * u 0 / ((s - a) * (s - d) - b * c) := by
      rw [eq_div_iff h]
      linear_combination (s - d) * e0 + b * e1
    have h1 : x 1 = c * β * u 0 / ((s - a) * (s - d) - b * c) := by
      rw [eq_div_iff h]
      linear_combination c * e0 + (s - a) * e1
    rw [eo, h0, h1]
    ring

theorem gain1 (a β c δ s : ℂ) (h : s - a ≠ 0) : Gain (sys1 a β c δ) s (δ + β * c / (s - a)) := by
  refine ⟨rfl, rfl, ?_, ?_⟩
  · intro x hx
    have e0 := hx 0 (by simp [sys1])
    simp only [sys1, Finset.sum_range_succ, Finset.sum_range_zero, zero_add] at e0
    have : (s - a) * x 0 = 0 := by linear_combination e0
    intro r hr
    obtain rfl : r = 0 := by
      have : r < 1 := hr
      omega
    exact (mul_eq_zero.mp this).resolve_left h
  · rintro u y ⟨x, hS, hO⟩
    have e0 := hS 0 (by simp [sys1])
    have eo := hO 0 (by simp [sys1])
    simp only [sys1, Finset.sum_range_succ, Finset.sum_range_zero, zero_add] at e0 eo
    have h0 : x 0 = β * u 0 / (s - a) := by
      rw [eq_div_iff h]
      linear_combination e0
    rw [eo, h0]
    ring

/-! ### zeros of one block -/

/-- the remaining zeros are usable: sorted, pairs close, separated, nothing tiny -/
structure ZOk (z : List ℂ) : Prop where
  sorted : z.Pairwise fun a b => |b.im| ≤ |a.im|
  pairs : conjPairs (z.filter fun z => z.im ≠ 0)
  sep : Separated z
  tiny : NotTiny z

theorem ZOk.drop {z : List ℂ} (h : ZOk z) : ZOk (z.drop 2) := by
  refine ⟨h.sorted.sublist (List.drop_sublist 2 z), ?_,
    fun a ha b hb => h.sep a (List.mem_of_mem_drop ha) b (List.mem_of_mem_drop hb),
    fun a ha => h.tiny a (List.mem_of_mem_drop ha)⟩
  match z, h with
  | [], h => exact h.pairs
  | [z1], h => simp [conjPairs]
  | z1 :: z2 :: z, h =>
    simp only [List.drop_succ_cons, List.drop_zero]
    have hs := h.sorted
    simp only [List.pairwise_cons] at hs
    by_cases h2 : z2.im = 0
    · have : (z.filter fun z => z.im ≠ 0) = [] := by
        rw [List.filter_eq_nil_iff]
        intro w hw
        have := hs.2.1 w hw
        rw [h2, abs_zero] at this
        simpa using abs_nonpos_iff.mp this
      rw [this]
      trivial
    · have h1 : z1.im ≠ 0 := by
        intro h1
        have := hs.1 z2 (by simp)
        rw [h1, abs_zero] at this
        exact h2 (abs_nonpos_iff.mp this)
      have := h.pairs
      rw [List.filter_cons_of_pos (by simpa using h1), List.filter_cons_of_pos (by simpa using h2)] at this
      exact this.2

/-- two zeros in a block accepted by the tolerance test have exactly real sum and product -/
theorem ZOk.real {z1 z2 : ℂ} {z : List ℂ} (h : ZOk (z1 :: z2 :: z)) (a : ℝ) (d : ℝ)
    (ht : |(z1 + z2 - a - d).im| ≤ 1e-8) : (z1 + z2).im = 0 ∧ (z1 * z2).im = 0 := by
  have hs := h.sorted
  simp only [List.pairwise_cons] at hs
  by_cases h2 : z2.im = 0
  · have h1 : z1.im = 0 := by
      rcases h.tiny z1 (by simp) with h1 | h1
      · exact h1
      · simp only [sub_im, add_im, ofReal_im, sub_zero, h2, add_zero] at ht
        linarith
    simp [h1, h2]
  · have h1 : z1.im ≠ 0 := by
      intro h1
      have := hs.1 z2 (by simp)
      rw [h1, abs_zero] at this
      exact h2 (abs_nonpos_iff.mp this)
    have := h.pairs
    rw [List.filter_cons_of_pos (by simpa using h1), List.filter_cons_of_pos (by simpa using h2)] at this
    have e := h.sep z1 (by simp) z2 (by simp) this.1
    rw [e]
    simp
    ring

/-- a block of two poles realises its zeros -/
theorem zpkZeros_gain (kps a b c d : ℝ) (z : List ℂ) (hz : ZOk z) (g : Sys ℂ)
    (hg : zpkZeros kps a b c d z = .ok g) (s : ℂ) (h : (s - a) * (s - d) - (b : ℂ) * c ≠ 0) :
    Gain g s ((kps : ℂ) ^ 2 * ((z.take 2).map fun z => s - z).prod / ((s - a) * (s - d) - (b : ℂ) * c)) := by
  unfold zpkZeros at hg
  split_ifs at hg with hc
  have hc' : (c : ℂ) ≠ 0 := by exact_mod_cast hc
  match z, hz, hg with
  | [], hz, hg =>
    dsimp only at hg
    rw [new2_eq] at hg
    cases hg
    have := gain2 a b c d ((kps ^ 2 : ℝ) : ℂ) 0 ((1 / c : ℝ) : ℂ) 0 s h
    convert this using 1
    push_cast
    simp
    field_simp
  | [z1], hz, hg =>
    dsimp only at hg
    split_ifs at hg with hi
    rw [new2_eq] at hg
    cases hg
    have hi : z1.im = 0 := not_not.mp hi
    have hz1 : z1 = (z1.re : ℂ) := by
      apply Complex.ext <;> simp [hi]
    have := gain2 a b c d ((kps ^ 2 : ℝ) : ℂ) 1 (((d - z1.re) / c : ℝ) : ℂ) 0 s h
    convert this using 1
    simp only [List.take_succ_cons, List.take_nil, List.map_cons, List.map_nil, List.prod_cons, List.prod_nil]
    push_cast
    rw [← hz1]
    field_simp
    ring
  | z1 :: z2 :: z, hz, hg =>
    dsimp only at hg
    split_ifs at hg with hi
    rw [new2_eq] at hg
    cases hg
    obtain ⟨hs, hp⟩ := hz.real a d hi.1
    have h0 : (((z1 + z2 - a - d).re : ℝ) : ℂ) = z1 + z2 - a - d := by
      apply Complex.ext
      · simp
      · simp only [ofReal_im, sub_im, sub_zero]
        exact hs.symm
    have h1 : (((z1 * z2 - a * d + b * c).re : ℝ) : ℂ) = z1 * z2 - a * d + b * c := by
      apply Complex.ext
      · simp
      · rw [ofReal_im]
        have : ((a : ℂ) * d).im = 0 := by rw [← ofReal_mul, ofReal_im]
        have h' : ((b : ℂ) * c).im = 0 := by rw [← ofReal_mul, ofReal_im]
        rw [add_im, sub_im, this, h', hp]
        simp
    have := gain2 a b c d ((kps ^ 2 : ℝ) : ℂ) (-(((z1 + z2 - a - d).re : ℝ) : ℂ))
      (((((z1 * z2 - a * d + b * c).re : ℝ) : ℂ) + d * -(((z1 + z2 - a - d).re : ℝ) : ℂ)) / c)
      ((kps ^ 2 : ℝ) : ℂ) s h
    have e : sys2 a b c d ((kps ^ 2 : ℝ) : ℂ) ((-(z1 + z2 - a - d).re : ℝ) : ℂ)
        ((((z1 * z2 - a * d + b * c).re + d * -(z1 + z2 - a - d).re) / c : ℝ) : ℂ) ((kps ^ 2 : ℝ) : ℂ) =
      sys2 a b c d ((kps ^ 2 : ℝ) : ℂ) (-(((z1 + z2 - a - d).re : ℝ) : ℂ))
      (((((z1 * z2 - a * d + b * c).re : ℝ) : ℂ) + d * -(((z1 + z2 - a - d).re : ℝ) : ℂ)) / c)
      ((kps ^ 2 : ℝ) : ℂ) := by
      push_cast
      rfl
    rw [← e] at this
    rw [h0, h1] at this
    convert this using 1
    simp only [List.take_succ_cons, List.take_zero, List.map_cons, List.map_nil, List.prod_cons, List.prod_nil]
    push_cast
    rw [div_mul_cancel₀ _ hc', div_eq_iff h, add_mul, div_mul_cancel₀ _ h]
    ring

theorem zpkTwo_gain (kps : ℝ) (p1 p2 : ℂ) (z : List ℂ) (hz : ZOk z)
    (hp : closeC p1 (starRingEnd ℂ p2) → p1 = starRingEnd ℂ p2) (g : Sys ℂ)
    (hg : zpkTwo kps p1 p2 z = .ok g) (s : ℂ) (h1 : s - p1 ≠ 0) (h2 : s - p2 ≠ 0) :
    Gain g s ((kps : ℂ) ^ 2 * ((z.take 2).map fun z => s - z).prod / ((s - p1) * (s - p2))) := by
  have key : ∀ a b c d : ℝ, (s - a) * (s - d) - (b : ℂ) * c = (s - p1) * (s - p2) →
      zpkZeros kps a b c d z = .ok g →
      Gain g s ((kps : ℂ) ^ 2 * ((z.take 2).map fun z => s - z).prod / ((s - p1) * (s - p2))) := by
    intro a b c d e hg
    have := zpkZeros_gain kps a b c d z hz g hg s (by rw [e]; exact mul_ne_zero h1 h2)
    rwa [e] at this
  unfold zpkTwo at hg
  split_ifs at hg with hc hi
  · have e := hp hc
    refine key _ _ _ _ ?_ hg
    have hre : p1.re = p2.re := by rw [e]; simp
    have him : p1.im = -p2.im := by rw [e]; simp
    have h1' : p1 = (p2.re : ℂ) - (p2.im : ℂ) * I := by
      apply Complex.ext
      · simp [hre]
      · simp [him]
    have h2' : p2 = (p2.re : ℂ) + (p2.im : ℂ) * I := (re_add_im p2).symm
    rw [hre, him]
    push_cast
    rw [h1']
    conv_rhs => rw [h2']
    simp only [add_re, ofReal_re, mul_re, I_re, mul_zero, ofReal_im, I_im, mul_one, sub_self, add_zero, add_im,
      mul_im, zero_add]
    ring_nf
    rw [I_sq]
    ring
  · rw [not_or, not_not, not_not] at hi
    refine key _ _ _ _ ?_ hg
    have h1' : p1 = (p1.re : ℂ) := by apply Complex.ext <;> simp [hi.1]
    have h2' : p2 = (p2.re : ℂ) := by apply Complex.ext <;> simp [hi.2]
    conv_rhs => rw [h1', h2']
    simp

theorem zpkOne_gain (kps : ℝ) (p : ℂ) (z : List ℂ) (hz : z.length ≤ 1) (g : Sys ℂ)
    (hg : zpkOne kps p z = .ok g) (s : ℂ) (h1 : s - p ≠ 0) :
    Gain g s ((kps : ℂ) * (z.map fun z => s - z).prod / (s - p)) := by
  unfold zpkOne at hg
  split_ifs at hg with hi
  have hp : (p.re : ℂ) = p := by apply Complex.ext <;> simp [not_not.mp hi]
  match z, hz, hg with
  | [], _, hg =>
    dsimp only at hg
    rw [new1_eq, hp] at hg
    cases hg
    have := gain1 p kps 1 0 s h1
    convert this using 1
    simp
  | [z], _, hg =>
    dsimp only at hg
    split_ifs at hg with hzi
    have hz : (z.re : ℂ) = z := by apply Complex.ext <;> simp [not_not.mp hzi]
    rw [new1_eq] at hg
    cases hg
    have := gain1 p kps (p - z) kps s h1
    have e : sys1 p.re kps ((p.re - z.re : ℝ) : ℂ) kps = sys1 p kps (p - z) kps := by
      push_cast
      rw [hp, hz]
    rw [e]
    convert this using 1
    simp only [List.map_cons, List.map_nil, List.prod_cons, List.prod_nil]
    field_simp
    ring

/-- the loop: every block is a single input, single output system without a pole at `s`; the product of the
gains is the wanted value -/
theorem zpkLoop_gain (kps : ℝ) (p z : List ℂ) (hlen : z.length ≤ p.length) (hz : ZOk z) (hp : Separated p)
    (l : List (Sys ℂ)) (hl : zpkLoop kps p z = .ok l) (s : ℂ) (hs : ∀ q ∈ p, s - q ≠ 0) :
    ∃ v : List ℂ, List.Forall₂ (fun g v => Gain g s v) l v ∧
      v.prod = (kps : ℂ) ^ p.length * (z.map fun z => s - z).prod / (p.map fun p => s - p).prod ∧
      (p ≠ [] → l ≠ []) := by
  match p, hl with
  | [], hl =>
    cases hl
    have : z = [] := by simpa using hlen
    subst this
    exact ⟨[], List.Forall₂.nil, by simp, fun h => absurd rfl h⟩
  | [p], hl =>
    rw [zpkLoop, bind_ok] at hl
    obtain ⟨g, hg, hl⟩ := hl
    cases hl
    refine ⟨[_], List.Forall₂.cons (zpkOne_gain kps p z hlen g hg s (hs p (by simp))) List.Forall₂.nil, ?_,
      by simp⟩
    simp
  | p1 :: p2 :: p, hl =>
    rw [zpkLoop, bind_ok] at hl
    obtain ⟨g, hg, hl⟩ := hl
    rw [bind_ok] at hl
    obtain ⟨l', hl', hl⟩ := hl
    cases hl
    obtain ⟨v, h1, h2, -⟩ := zpkLoop_gain kps p (z.drop 2) (by simp at hlen ⊢; omega) hz.drop
      (fun a ha b hb => hp a (by simp [ha]) b (by simp [hb])) l' hl' s (fun q hq => hs q (by simp [hq]))
    refine ⟨_ :: v, List.Forall₂.cons (zpkTwo_gain kps p1 p2 z hz (hp p1 (by simp) p2 (by simp)) g hg s
      (hs p1 (by simp)) (hs p2 (by simp))) h1, ?_, by simp⟩
    rw [List.prod_cons, h2]
    have e : (z.map fun z => s - z).prod =
        ((z.take 2).map fun z => s - z).prod * ((z.drop 2).map fun z => s - z).prod := by
      conv_lhs => rw [← List.take_append_drop 2 z]
      rw [List.map_append, List.prod_append]
    rw [e]
    simp only [List.map_cons, List.prod_cons, List.length_cons]
    have hp1 := hs p1 (by simp)
    have hp2 := hs p2 (by simp)
    rw [div_mul_div_comm, pow_succ, pow_succ]
    congr 1 <;> ring
termination_by p.length

theorem cascade_gain (s : ℂ) (l : List (Sys ℂ)) (v : List ℂ) (h : List.Forall₂ (fun g v => Gain g s v) l v)
    (u y : ℕ → ℂ) (hc : Cascade l s u y) : y 0 = v.prod * u 0 := by
  induction h generalizing u with
  | nil => exact hc.elim
  | @cons g w l v hg hl ih =>
    cases l with
    | nil =>
      cases hl
      rw [hg.val u y hc]
      simp
    | cons g' l =>
      obtain ⟨x, h1, h2⟩ := hc
      rw [ih x h2, hg.val u x h1, List.prod_cons]
      ring

/-- outputs of a chain of systems with one output -/
theorem loop_p (N L : ℕ) (l : List (Sys ℂ)) (a a' : ChainAcc ℂ) (hp : a.p = 1) (hl : ∀ g ∈ l, g.Nt = 1)
    (h : chainLoop N L a l = .ok a') : a'.p = 1 := by
  induction l generalizing a with
  | nil =>
    cases h
    exact hp
  | cons g l ih =>
    rw [chainLoop] at h
    cases hs : chainStep N L a g with
    | error e => rw [hs] at h; cases h
    | ok b =>
      rw [hs] at h
      refine ih b ?_ (fun g' hg' => hl g' (by simp [hg'])) h
      rw [(chainStep_ok hs).2.2.1]
      exact hl g (by simp)

/-! ### the property -/

/-- **C26 (part that holds)** whenever `zpk2abcd` produces a (finite) result for poles and zeros on which its
tolerances are harmless, the state space has no pole where no given pole is, and its transfer function is exactly
`|k| ∏ (s - z) / ∏ (s - p)`: hence the requested one for `k ≥ 0`. -/
theorem C26_zpk2abcd_partial (sort : List ℂ → List ℂ) (hsort : Sorts sort) (z p : List ℂ) (k : ℝ)
    (hz : Separated z) (hzt : NotTiny z) (hp : Separated p) (q : ABCD ℂ)
    (h : zpk2abcd sort z p k = .ok q) (s : ℂ) (hs : ∀ r ∈ p, s ≠ r) :
    (s • (1 : Matrix (Fin q.sys.N) (Fin q.sys.N) ℂ) - toM q.sys.N q.sys.N q.sys.A).det ≠ 0 ∧
    q.sys.tfm s = Matrix.of fun (_ : Fin 1) (_ : Fin 1) => zpkValue z p (|k| : ℝ) s := by
  unfold zpk2abcd at h
  split_ifs at h with hlen
  rw [not_or, not_lt, not_lt] at hlen
  simp only [bind_ok] at h
  obtain ⟨p', hp', z', hz', l, hl, g, hg, h⟩ := h
  cases h
  unfold sortByComplex at hp' hz'
  dsimp only at hp' hz'
  split_ifs at hp' hz' with hpp hzp
  cases hp'
  cases hz'
  obtain ⟨permp, sortp⟩ := hsort p
  obtain ⟨permz, sortz⟩ := hsort z
  have hzok : ZOk (sort z) := ⟨sortz, hzp, fun a ha b hb => hz a (permz.mem_iff.mp ha) b (permz.mem_iff.mp hb),
    fun a ha => hzt a (permz.mem_iff.mp ha)⟩
  obtain ⟨v, hv, hprod, hne⟩ := zpkLoop_gain _ (sort p) (sort z)
    (by rw [permp.length_eq, permz.length_eq]; exact hlen.1) hzok
    (fun a ha b hb => hp a (permp.mem_iff.mp ha) b (permp.mem_iff.mp hb)) l hl s
    (fun r hr => sub_ne_zero.mpr (hs r (permp.mem_iff.mp hr)))
  have hk : (((|k| ^ ((p.length : ℝ)⁻¹) : ℝ)) : ℂ) ^ p.length = |k| := by
    have : (|k| ^ ((p.length : ℝ)⁻¹)) ^ p.length = |k| :=
      Real.rpow_inv_natCast_pow (abs_nonneg k) (by omega)
    rw [← ofReal_pow, this]
  have hval : v.prod = zpkValue z p (|k| : ℝ) s := by
    rw [hprod, permp.length_eq, hk, zpkValue, (permz.map _).prod_eq, (permp.map _).prod_eq]
  have hgain : ∀ f ∈ l, ∃ w, Gain f s w := by
    intro f hf
    obtain ⟨i, hi, rfl⟩ := List.getElem_of_mem hf
    exact ⟨_, hv.get hi (by rw [← hv.length_eq]; exact hi)⟩
  have hdet : ∀ f ∈ l, (s • (1 : Matrix (Fin f.N) (Fin f.N) ℂ) - toM f.N f.N f.A).det ≠ 0 := by
    intro f hf
    obtain ⟨w, hw⟩ := hgain f hf
    exact (regular_iff_det _ _ _).mp hw.reg
  have hgdet := (C22_transfer_function_partial _ _ hg s hdet).1
  have hreg := (regular_iff_det _ _ _).mpr hgdet
  have hregS : Regular (toABCD g).sys.N (toABCD g).sys.A s := hreg
  refine ⟨hgdet, siso_tfm _ s _ hregS ?_⟩
  intro y hy
  obtain ⟨f, t, a, rfl, hloop, hN, hL, hNt, -⟩ := chain_ok_data _ _ hg
  have hgL : g.L = 1 := by
    obtain ⟨w, hw⟩ := hgain f (by simp)
    rw [hL, hw.hL]
  have hgNt : g.Nt = 1 := by
    rw [hNt]
    refine loop_p _ _ _ _ _ ?_ (fun f' hf' => ?_) hloop
    · obtain ⟨w, hw⟩ := hgain f (by simp)
      exact hw.hNt
    · obtain ⟨w, hw⟩ := hgain f' hf'
      exact hw.hNt
  have hyg : Transfers g s (fun _ => 1) y := by
    obtain ⟨x, h1, h2⟩ := hy
    refine ⟨x, ?_, ?_⟩
    · rw [hgL]; exact h1
    · rw [hgL, hgNt]; exact h2
  have := cascade_gain s _ v hv _ _ ((C22_chain_partial _ _ hg s _ _).mp hyg)
  rw [this, hval, mul_one]

theorem sort_ok (sort : List ℂ → List ℂ) (l l' : List ℂ) (e : sort l = l')
    (h : conjPairs (l'.filter fun z => z.im ≠ 0)) : sortByComplex sort l = .ok l' := by
  subst e
  unfold sortByComplex
  dsimp only
  rw [if_pos]
  convert h

/-- an accepted single-block chain -/
theorem chain_single (g : Sys ℂ) (h1 : g.L = 1) (h2 : g.Nt = 1) : ∃ S, chain [g] = .ok S :=
  (C22_accepts [g]).1.mpr ⟨g, rfl, by rw [h1, h2], List.isChain_singleton _⟩

/-- **C26 is false for negative gains**: one pole at `-1`, gain `-1`: the result has gain `+1` at `s = 0`
instead of `-1`. -/
theorem C26_negative_gain_false (sort : List ℂ → List ℂ) (hsort : Sorts sort) :
    ∃ q, zpk2abcd sort [] [-1] (-1) = .ok q ∧
      q.sys.tfm 0 ≠ Matrix.of fun (_ : Fin 1) (_ : Fin 1) => zpkValue [] [-1] (-1) 0 := by
  have e1 : sort [-1] = [-1] := by
    have := (hsort [-1]).1
    rwa [List.perm_singleton] at this
  have e0 : sort [] = [] := (hsort []).1.eq_nil
  obtain ⟨S, hS⟩ := chain_single (sys1 (-1) 1 1 0) rfl rfl
  have hok : zpk2abcd sort [] [-1] (-1) = .ok (toABCD S) := by
    unfold zpk2abcd
    rw [if_neg (by simp)]
    rw [sort_ok sort _ _ e1 (by simp [conjPairs]), sort_ok sort _ _ e0 (by simp [conjPairs])]
    have hl : zpkLoop (|(-1 : ℝ)| ^ (([-1] : List ℂ).length : ℝ)⁻¹) [-1] [] =
        .ok [sys1 (-1) 1 1 0] := by
      rw [zpkLoop]
      unfold zpkOne
      rw [if_neg (by simp)]
      dsimp only
      rw [new1_eq]
      simp [bind, Except.bind]
    simp only [bind, Except.bind]
    rw [hl]
    dsimp only
    rw [hS]
  refine ⟨toABCD S, hok, ?_⟩
  have := (C26_zpk2abcd_partial sort hsort [] [-1] (-1) (by intro a ha; simp at ha)
    (by intro a ha; simp at ha) (by intro a ha b hb _; simp at ha hb; simp [ha, hb]) _ hok 0
    (by simp)).2
  rw [this]
  intro h
  have := congrFun (congrFun h (0 : Fin 1)) (0 : Fin 1)
  simp [zpkValue] at this
  norm_num at this

/-- **C26 is false for a repeated real pole**: no finite realisation is produced. -/
theorem C26_repeated_pole_false (sort : List ℂ → List ℂ) (hsort : Sorts sort) :
    zpk2abcd sort [] [-1, -1] 1 = .error .zeroDivision := by
  have e1 : sort [-1, -1] = [-1, -1] := by
    have := (hsort [-1, -1]).1
    exact (List.perm_replicate (n := 2) (a := (-1 : ℂ))).mp this
  have e0 : sort [] = [] := (hsort []).1.eq_nil
  unfold zpk2abcd
  rw [if_neg (by simp)]
  rw [sort_ok sort _ _ e1 (by simp [conjPairs]), sort_ok sort _ _ e0 (by simp [conjPairs])]
  have hl : ∀ kps, zpkLoop kps [-1, -1] [] = .error .zeroDivision := by
    intro kps
    rw [zpkLoop]
    unfold zpkTwo
    rw [if_pos (by unfold closeC; simp; norm_num)]
    unfold zpkZeros
    rw [if_pos (by simp)]
    rfl
  simp only [bind, Except.bind]
  rw [hl]

/-- `C26_zpk2abcd_partial`: the hypotheses of the partial theorem hold for a conjugate pole pair and one real zero -/
example : Separated [-1 + I, -1 - I] ∧ NotTiny [(2 : ℂ)] ∧ Separated [(2 : ℂ)] := by
  refine ⟨?_, ?_, ?_⟩
  · intro a ha b hb h
    simp only [List.mem_cons, List.not_mem_nil, or_false] at ha hb
    have big : ∀ w : ℂ, ‖w‖ ≤ 1 + 1 → ¬ closeC (starRingEnd ℂ w) w ∨ w.im = 0 ∨ ‖2 * w.im‖ ≤ 1e-1 := by
      intro w hw
      by_contra hcon
      rw [not_or, not_or, not_not] at hcon
      obtain ⟨h1, h2, h3⟩ := hcon
      unfold closeC at h1
      have : ‖(2 * w.im : ℝ)‖ ≤ ‖starRingEnd ℂ w - w‖ := by
        have := abs_im_le_norm (starRingEnd ℂ w - w)
        simp only [sub_im, conj_im] at this
        rw [Real.norm_eq_abs, ← abs_neg]
        convert this using 2
        ring
      norm_num at h1 h3 this hw
      linarith
    have hn : ∀ w : ℂ, w = -1 + I ∨ w = -1 - I → ‖w‖ ≤ 1 + 1 := by
      intro w hw
      rcases hw with rfl | rfl
      · exact (norm_add_le _ _).trans (by simp)
      · exact (norm_sub_le _ _).trans (by simp)
    rcases ha with rfl | rfl <;> rcases hb with rfl | rfl
    · have := big _ (hn (-1 - I) (Or.inr rfl))
      simp at this h
      rw [← sub_eq_add_neg] at h
      rcases this with h' | h'
      · exact absurd h h'
      · norm_num at h'
    · simp
    · simp; ring
    · have := big _ (hn (-1 + I) (Or.inl rfl))
      simp at this h
      rw [← sub_eq_add_neg] at this
      rcases this with h' | h'
      · exact absurd h h'
      · norm_num at h'
  · intro a ha
    simp at ha
    simp [ha]
  · intro a ha b hb _
    simp at ha hb
    rw [ha, hb]
    exact (map_ofNat (starRingEnd ℂ) 2).symm

end Cbadc.Analog
