import Mathlib.Tactic.FieldSimp
import Mathlib.Tactic.Positivity
import Mathlib.Tactic.NormNum
import Mathlib.Algebra.Order.Ring.Rat
import Verif.Lemmas.Spectrum

/-! # Properties of the spectrum utilities and of the CSV reader -/

namespace Cbadc.Spectrum

open Spec

section peaks

variable {K : Type*} [CommRing K] [LinearOrder K]

/-- C45: whatever the arguments, a returned index set is strictly increasing and inside the spectrum. -/
theorem C45_range (size : ℕ) (f : ℕ → K) (n width : ℤ) (dist : Option ℤ) (l : List ℤ)
    (h : findN size f n width dist = .ok l) : l.Pairwise (· < ·) ∧ ∀ z ∈ l, 0 ≤ z ∧ z < size := by
  unfold findN at h
  split at h
  · cases h
  · next m hm =>
    cases h
    refine ⟨pairwise_unique m, fun z hz => ?_⟩
    rw [mem_unique] at hz
    exact findLoop_range size width _ _ f [] m (fun z hz => absurd hz List.not_mem_nil) hm z hz

/-- C45: the search returns exactly the windows (of half the mask width on either side, cut off at the ends) around `n`
peaks, each of which is the first largest entry of the spectrum left over by the ranges removed around the earlier ones. -/
theorem C45_windows (size : ℕ) (hs : 0 < size) (f : ℕ → K) (n width : ℤ) (dist : Option ℤ) (hw : 1 ≤ width)
    (hd : ∀ d, dist = some d → 0 ≤ d) :
    ∃ ps l, ps.length = n.toNat ∧ findN size f n width dist = .ok l ∧
      PeakSeq size f width (dist.getD (width / 2)) ps ∧
      ∀ z, z ∈ l ↔ (0 ≤ z ∧ z < size) ∧ ∃ p ∈ ps, (p : ℤ) - width / 2 ≤ z ∧ z < p + width / 2 := by
  have hd' : 0 ≤ dist.getD (width / 2) := by
    cases dist with
    | none => rw [Option.getD_none]; omega
    | some d => exact hd d rfl
  obtain ⟨ps, l, h1, -, h3, h4, h5⟩ := findLoop_spec size hs f width (dist.getD (width / 2)) hw hd' n.toNat [] f []
    (by intro k p hp; cases hp)
    (by rintro i - ⟨p, hp, -⟩; cases hp)
    (fun _ _ => rfl)
    (by
      intro z
      constructor
      · intro hz; cases hz
      · rintro ⟨-, p, hp, -⟩; cases hp)
  refine ⟨ps, unique l, by simpa using h1, ?_, h4, fun z => by rw [mem_unique, h5]⟩
  unfold findN
  rw [h3]

/-- C45: with at least one tone and a mask at least two wide, an index of largest magnitude is returned. -/
theorem C45_peak (size : ℕ) (hs : 0 < size) (f : ℕ → K) (n width : ℤ) (dist : Option ℤ) (hw : 2 ≤ width) (hn : 1 ≤ n)
    (hd : ∀ d, dist = some d → 0 ≤ d) :
    ∃ (l : List ℤ) (p : ℕ), findN size f n width dist = .ok l ∧ p < size ∧ (p : ℤ) ∈ l ∧
      (∀ i < size, |f i| ≤ |f p|) ∧ ∀ i < p, |f i| < |f p| := by
  obtain ⟨ps, l, h1, h2, h3, h4⟩ := C45_windows size hs f n width dist (by omega) hd
  cases ps with
  | nil => rw [List.length_nil] at h1; omega
  | cons p r =>
    obtain ⟨left, -, hl2, hp, hmax⟩ := h3 0 p rfl
    have e : ∀ i, left i = f i := fun i => hl2 i (by rintro ⟨q, hq, -⟩; cases hq)
    refine ⟨l, p, h2, hp, (h4 p).2 ⟨⟨by omega, by omega⟩, p, List.mem_cons_self, by omega, by omega⟩, ?_, ?_⟩
    · intro i hi
      rw [← e i, ← e p]
      exact (hmax i hi).1
    · intro i hi
      rw [← e i, ← e p]
      exact (hmax i (by omega)).2 hi

/-- C45: a later peak lies outside the ranges removed for the earlier ones, unless nothing is left. -/
theorem C45_separated [IsOrderedRing K] (size : ℕ) (f : ℕ → K) (width dist : ℤ) (ps : List ℕ)
    (h : PeakSeq size f width dist ps) (j k p q : ℕ) (hjk : j < k) (hp : ps[j]? = some p) (hq : ps[k]? = some q) :
    ((q : ℤ) < p - dist ∨ (p : ℤ) + width ≤ q) ∨
      ∀ i < size, ¬ Removed width dist (ps.take k) i → f i = 0 := by
  by_cases hin : (p : ℤ) - dist ≤ q ∧ (q : ℤ) < p + width
  · right
    obtain ⟨left, h1, h2, -, h4⟩ := h k q hq
    have hR : Removed width dist (ps.take k) q := by
      refine ⟨p, ?_, hin⟩
      apply List.mem_of_getElem? (i := j)
      rw [List.getElem?_take, if_pos hjk, hp]
    intro i hi hi2
    have h5 := (h4 i hi).1
    rw [h1 q hR, abs_zero, h2 i hi2] at h5
    exact abs_eq_zero.1 (le_antisymm h5 (abs_nonneg _))
  · left
    omega

/-- C45: the search for one tone is the window around the first largest entry. -/
theorem C45_single (size : ℕ) (hs : 0 < size) (f : ℕ → K) (width : ℤ) (hw : 1 ≤ width) :
    ∃ (l : List ℤ) (p : ℕ), findOne size f width = .ok l ∧ l.Pairwise (· < ·) ∧ p < size ∧
      (∀ i < size, |f i| ≤ |f p|) ∧ (∀ i < p, |f i| < |f p|) ∧
      ∀ z, z ∈ l ↔ (0 ≤ z ∧ z < size) ∧ (p : ℤ) - width / 2 ≤ z ∧ z < p + width / 2 := by
  obtain ⟨ps, l, h1, h2, h3, h4⟩ := C45_windows size hs f 1 width none hw (by intro d hd; cases hd)
  obtain ⟨p, rfl⟩ : ∃ p, ps = [p] := List.length_eq_one_iff.1 h1
  obtain ⟨left, -, hl2, hp, hmax⟩ := h3 0 p rfl
  have e : ∀ i, left i = f i := fun i => hl2 i (by rintro ⟨q, hq, -⟩; cases hq)
  refine ⟨l, p, ?_, (C45_range _ _ _ _ _ _ h2).1, hp, ?_, ?_, ?_⟩
  · unfold findOne
    rw [h2]
  · intro i hi
    rw [← e i, ← e p]
    exact (hmax i hi).1
  · intro i hi
    rw [← e i, ← e p]
    exact (hmax i (by omega)).2 hi
  · intro z
    rw [h4]
    simp only [List.mem_singleton, exists_eq_left]

/-- C45: an empty spectrum raises `ValueError` as soon as one tone is asked for; the fallback `[0]` of `find_sinusoidal`
is never taken. -/
theorem C45_empty (f : ℕ → K) (n width : ℤ) (dist : Option ℤ) (hn : 1 ≤ n) :
    findN 0 f n width dist = .error .valueError ∧ findOne 0 f width = .error .valueError := by
  obtain ⟨k, hk⟩ : ∃ k, n.toNat = k + 1 := ⟨n.toNat - 1, by omega⟩
  constructor
  · unfold findN
    rw [hk]
    rfl
  · rfl

end peaks

/-- a spectrum with two tones, the smaller one beside a skirt of the larger one -/
def exSpec : ℕ → ℚ := fun i => ([0, 1, 9, -8, 1, 0, 5, 1] : List ℚ).getD i 0

example : findN 8 exSpec 2 2 none = .ok [1, 2, 5, 6] := by decide +kernel
example : findN 8 exSpec 2 4 (some 1) = .ok [0, 1, 2, 3, 4, 5, 6, 7] := by decide +kernel
example : findOne 8 exSpec 4 = .ok [0, 1, 2, 3] := by decide +kernel
example : findOne 8 exSpec 1 = .ok [] := by decide +kernel

/-! ## SNR figures -/

/-- positive powers exist -/
def exPow : ℕ → ℝ := fun i => if i = 0 then 1 else if i = 1 then 4 else 1

theorem exPow_signal : power 3 exPow [1] = .ok 4 := by simp [power, at1, exPow]
theorem exPow_noise : power 3 exPow [2] = .ok 1 := by simp [power, at1, exPow]
theorem exPow_dc : power 3 exPow [0] = .ok 1 := by simp [power, at1, exPow]

/-- C77: the powers are the sums of the spectrum over the bins of a mask, each as often as it is listed, where negative
bins count from the end; a bin outside of the spectrum raises `IndexError`. -/
theorem C77_power (size : ℕ) (f : ℕ → ℝ) (m : List ℤ) :
    ((∀ i ∈ m, -(size : ℤ) ≤ i ∧ i < size) → power size f m = .ok (m.map fun i : ℤ => f (i % (size : ℤ)).toNat).sum) ∧
    ((∃ i ∈ m, i < -(size : ℤ) ∨ (size : ℤ) ≤ i) → power size f m = .error .indexError) := by
  have hin : ∀ i : ℤ, -(size : ℤ) ≤ i → i < size → at1 size f i = .ok (f (i % (size : ℤ)).toNat) := by
    intro i h1 h2
    unfold at1
    by_cases h0 : 0 ≤ i
    · rw [if_pos ⟨h0, h2⟩, Int.emod_eq_of_lt h0 h2]
    · rw [if_neg (fun h => h0 h.1), if_pos ⟨h1, by omega⟩]
      have : i % (size : ℤ) = i + size := by
        rw [← Int.add_emod_right, Int.emod_eq_of_lt (by omega) (by omega)]
      rw [this]
  have hex : ∀ i : ℤ, i < -(size : ℤ) ∨ (size : ℤ) ≤ i → at1 size f i = .error .indexError := by
    intro i h
    unfold at1
    rw [if_neg (by omega), if_neg (by omega)]
  induction m with
  | nil => exact ⟨fun _ => rfl, fun ⟨i, hi, _⟩ => absurd hi List.not_mem_nil⟩
  | cons i r ih =>
    constructor
    · intro h
      obtain ⟨h1, h2⟩ := h i List.mem_cons_self
      rw [power, hin i h1 h2, ih.1 fun j hj => h j (List.mem_cons_of_mem _ hj)]
      rfl
    · rintro ⟨j, hj, h⟩
      by_cases hi : i < -(size : ℤ) ∨ (size : ℤ) ≤ i
      · rw [power, hex i hi]
      · rcases List.mem_cons.mp hj with rfl | hj
        · exact absurd h hi
        · rw [power, hin i (by omega) (by omega), ih.2 ⟨j, hj, h⟩]

/-- A bin from the front, the same from the end twice, and one outside. -/
example : power 3 exPow [1, -2, -2] = .ok 12 ∧ power 3 exPow [1, 3] = .error .indexError := by
  constructor
  · rw [(C77_power 3 exPow [1, -2, -2]).1 (by decide)]
    simp only [List.map_cons, List.map_nil, List.sum_cons, List.sum_nil, exPow]
    norm_num
  · exact (C77_power 3 exPow [1, 3]).2 ⟨3, by decide, by decide⟩

/-- The figures in terms of the three powers. -/
theorem snrExtended_ok {size : ℕ} {f : ℕ → ℝ} {sm nm : List ℤ} {hm : Option (List ℤ)} {s n h : ℝ}
    (hs : power size f sm = .ok s) (hn : power size f nm = .ok n) (hh : power size f (hm.getD [0]) = .ok h) :
    snrExtended size f sm nm hm =
      .ok ⟨s / n, (s + n + h) / (n + h), Real.sqrt (h / s), Real.sqrt ((h + n) / s)⟩ := by
  unfold snrExtended
  rw [hn, hs, hh]

/-- C77: for positive signal and noise power and nonnegative harmonic power the reported figures fit together: both
functions report the same SNR; thd_n² = thd² + 1/snr; sinad = 1 + 1/thd_n²; sinad - 1 never exceeds the SNR and equals it
exactly when there is no harmonic power. -/
theorem C77_consistent (size : ℕ) (f : ℕ → ℝ) (sm nm : List ℤ) (hm : Option (List ℤ)) (s n h : ℝ)
    (hs : power size f sm = .ok s) (hn : power size f nm = .ok n) (hh : power size f (hm.getD [0]) = .ok h)
    (s0 : 0 < s) (n0 : 0 < n) (h0 : 0 ≤ h) :
    ∃ r, snrExtended size f sm nm hm = .ok r ∧ snr size f sm nm = .ok (some r.snr) ∧
      r.thdN ^ 2 = r.thd ^ 2 + 1 / r.snr ∧ r.sinad = 1 + 1 / r.thdN ^ 2 ∧ r.thd < r.thdN ∧
      r.sinad - 1 ≤ r.snr ∧ (r.sinad - 1 = r.snr ↔ h = 0) ∧ (r.thd = 0 ↔ h = 0) := by
  refine ⟨_, snrExtended_ok hs hn hh, ?_, ?_, ?_, ?_, ?_, ?_, ?_⟩
  · unfold snr
    rw [hn, hs]
    dsimp only
    rw [if_pos n0]
  · dsimp only
    rw [Real.sq_sqrt (by positivity), Real.sq_sqrt (by positivity)]
    field_simp
  · dsimp only
    rw [Real.sq_sqrt (by positivity)]
    field_simp
    ring
  · dsimp only
    apply Real.sqrt_lt_sqrt (by positivity)
    rw [div_lt_div_iff_of_pos_right s0]
    linarith
  · dsimp only
    have e : (s + n + h) / (n + h) - 1 = s / (n + h) := by field_simp; ring
    rw [e]
    exact div_le_div_of_nonneg_left s0.le n0 (by linarith)
  · dsimp only
    have e : (s + n + h) / (n + h) - 1 = s / (n + h) := by field_simp; ring
    rw [e]
    constructor
    · intro he
      rw [div_eq_div_iff (by positivity) (by positivity)] at he
      have := mul_left_cancel₀ s0.ne' he
      linarith
    · rintro rfl
      rw [add_zero]
  · dsimp only
    rw [Real.sqrt_eq_zero (by positivity), div_eq_zero_iff]
    constructor
    · rintro (h | h)
      · exact h
      · exact absurd h s0.ne'
    · exact Or.inl

example : ∃ r, snrExtended 3 exPow [1] [2] none = .ok r ∧ snr 3 exPow [1] [2] = .ok (some r.snr) := by
  obtain ⟨r, h1, h2, -⟩ := C77_consistent 3 exPow [1] [2] none 4 1 1 exPow_signal exPow_noise exPow_dc
    (by norm_num) (by norm_num) (by norm_num)
  exact ⟨r, h1, h2⟩

theorem power_scale (size : ℕ) (f : ℕ → ℝ) (c : ℝ) (m : List ℤ) (s : ℝ) (h : power size f m = .ok s) :
    power size (fun i => c * f i) m = .ok (c * s) := by
  induction m generalizing s with
  | nil => cases h; simp [power]
  | cons i r ih =>
    rw [power] at h ⊢
    have e : ∀ x, at1 size f i = .ok x → at1 size (fun i => c * f i) i = .ok (c * x) := by
      intro x hx
      unfold at1 at hx ⊢
      split_ifs at hx ⊢
      · cases hx; rfl
      · cases hx; rfl
    split at h
    · cases h
    · next x hx =>
      split at h
      · cases h
      · next t ht =>
        cases h
        rw [e x hx, ih t ht]
        dsimp only
        rw [mul_add]

/-- C77: scaling the whole spectrum by a positive factor changes none of the ratios. -/
theorem C77_scale (size : ℕ) (f : ℕ → ℝ) (c : ℝ) (hc : 0 < c) (sm nm : List ℤ) (hm : Option (List ℤ)) (r : Figures)
    (h : snrExtended size f sm nm hm = .ok r) : snrExtended size (fun i => c * f i) sm nm hm = .ok r := by
  unfold snrExtended at h
  split at h
  · cases h
  · next n hn =>
    split at h
    · cases h
    · next s hs =>
      split at h
      · cases h
      · next x hx =>
        cases h
        rw [snrExtended_ok (power_scale _ _ c _ _ hs) (power_scale _ _ c _ _ hn) (power_scale _ _ c _ _ hx)]
        have e : ∀ a b : ℝ, (c * a) / (c * b) = a / b := fun a b => mul_div_mul_left a b hc.ne'
        rw [← mul_add, ← mul_add, ← mul_add, ← mul_add, e, e, e, e]

example : ∃ r, snrExtended 3 (fun i => 7 * exPow i) [1] [2] none = .ok r := by
  exact ⟨_, C77_scale 3 exPow 7 (by norm_num) [1] [2] none _ (snrExtended_ok exPow_signal exPow_noise exPow_dc)⟩

/-- C77: without noise power the simple function reports infinity, whatever the signal. -/
theorem C77_no_noise (size : ℕ) (f : ℕ → ℝ) (sm nm : List ℤ) (s n : ℝ) (hs : power size f sm = .ok s)
    (hn : power size f nm = .ok n) (n0 : n ≤ 0) : snr size f sm nm = .ok none := by
  unfold snr
  rw [hn, hs]
  dsimp only
  rw [if_neg (not_lt.2 n0)]

example : snr 3 exPow [1] [] = .ok none := C77_no_noise 3 exPow [1] [] 4 0 exPow_signal rfl le_rfl

/-- C77 is false for the default argument: with no harmonics given the DC bin is counted as a harmonic. -/
theorem C77_default_false :
    ¬ ∀ (size : ℕ) (f : ℕ → ℝ) (sm nm : List ℤ) (r : Figures), snrExtended size f sm nm none = .ok r →
      (∀ z, z ∈ sm ∨ z ∈ nm → 0 < z) → r.thd = 0 := by
  intro h
  have h1 := h 3 exPow [1] [2] _ (snrExtended_ok exPow_signal exPow_noise exPow_dc) (by
    intro z hz
    simp only [List.mem_singleton] at hz
    omega)
  dsimp only at h1
  rw [Real.sqrt_eq_zero (by norm_num)] at h1
  norm_num at h1

/-! ## The CSV reader -/

section csv

variable {Line : Type*}

/-- C78: the reader delivers the lines in order up to the first one with a wrong number of entries.  If there is none it
ends with the file, otherwise it raises `RuntimeError` there and reads nothing behind it. -/
theorem C78_reader (parse : Line → List ℤ) (M : ℕ) (b : Bool) (good : List Line) (hg : ∀ l ∈ good, (parse l).length = M) :
    csvReader parse M b good = ⟨good.map fun l => if b then (parse l).reverse else parse l, .stopIteration⟩ ∧
      ∀ (bad : Line) (rest : List Line), (parse bad).length ≠ M →
        csvReader parse M b (good ++ bad :: rest) =
          ⟨good.map fun l => if b then (parse l).reverse else parse l, .runtimeError⟩ := by
  induction good with
  | nil =>
    refine ⟨rfl, fun bad rest hb => ?_⟩
    rw [List.nil_append, csvReader]
    dsimp only
    rw [if_pos hb]
    rfl
  | cons l r ih =>
    obtain ⟨h1, h2⟩ := ih fun x hx => hg x (List.mem_cons_of_mem _ hx)
    have hl := hg l List.mem_cons_self
    constructor
    · rw [csvReader]
      dsimp only
      rw [if_neg (not_not.2 hl), h1]
      rfl
    · intro bad rest hb
      rw [List.cons_append, csvReader]
      dsimp only
      rw [if_neg (not_not.2 hl), h2 bad rest hb]
      rfl

/-- C78: a control sequence written with any invertible line format, least or most significant bit first, is read back. -/
theorem C78_round_trip (parse : Line → List ℤ) (print : List ℤ → Line) (M : ℕ) (b : Bool) (s : List (List ℤ))
    (hp : ∀ x, x.length = M → parse (print x) = x) (hs : ∀ x ∈ s, x.length = M) :
    csvReader parse M b (s.map fun x => print (if b then x.reverse else x)) = ⟨s, .stopIteration⟩ := by
  have e : ∀ x ∈ s, parse (print (if b then x.reverse else x)) = if b then x.reverse else x := by
    intro x hx
    apply hp
    cases b
    · exact hs x hx
    · exact List.length_reverse.trans (hs x hx)
  rw [(C78_reader parse M b _ ?_).1]
  · congr 1
    rw [List.map_map]
    conv_rhs => rw [← List.map_id s]
    apply List.map_congr_left
    intro x hx
    rw [Function.comp_apply, e x hx]
    cases b
    · rfl
    · exact List.reverse_reverse x
  · intro l hl
    rw [List.mem_map] at hl
    obtain ⟨x, hx, rfl⟩ := hl
    rw [e x hx]
    cases b
    · exact hs x hx
    · exact List.length_reverse.trans (hs x hx)

example : csvReader (fun l : List ℤ => l) 2 true [[0, 1], [1, 1], [5], [0, 0]] = ⟨[[1, 0], [1, 1]], .runtimeError⟩ := by
  decide +kernel
example : csvReader (fun l : List ℤ => l) 2 true [[0, 1], [1, 1]] = ⟨[[1, 0], [1, 1]], .stopIteration⟩ := by
  decide +kernel

end csv

/-- `C45_range`, `C45_peak`, `C45_single`, `C45_windows`: two windows of two bins in the spectrum above. -/
example : (∃ l p, findN 8 exSpec 2 2 none = .ok l ∧ p < 8 ∧ ((p : ℕ) : ℤ) ∈ l ∧ l.Pairwise (· < ·)) ∧
    (∃ l, findOne 8 exSpec 4 = .ok l) ∧ ∃ ps l, ps.length = 2 ∧ findN 8 exSpec 2 2 none = .ok l ∧
      PeakSeq 8 exSpec 2 1 ps := by
  refine ⟨?_, ?_, ?_⟩
  · obtain ⟨l, p, h1, h2, h3, -⟩ := C45_peak 8 (by decide) exSpec 2 2 none (by decide) (by decide) (by simp)
    exact ⟨l, p, h1, h2, h3, (C45_range 8 exSpec 2 2 none l h1).1⟩
  · obtain ⟨l, p, h, -⟩ := C45_single 8 (by decide) exSpec 4 (by decide)
    exact ⟨l, h⟩
  · obtain ⟨ps, l, h1, h2, h3, -⟩ := C45_windows 8 (by decide) exSpec 2 2 none (by decide) (by simp)
    exact ⟨ps, l, h1, h2, h3⟩

/-- `C45_separated`: the peaks at 2 and 6 are as far apart as asked, and what is left after the first is not all zero. -/
example (p q : ℕ) (h : PeakSeq 8 exSpec 2 1 [p, q]) : ((q : ℤ) < p - 1 ∨ (p : ℤ) + 2 ≤ q) ∨
    ∀ i < 8, ¬ Removed 2 1 [p] i → exSpec i = 0 :=
  C45_separated 8 exSpec 2 1 [p, q] h 0 1 p q one_pos rfl rfl

/-- `C78_reader`: two good lines, and a bad one after them. -/
example : csvReader (fun l : List ℤ => l) 2 false [[0, 1], [1, 1]] = ⟨[[0, 1], [1, 1]], .stopIteration⟩ ∧
    csvReader (fun l : List ℤ => l) 2 false ([[0, 1], [1, 1]] ++ [5] :: [[0, 0]]) = ⟨[[0, 1], [1, 1]], .runtimeError⟩ := by
  have h := C78_reader (fun l : List ℤ => l) 2 false [[0, 1], [1, 1]] (by simp)
  exact ⟨by simpa using h.1, by simpa using h.2 [5] [[0, 0]] (by simp)⟩


end Cbadc.Spectrum
