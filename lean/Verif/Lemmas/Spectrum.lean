import Mathlib.Data.List.Pairwise
import Mathlib.Algebra.Order.AbsoluteValue.Basic
import Mathlib.Tactic.Linarith
import Mathlib.Tactic.Ring
import Verif.Spec.Spectrum
import Verif.Model.Spectrum

/-! # Lemmas about the peak search -/

namespace Cbadc.Spectrum

open Spec

theorem mem_arange (a b z : ℤ) : z ∈ arange a b ↔ a ≤ z ∧ z < b := by
  unfold arange
  rw [List.mem_map]
  constructor
  · rintro ⟨k, hk, rfl⟩
    rw [List.mem_range] at hk
    omega
  · rintro ⟨h1, h2⟩
    exact ⟨(z - a).toNat, by rw [List.mem_range]; omega, by omega⟩

theorem mem_insertU (x z : ℤ) (l : List ℤ) : z ∈ insertU x l ↔ z = x ∨ z ∈ l := by
  induction l with
  | nil => simp [insertU]
  | cons y r ih =>
    rw [insertU]
    split_ifs with h1 h2
    · simp
    · subst h2; simp
    · rw [List.mem_cons, ih, List.mem_cons]; tauto

theorem pairwise_insertU (x : ℤ) (l : List ℤ) (h : l.Pairwise (· < ·)) : (insertU x l).Pairwise (· < ·) := by
  induction l with
  | nil => simp [insertU]
  | cons y r ih =>
    rw [List.pairwise_cons] at h
    rw [insertU]
    split_ifs with h1 h2
    · rw [List.pairwise_cons, List.pairwise_cons]
      refine ⟨?_, h⟩
      intro z hz
      rw [List.mem_cons] at hz
      rcases hz with rfl | hz
      · exact h1
      · exact h1.trans (h.1 z hz)
    · exact List.pairwise_cons.2 h
    · rw [List.pairwise_cons]
      refine ⟨?_, ih h.2⟩
      intro z hz
      rw [mem_insertU] at hz
      rcases hz with rfl | hz
      · omega
      · exact h.1 z hz

theorem mem_unique (z : ℤ) (l : List ℤ) : z ∈ unique l ↔ z ∈ l := by
  unfold unique
  induction l with
  | nil => simp
  | cons y r ih => rw [List.foldr_cons, mem_insertU, ih, List.mem_cons]

theorem pairwise_unique (l : List ℤ) : (unique l).Pairwise (· < ·) := by
  unfold unique
  induction l with
  | nil => simp
  | cons y r ih => rw [List.foldr_cons]; exact pairwise_insertU y _ ih

theorem clip_range (size : ℕ) (hs : 0 < size) (z : ℤ) : 0 ≤ clip size z ∧ clip size z < size := by
  unfold clip
  omega

/-- clipping a range around an inner index cuts it off -/
theorem mem_clip_arange (size p : ℕ) (hp : p < size) (a b : ℤ) (ha : a ≤ p) (hb : (p : ℤ) < b) (z : ℤ) :
    z ∈ (arange a b).map (clip size) ↔ (0 ≤ z ∧ z < size) ∧ a ≤ z ∧ z < b := by
  rw [List.mem_map]
  constructor
  · rintro ⟨y, hy, rfl⟩
    rw [mem_arange] at hy
    have := clip_range size (by omega) y
    unfold clip at *
    omega
  · rintro ⟨h1, h2⟩
    exact ⟨z, (mem_arange _ _ _).2 h2, by unfold clip; omega⟩

variable {K : Type*} [CommRing K] [LinearOrder K]

theorem argmaxUpTo_spec (f : ℕ → K) (k : ℕ) :
    argmaxUpTo f k ≤ k ∧ ∀ i ≤ k, |f i| ≤ |f (argmaxUpTo f k)| ∧ (i < argmaxUpTo f k → |f i| < |f (argmaxUpTo f k)|) := by
  induction k with
  | zero =>
    refine ⟨le_rfl, fun i hi => ?_⟩
    obtain rfl : i = 0 := by omega
    exact ⟨le_rfl, fun h => absurd h (lt_irrefl _)⟩
  | succ k ih =>
    obtain ⟨h1, h2⟩ := ih
    rw [argmaxUpTo]
    split_ifs with h
    · refine ⟨le_rfl, fun i hi => ?_⟩
      by_cases hik : i = k + 1
      · subst hik; exact ⟨le_rfl, fun h => absurd h (lt_irrefl _)⟩
      · have h3 := lt_of_le_of_lt (h2 i (by omega)).1 h
        exact ⟨h3.le, fun _ => h3⟩
    · refine ⟨by omega, fun i hi => ?_⟩
      by_cases hik : i = k + 1
      · subst hik; exact ⟨not_lt.1 h, fun hlt => by omega⟩
      · exact h2 i (by omega)

theorem argmax_spec (size : ℕ) (f : ℕ → K) (hs : 0 < size) :
    ∃ p, argmax size f = .ok p ∧ p < size ∧ ∀ i < size, |f i| ≤ |f p| ∧ (i < p → |f i| < |f p|) := by
  obtain ⟨k, rfl⟩ : ∃ k, size = k + 1 := ⟨size - 1, by omega⟩
  obtain ⟨h1, h2⟩ := argmaxUpTo_spec f k
  exact ⟨_, rfl, by omega, fun i hi => h2 i (by omega)⟩

/-- the loop only appends clipped indices -/
theorem findLoop_range (size : ℕ) (width dist : ℤ) (n : ℕ) :
    ∀ (r : ℕ → K) (acc l : List ℤ), (∀ z ∈ acc, 0 ≤ z ∧ z < size) → findLoop size width dist n r acc = .ok l →
      ∀ z ∈ l, 0 ≤ z ∧ z < size := by
  induction n with
  | zero =>
    intro r acc l ha h
    cases h
    exact ha
  | succ n ih =>
    intro r acc l ha h
    rw [findLoop] at h
    cases size with
    | zero => cases h
    | succ k =>
      refine ih _ _ l ?_ h
      intro z hz
      rw [List.mem_append] at hz
      rcases hz with hz | hz
      · exact ha z hz
      · rw [List.mem_map] at hz
        obtain ⟨y, -, rfl⟩ := hz
        exact clip_range _ (by omega) y

/-- the loop finds the peaks one after the other -/
theorem findLoop_spec (size : ℕ) (hs : 0 < size) (f : ℕ → K) (width dist : ℤ) (hw : 1 ≤ width) (hd : 0 ≤ dist) (n : ℕ) :
    ∀ (qs : List ℕ) (r : ℕ → K) (acc : List ℤ), PeakSeq size f width dist qs →
      (∀ i < size, Removed width dist qs i → r i = 0) → (∀ i, ¬ Removed width dist qs i → r i = f i) →
      (∀ z, z ∈ acc ↔ (0 ≤ z ∧ z < size) ∧ ∃ p ∈ qs, (p : ℤ) - width / 2 ≤ z ∧ z < p + width / 2) →
      ∃ ps l, ps.length = qs.length + n ∧ qs <+: ps ∧ findLoop size width dist n r acc = .ok l ∧
        PeakSeq size f width dist ps ∧
        (∀ z, z ∈ l ↔ (0 ≤ z ∧ z < size) ∧ ∃ p ∈ ps, (p : ℤ) - width / 2 ≤ z ∧ z < p + width / 2) := by
  induction n with
  | zero =>
    intro qs r acc hq _ _ ha
    exact ⟨qs, acc, rfl, List.prefix_rfl, rfl, hq, ha⟩
  | succ n ih =>
    intro qs r acc hq h0 h1 ha
    obtain ⟨p, hp1, hp2, hp3⟩ := argmax_spec size r hs
    classical
    have hpeak : IsPeak size f (Removed width dist qs) p := by
      refine ⟨fun i => if Removed width dist qs i then 0 else f i, fun i hi => if_pos hi, fun i hi => if_neg hi, hp2, ?_⟩
      have e : ∀ i < size, (if Removed width dist qs i then 0 else f i) = r i := by
        intro i hi
        by_cases hR : Removed width dist qs i
        · rw [if_pos hR, h0 i hi hR]
        · rw [if_neg hR, h1 i hR]
      intro i hi
      dsimp only
      rw [e i hi, e p hp2]
      exact hp3 i hi
    have hq' : PeakSeq size f width dist (qs ++ [p]) := by
      intro k x hx
      by_cases hk : k < qs.length
      · rw [List.getElem?_append_left hk] at hx
        rw [List.take_append_of_le_length (by omega)]
        exact hq k x hx
      · have hk2 : k = qs.length := by
          by_contra hne
          rw [List.getElem?_eq_none (by simp; omega)] at hx
          cases hx
        subst hk2
        rw [List.getElem?_concat_length] at hx
        cases hx
        rw [List.take_left]
        exact hpeak
    have hrem : ∀ i, Removed width dist (qs ++ [p]) i ↔
        (Removed width dist qs i ∨ ((p : ℤ) - dist ≤ i ∧ (i : ℤ) < p + width)) := by
      intro i
      unfold Removed
      simp only [List.mem_append, List.mem_singleton]
      constructor
      · rintro ⟨x, hx | rfl, hx2⟩
        · exact Or.inl ⟨x, hx, hx2⟩
        · exact Or.inr hx2
      · rintro (⟨x, hx, hx2⟩ | hx2)
        · exact ⟨x, Or.inl hx, hx2⟩
        · exact ⟨p, Or.inr rfl, hx2⟩
    have hz : ∀ i : ℕ, zeroAt ((arange (p - dist) (p + width)).map (clip size)) r i =
        if (i < size) ∧ ((p : ℤ) - dist ≤ i ∧ (i : ℤ) < p + width) then 0 else r i := by
      intro i
      unfold zeroAt
      have := mem_clip_arange size p hp2 (p - dist) (p + width) (by omega) (by omega) i
      by_cases hc : (i < size) ∧ ((p : ℤ) - dist ≤ i ∧ (i : ℤ) < p + width)
      · rw [if_pos hc, if_pos (this.2 ⟨by omega, hc.2⟩)]
      · rw [if_neg hc, if_neg]
        intro hm
        have h2 := this.1 hm
        exact hc ⟨by omega, h2.2⟩
    obtain ⟨ps, l, g1, g2, g3, g4, g5⟩ := ih (qs ++ [p])
      (zeroAt ((arange (p - dist) (p + width)).map (clip size)) r)
      (acc ++ (arange (p - width / 2) (p + width / 2)).map (clip size)) hq'
      (by
        intro i hi hR
        rw [hz]
        rcases (hrem i).1 hR with hR | hR
        · split_ifs
          · rfl
          · exact h0 i hi hR
        · rw [if_pos ⟨hi, hR⟩])
      (by
        intro i hR
        rw [hrem] at hR
        push Not at hR
        rw [hz, if_neg (by intro hc; exact absurd hc.2.2 (not_lt.2 (hR.2 hc.2.1)))]
        exact h1 i hR.1)
      (by
        intro z
        rw [List.mem_append, ha]
        by_cases hw2 : 1 ≤ width / 2
        · rw [mem_clip_arange size p hp2 _ _ (by omega) (by omega)]
          simp only [List.mem_append, List.mem_singleton]
          constructor
          · rintro (⟨h1, x, hx, hx2⟩ | ⟨h1, hx2⟩)
            · exact ⟨h1, x, Or.inl hx, hx2⟩
            · exact ⟨h1, p, Or.inr rfl, hx2⟩
          · rintro ⟨h1, x, hx | rfl, hx2⟩
            · exact Or.inl ⟨h1, x, hx, hx2⟩
            · exact Or.inr ⟨h1, hx2⟩
        · have hemp : arange (p - width / 2) (p + width / 2) = [] := by
            unfold arange
            have : ((p : ℤ) + width / 2 - (p - width / 2)).toNat = 0 := by omega
            rw [this]
            rfl
          rw [hemp]
          simp only [List.map_nil, List.not_mem_nil, or_false, List.mem_append, List.mem_singleton]
          constructor
          · rintro ⟨h1, x, hx, hx2⟩
            exact ⟨h1, x, Or.inl hx, hx2⟩
          · rintro ⟨h1, x, hx | rfl, hx2⟩
            · exact ⟨h1, x, hx, hx2⟩
            · omega)
    refine ⟨ps, l, by rw [g1, List.length_append, List.length_singleton]; omega, ?_, ?_, g4, g5⟩
    · exact (List.prefix_append qs [p]).trans g2
    · rw [findLoop, hp1]
      exact g3

end Cbadc.Spectrum
