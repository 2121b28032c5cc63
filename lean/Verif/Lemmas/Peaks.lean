import Mathlib.Data.Fintype.Card
import Mathlib.Algebra.Order.Ring.Abs
import Mathlib.Data.Real.Basic
import Verif.Spec.Spectrum

/-!
# The peaks of a mixture of tones
-/

namespace Cbadc.Spectrum

open Spec

variable {ι : Type*} [Fintype ι]

/-- If all that is not zero is near a tone and smaller than it, the tones are the peaks. -/
theorem peaks_of_tones {f : ℕ → ℝ} {N : ℕ} {m : ι → ℕ} {width : ℤ} (hw : 6 ≤ width) (hN : ∀ i, m i < N)
    (hsep : ∀ i l, i ≠ l → (m i : ℤ) + width + 2 ≤ m l ∨ (m l : ℤ) + width + 2 ≤ m i) (h1 : ∀ i, f (m i) ≠ 0)
    (h2 : ∀ q < N, f q ≠ 0 → ∃ i, |(q : ℤ) - m i| ≤ 2 ∧ (q ≠ m i → |f q| < |f (m i)|)) {ps : List ℕ}
    (hp : PeakSeq N f width (width / 2) ps) (hlen : ps.length = Fintype.card ι) : ∀ p, p ∈ ps ↔ ∃ i, p = m i := by
  classical
  have hinj : Function.Injective m := by
    intro i l h
    by_contra hne
    have := hsep i l hne
    omega
  have hcover : ∀ L : List ℕ, L.Nodup → (∀ i, m i ∈ L) → Fintype.card ι ≤ L.length := by
    intro L _ h
    calc Fintype.card ι = (Finset.univ.image m).card := by rw [Finset.card_image_of_injective _ hinj, Finset.card_univ]
      _ ≤ L.toFinset.card := Finset.card_le_card fun p hp => by
          obtain ⟨i, -, rfl⟩ := Finset.mem_image.1 hp
          exact List.mem_toFinset.2 (h i)
      _ ≤ L.length := List.toFinset_card_le L
  have key : ∀ k ≤ Fintype.card ι, (ps.take k).Nodup ∧ ∀ p ∈ ps.take k, ∃ i, p = m i := by
    intro k
    induction k with
    | zero => intro _; simp
    | succ k ih =>
      intro hk
      obtain ⟨hnd, hm⟩ := ih (by omega)
      have hkl : k < ps.length := by omega
      have hq : ps[k]? = some ps[k] := List.getElem?_eq_getElem hkl
      obtain ⟨q, hqe⟩ : ∃ q, q = ps[k] := ⟨_, rfl⟩
      rw [← hqe] at hq
      obtain ⟨left, hl1, hl2, hqN, hmax⟩ := hp k q hq
      have hnr : ∀ i, m i ∉ ps.take k → ¬ Removed width (width / 2) (ps.take k) (m i) := by
        rintro i hi ⟨p, hp', a, b⟩
        obtain ⟨l, rfl⟩ := hm p hp'
        have hne : i ≠ l := fun h => hi (h ▸ hp')
        have := hsep i l hne
        omega
      obtain ⟨i0, hi0⟩ : ∃ i, m i ∉ ps.take k := by
        by_contra hc
        push Not at hc
        have := hcover _ hnd hc
        rw [List.length_take] at this
        omega
      have hleft : left q ≠ 0 := by
        intro h0
        have := (hmax (m i0) (hN i0)).1
        rw [hl2 _ (hnr i0 hi0), h0, abs_zero] at this
        exact h1 i0 (abs_eq_zero.1 (le_antisymm this (abs_nonneg _)))
      have hqr : ¬ Removed width (width / 2) (ps.take k) q := fun h => hleft (hl1 q h)
      rw [hl2 q hqr] at hleft
      obtain ⟨i, hd, hlt⟩ := h2 q hqN hleft
      rw [abs_le] at hd
      have hi : m i ∉ ps.take k := fun h => hqr ⟨m i, h, by omega, by omega⟩
      have hqi : q = m i := by
        by_contra hne
        have := (hmax (m i) (hN i)).1
        rw [hl2 _ (hnr i hi), hl2 q hqr] at this
        exact absurd (hlt hne) (not_lt.2 this)
      rw [List.take_add_one, hq, Option.toList_some]
      refine ⟨hnd.append (List.nodup_singleton q) (List.disjoint_singleton.2 (hqi ▸ hi)), fun p hp' => ?_⟩
      rw [List.mem_append, List.mem_singleton] at hp'
      rcases hp' with h | h
      · exact hm p h
      · exact ⟨i, h.trans hqi⟩
  obtain ⟨hnd, hm⟩ := key _ le_rfl
  rw [← hlen, List.take_length] at hnd hm
  intro p
  refine ⟨hm p, ?_⟩
  rintro ⟨i, rfl⟩
  have hsub : ps.toFinset ⊆ Finset.univ.image m := fun p hp' => by
    obtain ⟨i, rfl⟩ := hm p (List.mem_toFinset.1 hp')
    exact Finset.mem_image_of_mem _ (Finset.mem_univ i)
  have heq := Finset.eq_of_subset_of_card_le hsub (by
    rw [Finset.card_image_of_injective _ hinj, Finset.card_univ, List.toFinset_card_of_nodup hnd, hlen])
  exact List.mem_toFinset.1 (heq ▸ Finset.mem_image_of_mem _ (Finset.mem_univ i))

end Cbadc.Spectrum
