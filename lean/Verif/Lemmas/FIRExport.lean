import Mathlib.Tactic.Linarith
import Mathlib.Tactic.NormNum
import Mathlib.Tactic.FieldSimp
import Mathlib.Tactic.Ring
import Mathlib.Tactic.Positivity
import Verif.Model.FIRExport
import Verif.Spec.FIRExport

/-! # Lemmas for the exported text -/

namespace Cbadc.Estimator.Export

open Cbadc.Spec.Export

/-! ### Splitting -/

theorem split_ne_nil (sep : Char) (t : List Char) : split sep t ≠ [] := by
  cases t with
  | nil => simp [split]
  | cons c t =>
    unfold split
    split_ifs
    · simp
    · split <;> simp

theorem split_single {sep : Char} {w : List Char} (h : sep ∉ w) : split sep w = [w] := by
  induction w with
  | nil => rfl
  | cons c w ih =>
    rw [List.mem_cons, not_or] at h
    rw [split, if_neg (Ne.symm h.1), ih h.2]

theorem split_append {sep : Char} {w : List Char} (t : List Char) (h : sep ∉ w) :
    split sep (w ++ sep :: t) = w :: split sep t := by
  induction w with
  | nil => simp [split]
  | cons c w ih =>
    rw [List.mem_cons, not_or] at h
    rw [List.cons_append, split, if_neg (Ne.symm h.1), ih h.2]

/-! ### Characters of numbers -/

/-- Characters that occur in numbers. -/
def numChar (ch : Char) : Prop := ch.isDigit ∨ ch = '-' ∨ ch = '+' ∨ ch = '.' ∨ ch = 'E' ∨ ch = 'e'

theorem digit_of_mem {n : ℕ} {ch : Char} (h : ch ∈ Nat.toDigits 10 n) : ch.isDigit = true :=
  Nat.isDigit_of_mem_toDigits (by norm_num) (by norm_num) h

theorem digit_ne {ch x : Char} (h : ch.isDigit = true) (hx : x.isDigit = false) : ch ≠ x := by
  rintro rfl
  rw [h] at hx
  cases hx

theorem pyStr_numChar {n : ℤ} {ch : Char} (h : ch ∈ pyStr n) : numChar ch := by
  unfold pyStr at h
  split_ifs at h
  · rcases List.mem_cons.mp h with h | h
    · exact Or.inr (Or.inl h)
    · exact Or.inl (digit_of_mem h)
  · exact Or.inl (digit_of_mem h)

theorem sciExp_numChar {e : ℤ} {ch : Char} (h : ch ∈ sciExp e) : ch.isDigit ∨ ch = '-' ∨ ch = '+' := by
  unfold sciExp at h
  rcases List.mem_cons.mp h with h | h
  · split_ifs at h
    · exact Or.inr (Or.inl h)
    · exact Or.inr (Or.inr h)
  · left
    split_ifs at h
    · rcases List.mem_cons.mp h with h | h
      · rw [h]; decide
      · exact digit_of_mem h
    · exact digit_of_mem h

theorem sci_numChar {ech : Char} (he : ech = 'E' ∨ ech = 'e') {x : ℚ} {ch : Char} (h : ch ∈ sci ech x) :
    numChar ch := by
  have hech : numChar ech := by unfold numChar; tauto
  unfold sci at h
  by_cases h0 : x = 0
  · rw [if_pos h0] at h
    simp only [List.mem_cons, List.mem_append, List.mem_replicate, List.not_mem_nil, or_false] at h
    rcases h with h | h | h | h | h | h | h
    · rw [h]; left; decide
    · unfold numChar; tauto
    · rw [h.2]; left; decide
    · rw [h]; exact hech
    · unfold numChar; tauto
    · rw [h]; left; decide
    · rw [h]; left; decide
  · rw [if_neg h0] at h
    dsimp only at h
    rw [List.mem_append, List.mem_append, List.mem_cons] at h
    rcases h with h | h | h | h
    · split_ifs at h
      · rw [List.mem_singleton] at h; unfold numChar; tauto
      · cases h
    · generalize hd : Nat.toDigits 10 _ = D at h
      cases D with
      | nil => cases h
      | cons d ds =>
        simp only [List.mem_cons] at h
        rcases h with h | h | h
        · left; rw [h]; exact digit_of_mem (hd ▸ List.mem_cons_self)
        · unfold numChar; tauto
        · left; exact digit_of_mem (hd ▸ List.mem_cons_of_mem _ h)
    · rw [h]; exact hech
    · have := sciExp_numChar h; unfold numChar; tauto

theorem numChar_ne {ch x : Char} (h : numChar ch) (hx : x.isDigit = false)
    (h1 : x ≠ '-') (h2 : x ≠ '+') (h3 : x ≠ '.') (h4 : x ≠ 'E') (h5 : x ≠ 'e') : ch ≠ x := by
  rintro rfl
  unfold numChar at h
  rw [hx] at h
  simp [h1, h2, h3, h4, h5] at h

theorem pyStr_ne_nil (n : ℤ) : pyStr n ≠ [] := by
  unfold pyStr
  split_ifs
  · simp
  · exact Nat.toDigits_ne_nil

theorem sci_ne_nil (ech : Char) (x : ℚ) : sci ech x ≠ [] := by
  unfold sci
  by_cases h0 : x = 0
  · rw [if_pos h0]; simp
  · rw [if_neg h0]; simp

/-! ### Reading numbers -/

theorem readNat_toDigits (n : ℕ) : readNat (Nat.toDigits 10 n) = some n := by
  unfold readNat
  rw [if_pos ⟨Nat.toDigits_ne_nil, by rw [List.all_eq_true]; exact fun c hc => digit_of_mem hc⟩,
    Nat.ofDigitChars_toDigits (by norm_num) (by norm_num)]

theorem readInt_pyStr (n : ℤ) : readInt (pyStr n) = some n := by
  unfold pyStr
  split_ifs with h
  · rw [readInt, readNat_toDigits]
    simp only [Option.map_some, Option.some.injEq]
    omega
  · rw [readInt]
    · rw [readNat_toDigits]
      simp only [Option.map_some, Option.some.injEq]
      omega
    · intro t ht
      have : '-' ∈ Nat.toDigits 10 n.natAbs := ht ▸ List.mem_cons_self
      exact absurd (digit_of_mem this) (by decide)

theorem readExp_sciExp (e : ℤ) : readExp (sciExp e) = some e := by
  have key : readNat (if (Nat.toDigits 10 e.natAbs).length < 2 then '0' :: Nat.toDigits 10 e.natAbs
      else Nat.toDigits 10 e.natAbs) = some e.natAbs := by
    split_ifs
    · unfold readNat
      rw [if_pos ⟨by simp, by
        rw [List.all_cons, List.all_eq_true.mpr (fun c hc => digit_of_mem hc)]; decide⟩]
      rw [Nat.ofDigitChars_cons]
      exact congrArg some (Nat.ofDigitChars_toDigits (by norm_num) (by norm_num))
    · exact readNat_toDigits _
  unfold sciExp
  by_cases h : e < 0
  · rw [if_pos h, readExp, key]
    simp only [Option.map_some, Option.some.injEq]; omega
  · rw [if_neg h, readExp, key]
    simp only [Option.map_some, Option.some.injEq]; omega

theorem roundHalfEven_bound (y : ℚ) : |y - roundHalfEven y| ≤ 1 / 2 := by
  have h0 := Int.floor_le y
  have h1 := Int.lt_floor_add_one y
  unfold roundHalfEven
  rw [abs_le]
  split_ifs with h2 h3 h4 <;> push_cast <;> constructor <;> linarith

theorem roundHalfEven_mono_int {y : ℚ} {n : ℤ} (h : (n : ℚ) ≤ y) : n ≤ roundHalfEven y := by
  have h0 : n ≤ ⌊y⌋ := Int.le_floor.mpr h
  unfold roundHalfEven
  split_ifs <;> omega

theorem roundHalfEven_le_int {y : ℚ} {n : ℤ} (h : y ≤ (n : ℚ)) : roundHalfEven y ≤ n := by
  have h0 : ⌊y⌋ ≤ n := by
    have := Int.floor_le y
    exact_mod_cast this.trans h
  rcases h0.lt_or_eq with h1 | h1
  · unfold roundHalfEven
    split_ifs <;> omega
  · have : y = n := le_antisymm h (by rw [← h1]; exact Int.floor_le y)
    unfold roundHalfEven
    rw [this]
    simp

end Cbadc.Estimator.Export
