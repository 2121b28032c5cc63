import Mathlib.Tactic.Ring
import Mathlib.Tactic.IntervalCases
import Mathlib.Algebra.Order.Ring.Nat
import Mathlib.Data.Nat.Bitwise
import Verif.Model.Bytes

/-! Helper lemmas for the byte-stream properties. -/

namespace Cbadc.Bytes

theorem leBytes_length (n x : ℕ) : (leBytes n x).length = n := by
  induction n generalizing x with
  | zero => rfl
  | succ n ih => simp [leBytes, ih]

theorem leValue_leBytes (n x : ℕ) (h : x < 256 ^ n) : leValue (leBytes n x) = x := by
  induction n generalizing x with
  | zero => simp at h; simp [leBytes, leValue, h]
  | succ n ih =>
    have : x / 256 < 256 ^ n := by
      rw [Nat.div_lt_iff_lt_mul (by norm_num)]; rwa [pow_succ] at h
    simp only [leBytes, leValue, ih _ this]
    omega

theorem pow256 (n : ℕ) : 256 ^ n = 2 ^ (8 * n) := by
  rw [pow_mul]; norm_num

theorem unpack_pack (f : Fmt) (x : ℕ) (w : List ℕ) (h : pack f x = .ok w) :
    unpack f w = .ok (x : ℤ) := by
  unfold pack at h
  have hp : 2 ^ (8 * f.nbytes - 1) ≤ 2 ^ (8 * f.nbytes) :=
    Nat.pow_le_pow_right (by norm_num) (by omega)
  split_ifs at h with h1 h2 h2
  · simp only [Except.ok.injEq] at h
    subst h
    have := leValue_leBytes f.nbytes x (by rw [pow256]; omega)
    simp [unpack, leBytes_length, this, h1, h2]
  · simp only [Except.ok.injEq] at h
    subst h
    have := leValue_leBytes f.nbytes x (by rw [pow256]; omega)
    simp [unpack, leBytes_length, this, h1]

theorem pack_length (f : Fmt) (x : ℕ) (w : List ℕ) (h : pack f x = .ok w) :
    w.length = f.nbytes := by
  unfold pack at h
  split_ifs at h <;> simp only [Except.ok.injEq] at h <;> subst h <;> exact leBytes_length _ _

section
variable {K : Type*} [Zero K] [LT K] [DecidableLT K]

theorem encSum_lt (s : List K) (M a : ℕ) (h : encSum s M = .ok a) : a < 2 ^ M := by
  induction M generalizing a with
  | zero => simp [encSum] at h; subst h; simp
  | succ m ih =>
    simp only [encSum] at h
    cases hm : encSum s m with
    | error e => simp [hm] at h
    | ok b =>
      have hb := ih b hm
      rw [hm] at h
      cases hs : s[m]? with
      | none => simp [hs] at h
      | some v =>
        rw [hs] at h
        simp only at h
        rw [pow_succ]
        split_ifs at h with hv
        · simp only [Except.ok.injEq, Nat.shiftLeft_eq] at h; omega
        · simp only [Except.ok.injEq] at h; omega

theorem encSum_testBit (s : List K) (M a : ℕ) (h : encSum s M = .ok a) (j : ℕ) (hj : j < M) :
    ∃ v, s[j]? = some v ∧ (a.testBit j = true ↔ 0 < v) := by
  induction M generalizing a with
  | zero => omega
  | succ m ih =>
    simp only [encSum] at h
    cases hm : encSum s m with
    | error e => simp [hm] at h
    | ok b =>
      have hb := encSum_lt s m b hm
      rw [hm] at h
      cases hs : s[m]? with
      | none => simp [hs] at h
      | some v =>
        rw [hs] at h
        simp only at h
        by_cases hjm : j = m
        · subst hjm
          refine ⟨v, hs, ?_⟩
          split_ifs at h with hv
          · simp only [Except.ok.injEq, Nat.shiftLeft_eq, one_mul] at h
            subst h
            rw [add_comm, Nat.testBit_two_pow_add_eq, Nat.testBit_lt_two_pow hb]
            simp [hv]
          · simp only [Except.ok.injEq] at h
            subst h
            rw [Nat.testBit_lt_two_pow hb]
            simp [hv]
        · have hj' : j < m := by omega
          obtain ⟨w, hw, hiff⟩ := ih b hm hj'
          refine ⟨w, hw, ?_⟩
          split_ifs at h with hv
          · simp only [Except.ok.injEq, Nat.shiftLeft_eq, one_mul] at h
            subst h
            rw [add_comm, Nat.testBit_two_pow_add_gt hj']
            exact hiff
          · simp only [Except.ok.injEq] at h
            subst h
            exact hiff

theorem encSum_ok_of_length (s : List K) (M : ℕ) (h : M ≤ s.length) :
    ∃ a, encSum s M = .ok a := by
  induction M with
  | zero => exact ⟨0, rfl⟩
  | succ m ih =>
    obtain ⟨a, ha⟩ := ih (by omega)
    have : s[m]? = some s[m] := by simp
    simp only [encSum, ha, this]
    split_ifs
    · exact ⟨_, rfl⟩
    · exact ⟨_, rfl⟩

theorem length_of_encSum_ok (s : List K) (M a : ℕ) (h : encSum s M = .ok a) : M ≤ s.length := by
  cases M with
  | zero => omega
  | succ m =>
    obtain ⟨v, hv, -⟩ := encSum_testBit s (m + 1) a h m (by omega)
    have := (List.getElem?_eq_some_iff.mp hv).1
    omega

/-- a number with bits below `M` is below `2^c` iff its bits from `c` on are zero -/
theorem lt_two_pow_iff_testBit (a c : ℕ) : a < 2 ^ c ↔ ∀ j, c ≤ j → a.testBit j = false := by
  constructor
  · intro h j hj
    exact Nat.testBit_lt_two_pow (lt_of_lt_of_le h (Nat.pow_le_pow_right (by norm_num) hj))
  · intro h
    exact Nat.lt_pow_two_of_testBit a (fun i hi => h i hi)

end

theorem land_one_shift (x m : ℕ) :
    Int.land 1 ((x : ℤ) >>> m) = if x.testBit m then 1 else 0 := by
  have h1 : ((x : ℤ) >>> m) = ((x >>> m : ℕ) : ℤ) := by simp
  rw [h1]
  have h2 : Int.land 1 ((x >>> m : ℕ) : ℤ) = ((1 &&& (x >>> m) : ℕ) : ℤ) := rfl
  rw [h2]
  have h3 : (1 &&& (x >>> m)) = (x >>> m) % 2 := by
    rw [Nat.and_comm]; exact Nat.and_one_is_mod _
  rw [h3, Nat.testBit]
  have : 1 &&& x >>> m = (x >>> m) % 2 := h3
  rw [this]
  rcases Nat.mod_two_eq_zero_or_one (x >>> m) with h | h <;> simp [h]

theorem genMap_ok {α β : Type*} (f : α → Res β) (g : α → β) (l : List α) (e : Exc)
    (h : ∀ a ∈ l, f a = .ok (g a)) : genMap f l e = ⟨l.map g, e⟩ := by
  induction l with
  | nil => rfl
  | cons a l ih =>
    have ha := h a (by simp)
    have := ih (fun b hb => h b (by simp [hb]))
    simp [genMap, ha, this]

theorem genMap_append_ok {α β : Type*} (f : α → Res β) (g : α → β) (l r : List α) (e : Exc)
    (h : ∀ a ∈ l, f a = .ok (g a)) :
    genMap f (l ++ r) e = ⟨l.map g ++ (genMap f r e).items, (genMap f r e).fin⟩ := by
  induction l with
  | nil => rfl
  | cons a l ih =>
    have ha := h a (by simp)
    have := ih (fun b hb => h b (by simp [hb]))
    simp [genMap, ha, this]

theorem foldl_append_eq (l : List (List ℕ)) (acc : List ℕ) :
    l.foldl (fun content word => content ++ word) acc = acc ++ l.flatten := by
  induction l generalizing acc with
  | nil => simp
  | cons a l ih => simp [ih, List.append_assoc]

theorem writeFilesGo_flatten (wpf c : ℕ) (cur : List ℕ) (ws : List (List ℕ)) :
    (writeFilesGo wpf c cur ws).flatten = cur ++ ws.flatten := by
  induction ws generalizing c cur with
  | nil => simp [writeFilesGo]
  | cons w ws ih =>
    simp only [writeFilesGo]
    split_ifs
    · rw [ih]; simp
    · simp [ih]

/-- The files are the successive chunks. -/
theorem writeFilesGo_chunk (wpf c : ℕ) (hc : c < wpf) (cur : List ℕ) (ws : List (List ℕ)) (i : ℕ) :
    (writeFilesGo wpf c cur ws)[i]? =
      if i = 0 then some (cur ++ (ws.take (wpf - c)).flatten)
      else if i * wpf ≤ ws.length + c then
        some (((ws.drop (i * wpf - c)).take wpf).flatten) else none := by
  induction ws generalizing c cur i with
  | nil =>
    simp only [writeFilesGo]
    rcases i with _ | i
    · simp
    · have : ¬ (i + 1) * wpf ≤ c := by
        rw [add_mul]; omega
      simp [this]
  | cons w ws ih =>
    simp only [writeFilesGo]
    by_cases h1 : c + 1 < wpf
    · rw [if_pos h1, ih (c + 1) h1]
      by_cases h2 : i = 0
      · subst h2
        have e1 : wpf - c = (wpf - (c + 1)) + 1 := by omega
        simp [e1]
      · simp only [if_neg h2, List.length_cons]
        have h4 : wpf ≤ i * wpf := Nat.le_mul_of_pos_left _ (by omega)
        have e1 : i * wpf - c = (i * wpf - (c + 1)) + 1 := by omega
        have e2 : ws.length + 1 + c = ws.length + (c + 1) := by omega
        rw [e1]; simp [e2]
    · rw [if_neg h1]
      by_cases h2 : i = 0
      · subst h2
        have e1 : wpf - c = 1 := by omega
        simp [e1]
      · obtain ⟨j, rfl⟩ : ∃ j, i = j + 1 := ⟨i - 1, by omega⟩
        simp only [List.getElem?_cons_succ, List.length_cons]
        rw [ih 0 (by omega)]
        have e2 : (j + 1) * wpf - c = j * wpf + 1 := by rw [add_mul]; omega
        have e3 : (j + 1) * wpf ≤ ws.length + 1 + c ↔ j * wpf ≤ ws.length := by
          rw [add_mul]; omega
        rw [e2]
        simp only [e3, if_neg h2]
        by_cases h5 : j = 0
        · subst h5; simp
        · simp [h5]

theorem readLoop_flatten (n : ℕ) (hn : 1 ≤ n) (ws : List (List ℕ)) (hw : ∀ w ∈ ws, w.length = n)
    (fuel : ℕ) (hf : ws.length + 1 ≤ fuel) : readLoop n fuel ws.flatten = ws ++ [[]] := by
  induction ws generalizing fuel with
  | nil =>
    obtain ⟨k, rfl⟩ : ∃ k, fuel = k + 1 := ⟨fuel - 1, by simp at hf; omega⟩
    simp [readLoop]
  | cons w ws ih =>
    obtain ⟨k, rfl⟩ : ∃ k, fuel = k + 1 := ⟨fuel - 1, by simp at hf; omega⟩
    have hwl := hw w (by simp)
    have hne : w ≠ [] := by rintro rfl; simp at hwl; omega
    have hrec := ih (fun v hv => hw v (by simp [hv])) k (by simp at hf; omega)
    have e1 : (w ++ ws.flatten).take n = w := by rw [← hwl]; simp
    have e2 : (w ++ ws.flatten).drop n = ws.flatten := by rw [← hwl]; simp
    simp only [readLoop, List.flatten_cons, e1, e2, hne, if_false, hrec, List.cons_append]

theorem length_le_flatten (n : ℕ) (hn : 1 ≤ n) (ws : List (List ℕ)) (hw : ∀ w ∈ ws, w.length = n) :
    ws.length ≤ ws.flatten.length := by
  induction ws with
  | nil => simp
  | cons w ws ih =>
    have h1 := hw w (by simp)
    have h2 := ih (fun v hv => hw v (by simp [hv]))
    simp only [List.length_cons, List.flatten_cons, List.length_append]
    omega

theorem readFile_flatten (n : ℕ) (hn : 1 ≤ n) (ws : List (List ℕ)) (hw : ∀ w ∈ ws, w.length = n) :
    readFile n ws.flatten = ws ++ [[]] :=
  readLoop_flatten n hn ws hw _ (by have := length_le_flatten n hn ws hw; omega)

theorem selector_nbytes_pos (M : ℕ) (f : Fmt) (h : numberOfBytesSelector M = .ok f) :
    1 ≤ f.nbytes := by
  unfold numberOfBytesSelector at h
  split_ifs at h <;> simp only [Except.ok.injEq] at h <;> subst h <;> simp

end Cbadc.Bytes
