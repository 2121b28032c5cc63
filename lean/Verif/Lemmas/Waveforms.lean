import Verif.Model.Waveforms
import Verif.Spec.Waveforms
import Verif.Lemmas.Circuit

namespace Cbadc.NgSpice
open TestBench Circuit

theorem key_append (a b : String) : key (a ++ b) = key a ++ key b := by simp [key]

theorem same_iff (a b : String) : SameName a b ↔ key a = key b := Iff.rfl

theorem getData_recorded {K : ℕ} {time : ℕ → ℝ} {wave : String → ℕ → ℝ} {asked : List String} {f : RawFile}
    (h : Recorded K time wave asked f.time f.vars) {q a : String} (ha : a ∈ asked) (hq : SameName a q) :
    f.getData q = some ((List.range K).map (wave q)) := by
  unfold RawFile.getData
  obtain ⟨e, he, hs⟩ := h.here a ha
  have hk : key e.1 = key q := hs.trans hq
  cases hf : f.vars.find? fun e => decide (key e.1 = key q) with
  | none =>
    rw [List.find?_eq_none] at hf
    exact absurd (decide_eq_true hk) (hf e he)
  | some e' =>
    have h1 := List.mem_of_find?_eq_some hf
    have h2 := List.find?_some hf
    have h3 : key e'.1 = key q := of_decide_eq_true h2
    rw [Option.map_some, h.waves e' h1, h.names _ _ h3]

theorem stack_recorded {K : ℕ} {time : ℕ → ℝ} {wave : String → ℕ → ℝ} {asked : List String} {f : RawFile}
    (h : Recorded K time wave asked f.time f.vars) (cols : List String)
    (hc : ∀ c ∈ cols, ∃ a ∈ asked, SameName a (voltage c)) :
    ∃ rows, stack f.time (cols.map fun s => f.getData (voltage s)) = .ok rows ∧ IsTable K time wave cols rows := by
  have e : cols.map (fun s => f.getData (voltage s))
      = cols.map fun s => some ((List.range K).map (wave (voltage s))) := by
    apply List.map_congr_left
    intro c hcm
    obtain ⟨a, ha, hs⟩ := hc c hcm
    exact getData_recorded h ha hs
  rw [e]
  unfold stack
  rw [if_pos]
  · refine ⟨_, rfl, ?_, ?_⟩
    · simp [h.times]
    · intro i hi
      refine ⟨(f.time :: (cols.map fun s => some ((List.range K).map (wave (voltage s)))).map fun d => d.getD []).map
        fun w => w.getD i 0, ?_, ?_, ?_, ?_⟩
      · rw [List.getElem?_map, List.getElem?_range (by simpa [h.times] using hi), Option.map_some]
      · simp [Nat.add_comm]
      · simp [h.times, hi]
      · intro j c hj
        rw [Nat.add_comm 1 j]
        simp [hj, hi, voltage]
  · simp [h.times]

theorem groupOf_mem {hl : Groups} {g : String} {names : List String} (h : groupOf hl g = some names) :
    ∃ e ∈ hl, e.2 = names := by
  unfold groupOf at h
  cases hf : hl.find? fun e => decide (e.1 = g) with
  | none => rw [hf] at h; simp at h
  | some e =>
    rw [hf] at h
    exact ⟨e, List.mem_of_find?_eq_some hf, by simpa using h⟩

theorem mem_saved_group {hl : Groups} {g : String} {names : List String} (h : groupOf hl g = some names) (N : ℕ)
    {c : String} (hc : c ∈ names) : voltage c ∈ saved hl N := by
  obtain ⟨e, he, rfl⟩ := groupOf_mem h
  unfold saved saveNames
  apply List.mem_cons_of_mem
  apply List.mem_map_of_mem
  apply List.mem_append_left
  exact List.mem_flatMap.2 ⟨e, he, hc⟩

theorem xaf_same (s : String) : SameName (voltage ("Xaf." ++ s)) (voltage ("XAF." ++ s)) := by
  rw [same_iff]
  unfold voltage
  simp only [key_append]
  rfl

theorem mem_saved_state (hl : Groups) (N : ℕ) {c : String} (hc : c ∈ stateNames "XAF." N) :
    ∃ a ∈ saved hl N, SameName a (voltage c) := by
  unfold stateNames at hc
  obtain ⟨s, hs, rfl⟩ := List.mem_map.1 hc
  refine ⟨voltage ("Xaf." ++ s), ?_, xaf_same s⟩
  unfold saved saveNames stateNames
  apply List.mem_cons_of_mem
  apply List.mem_map_of_mem
  apply List.mem_append_right
  exact List.mem_map_of_mem hs

/-! ### The names are different -/

theorem toLower_digit {c : Char} (h : c.isDigit = true) : c.toLower = c := by
  unfold Char.toLower
  rw [dif_neg]
  intro hc
  simp only [Char.isDigit, Bool.and_eq_true, decide_eq_true_eq] at h
  have h1 := h.2
  have h2 := hc.1
  rw [ge_iff_le, UInt32.le_iff_toNat_le] at h2
  rw [UInt32.le_iff_toNat_le] at h1
  have e1 : UInt32.toNat 'A'.val = 65 := rfl
  have e2 : UInt32.toNat '9'.val = 57 := rfl
  omega

theorem key_repr (n : ℕ) : key n.repr = Nat.toDigits 10 n := by
  unfold key
  rw [Nat.toList_repr]
  conv_rhs => rw [← List.map_id (Nat.toDigits 10 n)]
  apply List.map_congr_left
  intro c hc
  exact toLower_digit (Nat.isDigit_of_mem_toDigits (by norm_num) (by norm_num) hc)

theorem key_fmt (pre suf : String) (i : ℕ) : key (fmt pre i suf) = key pre ++ (Nat.toDigits 10 i ++ key suf) := by
  unfold fmt
  rw [key_append, key_append, key_repr]

theorem keyP : key "_P" = ['_', 'p'] := rfl
theorem keyN : key "_N" = ['_', 'n'] := rfl

theorem group_nodup (pre q : String) (n : ℕ) :
    ((group pre "_P" n ++ group pre "_N" n).map fun s => key (q ++ s)).Nodup := by
  unfold group
  rw [List.map_append, List.map_map, List.map_map, List.nodup_append]
  refine ⟨?_, ?_, ?_⟩
  · apply List.Nodup.map _ List.nodup_range
    intro i j h
    simp only [Function.comp, key_append, key_fmt, keyP] at h
    exact (digits_sep.1 (List.append_cancel_left (List.append_cancel_left h))).1
  · apply List.Nodup.map _ List.nodup_range
    intro i j h
    simp only [Function.comp, key_append, key_fmt, keyN] at h
    exact (digits_sep.1 (List.append_cancel_left (List.append_cancel_left h))).1
  · intro a ha b hb hab
    obtain ⟨i, _, rfl⟩ := List.mem_map.1 ha
    obtain ⟨j, _, rfl⟩ := List.mem_map.1 hb
    simp only [Function.comp, key_append, key_fmt, keyP, keyN] at hab
    have := (digits_sep.1 (List.append_cancel_left (List.append_cancel_left hab))).2
    simp at this

theorem t_not_mem (l : List String) (hl : ∀ s ∈ l, '_' ∈ key s) : key "t" ∉ l.map key := by
  intro h
  obtain ⟨s, hs, e⟩ := List.mem_map.1 h
  have := hl s hs
  rw [e] at this
  exact absurd this (by decide)

theorem group_get (pre suf : String) {n i : ℕ} (h : i < n) : (group pre suf n)[i]? = some (fmt pre i suf) := by
  simp [group, h]

theorem group_get_last (pre : String) {n i : ℕ} (h : i < n) :
    (group pre "_P" n ++ group pre "_N" n)[n + i]? = some (fmt pre i "_N") := by
  rw [List.getElem?_append_right (by simp [group])]
  simp [group, h]

theorem group_get_first (pre : String) {n i : ℕ} (h : i < n) :
    (group pre "_P" n ++ group pre "_N" n)[i]? = some (fmt pre i "_P") := by
  rw [List.getElem?_append_left (by simpa [group] using h)]
  exact group_get _ _ h

theorem controlWave_recorded {K : ℕ} {time : ℕ → ℝ} {wave : String → ℕ → ℝ} {asked : List String} {f : RawFile}
    (h : Recorded K time wave asked f.time f.vars) {names : List String} {i : ℕ} {c : String}
    (hi : names[i]? = some c) (ha : voltage c ∈ asked) :
    controlWave f names i = .ok ((List.range K).map (wave (voltage c))) := by
  unfold controlWave
  rw [hi]
  dsimp only
  rw [getData_recorded h ha rfl]

end Cbadc.NgSpice
