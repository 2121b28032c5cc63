import Verif.Props.Dither
import Verif.Props.Oscillators

/-! # C94: the digital control circuit -/

namespace Cbadc.Circuit

open Spec

/-! ## The nodes of the summer -/

theorem pairUp_range (n : ℕ) (f : ℕ → String) :
    pairUp ((List.range (2 * n + 1)).map f) =
      (List.range n).flatMap (fun k => [f k, f (n + k)]) ++ [f (2 * n)] := by
  unfold pairUp
  have h : ((List.range (2 * n + 1)).map f).length / 2 = n := by
    rw [List.length_map, List.length_range]
    omega
  dsimp only
  rw [h]
  congr 1
  · have e1 : ((List.range (2 * n + 1)).map f).take n = (List.range n).map f := by
      rw [← List.map_take, List.take_range, min_eq_left (by omega)]
    have e2 : (((List.range (2 * n + 1)).map f).drop n).take n = (List.range n).map fun k => f (n + k) := by
      apply List.ext_getElem
      · simp only [List.length_take, List.length_drop, List.length_map, List.length_range]
        omega
      · intro i h1 h2
        simp
    rw [e1, e2, List.zip_map, List.flatMap_map]
    rw [← List.map_id (List.range n)]
    induction List.range n with
    | nil => rfl
    | cons a as ih => 
      simp at ih ⊢
      exact ih
  · apply List.ext_getElem
    · simp
    · intro i h1 h2
      have : i = 0 := by simpa using h2
      subst this
      simp

theorem pairs_length {α : Type*} (n : ℕ) (f g : ℕ → α) :
    ((List.range n).flatMap (fun k => [f k, g k])).length = 2 * n := by
  rw [List.length_flatMap]
  simp
  omega

theorem pairs_get {α : Type*} (n : ℕ) (f g : ℕ → α) (k : ℕ) (hk : k < n) :
    ((List.range n).flatMap (fun k => [f k, g k]))[2 * k]? = some (f k) ∧
      ((List.range n).flatMap (fun k => [f k, g k]))[2 * k + 1]? = some (g k) := by
  induction n with
  | zero => omega
  | succ n ih =>
    rw [List.range_succ, List.flatMap_append]
    rcases Nat.lt_succ_iff_lt_or_eq.mp hk with h | rfl
    · rw [List.getElem?_append_left (by rw [pairs_length]; omega),
        List.getElem?_append_left (by rw [pairs_length]; omega)]
      exact ih h
    · rw [List.getElem?_append_right (by rw [pairs_length]),
        List.getElem?_append_right (by rw [pairs_length]; omega), pairs_length]
      simp

/-- The name of the source of input `k` of the summer. -/
def inputName (N L k : ℕ) (suf : String) : String :=
  if k < N then fmt "X" k suf else if k < N + L then fmt "IN" (k - N) suf else fmt "S" (k - N - L) suf

/-- The parts of a comparator. -/
inductive CoPart
  | sum
  | cmp

def CoPart.inst : CoPart → String
  | .sum => "As"
  | .cmp => "Xcomp"

def CoPart.hubNum (N L M : ℕ) (_ : CoPart) (k : ℕ) : String :=
  if k < N + L + M then inputName N L k "_P"
  else if k < 2 * (N + L + M) then inputName N L (k - (N + L + M)) "_N" else "STILDE"

def CoPart.hubPin (m : ℕ) (_ : CoPart) (s : String) : String :=
  if s = "IN" then "STILDE" else if s = "OUT_P" then fmt "S" m "_P"
  else if s = "OUT_N" then fmt "S" m "_N" else s

theorem co_inj : Function.Injective CoPart.inst := by
  intro a b h
  cases a <;> cases b <;> first | rfl | (simp [CoPart.inst] at h)

section

variable {K : Type*} [Field K] [LinearOrder K]

theorem hubNum_x (N L M i : ℕ) (hi : i < N) : CoPart.sum.hubNum N L M i = fmt "X" i "_P" ∧
    CoPart.sum.hubNum N L M (N + L + M + i) = fmt "X" i "_N" := by
  unfold CoPart.hubNum inputName
  constructor
  · rw [if_pos (by omega), if_pos hi]
  · rw [if_neg (by omega), if_pos (by omega), if_pos (by omega), show N + L + M + i - (N + L + M) = i by omega]

theorem hubNum_in (N L M i : ℕ) (hi : i < L) : CoPart.sum.hubNum N L M (N + i) = fmt "IN" i "_P" ∧
    CoPart.sum.hubNum N L M (2 * N + L + M + i) = fmt "IN" i "_N" := by
  unfold CoPart.hubNum inputName
  constructor
  · rw [if_pos (by omega), if_neg (by omega), if_pos (by omega), show N + i - N = i by omega]
  · rw [if_neg (by omega), if_pos (by omega), if_neg (by omega), if_pos (by omega),
      show 2 * N + L + M + i - (N + L + M) - N = i by omega]

theorem hubNum_s (N L M i : ℕ) (hi : i < M) : CoPart.sum.hubNum N L M (N + L + i) = fmt "S" i "_P" ∧
    CoPart.sum.hubNum N L M (2 * N + 2 * L + M + i) = fmt "S" i "_N" := by
  unfold CoPart.hubNum inputName
  constructor
  · rw [if_pos (by omega), if_neg (by omega), if_neg (by omega), show N + L + i - N - L = i by omega]
  · rw [if_neg (by omega), if_pos (by omega), if_neg (by omega), if_neg (by omega),
      show 2 * N + 2 * L + M + i - (N + L + M) - N - L = i by omega]

theorem hubNum_out (N L M : ℕ) : CoPart.sum.hubNum N L M (2 * (N + L + M)) = "STILDE" := by
  unfold CoPart.hubNum
  rw [if_neg (by omega), if_neg (by omega)]

omit [Field K] [LinearOrder K] in
theorem co_conns (S : Analog.Sys K) (GT : ℕ → ℕ → K) (m k : ℕ) (mid : K) (c : Obj × Obj) :
    c ∈ conns (comparatorOps S GT m k mid) ↔
      (∃ i ≤ 2 * (S.N + S.L + S.M), c = (.own (CoPart.sum.hubNum S.N S.L S.M i), .num "As" i)) ∨
      ∃ s ∈ comparatorPins, c = (.own (CoPart.cmp.hubPin m s), .pin "Xcomp" s) := by
  unfold comparatorOps comparatorPins
  simp only [List.cons_append, List.nil_append, conns, conns_append, conns_flatMap, List.mem_cons,
    List.mem_append, List.mem_flatMap, List.mem_range, List.not_mem_nil, or_false, exists_eq_or_imp,
    exists_eq_left]
  rw [show CoPart.cmp.hubPin m "CLK" = "CLK" from rfl, show CoPart.cmp.hubPin m "IN" = "STILDE" from rfl,
    show CoPart.cmp.hubPin m "OUT_P" = fmt "S" m "_P" from rfl,
    show CoPart.cmp.hubPin m "OUT_N" = fmt "S" m "_N" from rfl,
    show CoPart.cmp.hubPin m "VCM" = "VCM" from rfl]
  constructor
  · rintro (h | ((⟨i, hi, h | h⟩ | ⟨i, hi, h | h⟩) | ⟨i, hi, h | h⟩) | h)
    · exact Or.inl ⟨_, le_rfl, by rw [hubNum_out]; exact h⟩
    · exact Or.inl ⟨i, by omega, by rw [(hubNum_x _ _ _ i hi).1]; exact h⟩
    · exact Or.inl ⟨S.N + S.L + S.M + i, by omega, by rw [(hubNum_x _ _ _ i hi).2]; exact h⟩
    · exact Or.inl ⟨S.N + i, by omega, by rw [(hubNum_in _ _ _ i hi).1]; exact h⟩
    · exact Or.inl ⟨2 * S.N + S.L + S.M + i, by omega, by rw [(hubNum_in _ _ _ i hi).2]; exact h⟩
    · exact Or.inl ⟨S.N + S.L + i, by omega, by rw [(hubNum_s _ _ _ i hi).1]; exact h⟩
    · exact Or.inl ⟨2 * S.N + 2 * S.L + S.M + i, by omega, by rw [(hubNum_s _ _ _ i hi).2]; exact h⟩
    · exact Or.inr h
  · rintro (⟨i, hi, h⟩ | h)
    · by_cases h1 : i < S.N
      · rw [(hubNum_x _ _ _ i h1).1] at h
        exact Or.inr (Or.inl (Or.inl (Or.inl ⟨i, h1, Or.inl h⟩)))
      by_cases h2 : i < S.N + S.L
      · obtain ⟨j, rfl⟩ : ∃ j, i = S.N + j := ⟨i - S.N, by omega⟩
        rw [(hubNum_in _ _ _ j (by omega)).1] at h
        exact Or.inr (Or.inl (Or.inl (Or.inr ⟨j, by omega, Or.inl h⟩)))
      by_cases h3 : i < S.N + S.L + S.M
      · obtain ⟨j, rfl⟩ : ∃ j, i = S.N + S.L + j := ⟨i - S.N - S.L, by omega⟩
        rw [(hubNum_s _ _ _ j (by omega)).1] at h
        exact Or.inr (Or.inl (Or.inr ⟨j, by omega, Or.inl h⟩))
      by_cases h4 : i < S.N + S.L + S.M + S.N
      · obtain ⟨j, rfl⟩ : ∃ j, i = S.N + S.L + S.M + j := ⟨i - S.N - S.L - S.M, by omega⟩
        rw [(hubNum_x _ _ _ j (by omega)).2] at h
        exact Or.inr (Or.inl (Or.inl (Or.inl ⟨j, by omega, Or.inr h⟩)))
      by_cases h5 : i < 2 * S.N + S.L + S.M + S.L
      · obtain ⟨j, rfl⟩ : ∃ j, i = 2 * S.N + S.L + S.M + j := ⟨i - (2 * S.N + S.L + S.M), by omega⟩
        rw [(hubNum_in _ _ _ j (by omega)).2] at h
        exact Or.inr (Or.inl (Or.inl (Or.inr ⟨j, by omega, Or.inr h⟩)))
      by_cases h6 : i < 2 * S.N + 2 * S.L + S.M + S.M
      · obtain ⟨j, rfl⟩ : ∃ j, i = 2 * S.N + 2 * S.L + S.M + j :=
          ⟨i - (2 * S.N + 2 * S.L + S.M), by omega⟩
        rw [(hubNum_s _ _ _ j (by omega)).2] at h
        exact Or.inr (Or.inl (Or.inr ⟨j, by omega, Or.inr h⟩))
      · obtain rfl : i = 2 * (S.N + S.L + S.M) := by omega
        rw [hubNum_out] at h
        exact Or.inl h
    · exact Or.inr (Or.inr h)

/-- The gains of the summer. -/
def gains (S : Analog.Sys K) (GT : ℕ → ℕ → K) (k : ℕ) : List K :=
  (List.range S.N).map (GT k) ++ (List.range S.L).map (S.Bt k) ++ (List.range S.M).map (S.At k)

/-- The definition of a comparator. -/
def coDef (S : Analog.Sys K) (GT : ℕ → ℕ → K) (m k : ℕ) (mid : K) : Def K :=
  ⟨controlPins S.N S.L S.M,
   [⟨"As", .sum (gains S GT k) mid, (List.range (S.N + S.L + S.M)).flatMap
      (fun i => [inputName S.N S.L i "_P", inputName S.N S.L i "_N"]) ++ ["STILDE"]⟩,
    ⟨"Xcomp", .sub "clocked_comparator", ["CLK", "STILDE", fmt "S" m "_P", fmt "S" m "_N", "VCM"]⟩]⟩

theorem inputName_ne (N L k : ℕ) (suf : String) : inputName N L k suf ≠ "" := by
  unfold inputName
  split_ifs <;> exact fmt_ne_empty _ _ _ (by decide)

omit [Field K] [LinearOrder K] in
theorem co_def (ids : String → ℕ → String) (S : Analog.Sys K) (m k : ℕ) (mid : K) (GT : ℕ → ℕ → K)
    (hG : S.GammaT = some GT) (hk : k < S.Mt) :
    multiComparator ids S m k mid = .ok (coDef S GT m k mid) := by
  have hp : parts (comparatorOps S GT m k mid) =
      [⟨"As", .sum (gains S GT k) mid,
        (List.range (2 * (S.N + S.L + S.M) + 1)).map (.num "As")⟩,
       ⟨"Xcomp", .sub "clocked_comparator", comparatorPins.map (.pin "Xcomp")⟩] := by
    unfold comparatorOps gains
    simp only [List.cons_append, List.nil_append, parts, parts_append, parts_flatMap, flatMap_none,
      List.append_nil]
  have hnd : ((Sub.empty.parts ++ parts (comparatorOps S GT m k mid)).map Part.inst).Nodup := by
    rw [show (Sub.empty : Sub Obj K).parts = [] from rfl, List.nil_append, hp]
    simp only [List.map_cons, List.map_nil]
    decide
  have hform : ∀ c ∈ conns (comparatorOps S GT m k mid),
      (∃ q s, c = (.own (CoPart.hubPin m q s), .pin (CoPart.inst q) s)) ∨
      ∃ q i, c = (.own (CoPart.hubNum S.N S.L S.M q i), .num (CoPart.inst q) i) := by
    intro c hc
    rcases (co_conns S GT m k mid c).mp hc with ⟨i, -, rfl⟩ | ⟨s, -, rfl⟩
    · exact Or.inr ⟨.sum, i, rfl⟩
    · exact Or.inl ⟨.cmp, s, rfl⟩
  have hne : ∀ c ∈ conns (comparatorOps S GT m k mid), c.1.name ids ≠ "" := by
    intro c hc
    rcases (co_conns S GT m k mid c).mp hc with ⟨i, -, rfl⟩ | ⟨s, hs, rfl⟩
    · unfold Obj.name CoPart.hubNum
      dsimp only
      split_ifs
      · exact inputName_ne _ _ _ _
      · exact inputName_ne _ _ _ _
      · decide
    · unfold comparatorPins at hs
      fin_cases hs
      · exact (show "CLK" ≠ "" by decide)
      · exact (show "STILDE" ≠ "" by decide)
      · exact fmt_ne_empty _ _ _ (by decide)
      · exact fmt_ne_empty _ _ _ (by decide)
      · exact (show "VCM" ≠ "" by decide)
  have hnode := fun c hc => (hub_node co_inj (CoPart.hubPin m) (CoPart.hubNum S.N S.L S.M) ids _ hform hne c hc).2
  have hown := hub_own co_inj (CoPart.hubPin m) (CoPart.hubNum S.N S.L S.M) ids _ hform hne
  unfold multiComparator
  rw [hG]
  dsimp only
  rw [if_neg (by omega), run_eq (Obj.name ids) _ .empty hnd]
  dsimp only
  unfold Sub.definition Sub.netlist coDef
  rw [show (Sub.empty : Sub Obj K).parts = [] from rfl, List.nil_append,
    show (Sub.empty : Sub Obj K).wires = .empty from rfl]
  dsimp only
  obtain ⟨w, hw⟩ : ∃ w, w = Wires.connects (Obj.name ids) (conns (comparatorOps S GT m k mid)) .empty :=
    ⟨_, rfl⟩
  rw [← hw] at hnode hown ⊢
  have hnum : ∀ i ≤ 2 * (S.N + S.L + S.M),
      w.node (Obj.name ids) (.num "As" i) = CoPart.sum.hubNum S.N S.L S.M i :=
    fun i hi => hnode _ ((co_conns S GT m k mid _).mpr (Or.inl ⟨i, hi, rfl⟩))
  have hpin : ∀ s ∈ comparatorPins, w.node (Obj.name ids) (.pin "Xcomp" s) = CoPart.cmp.hubPin m s :=
    fun s hs => hnode _ ((co_conns S GT m k mid _).mpr (Or.inr ⟨s, hs, rfl⟩))
  congr 2
  · conv_rhs => rw [← List.map_id (controlPins S.N S.L S.M)]
    exact List.map_congr_left fun s _ => hown s
  · rw [hp]
    simp only [List.map_cons, List.map_nil, Part.line, List.map_map]
    congr 1
    · congr 1
      change pairUp _ = _
      rw [pairUp_range, Function.comp, hnum _ le_rfl, hubNum_out]
      congr 1
      apply flatMap_congr_range
      intro i hi
      rw [Function.comp, hnum _ (by omega), Function.comp, hnum _ (by omega)]
      unfold CoPart.hubNum
      rw [if_pos hi, if_neg (by omega), if_pos (by omega), Nat.add_sub_cancel_left]
    · congr 2
      change comparatorPins.map _ = _
      exact (List.map_congr_left (g := CoPart.cmp.hubPin m) hpin).trans rfl

/-! ## The netlist of the digital control -/

/-- The netlist of the digital control. -/
def ctlNet (N L M off : ℕ) : List (Line K) :=
  (List.range (M - off)).map fun i => ⟨fmt "Xmic_" (off + i) "",
    .sub (fmt "multi_input_comparator_" (off + i) ""), controlPins N L M⟩

omit [Field K] [LinearOrder K] in
theorem ctl_conns (N L M Mt off : ℕ) (c : Obj × Obj) :
    c ∈ conns (digitalOps N L M Mt off : List (Op Obj K)) ↔
      ∃ i < Mt, ∃ s ∈ controlPins N L M, c = (.own s, .pin (fmt "Xmic_" (off + i) "") s) := by
  unfold digitalOps
  rw [conns_append, conns_map_add, List.nil_append, conns_flatMap, List.mem_flatMap]
  constructor
  · rintro ⟨i, hi, hc⟩
    refine ⟨i, List.mem_range.mp hi, ?_⟩
    simp only [List.map_cons, List.map_nil, List.cons_append, List.nil_append, conns, conns_append,
      conns_flatMap, List.mem_cons, List.mem_append, List.mem_flatMap, List.mem_range,
      List.not_mem_nil, or_false] at hc
    simp only [controlPins, List.mem_append, List.mem_cons, List.not_mem_nil, or_false, List.mem_map,
      List.mem_range]
    rcases hc with rfl | rfl | rfl | rfl | (⟨n, hn, rfl | rfl⟩ | ⟨n, hn, rfl | rfl⟩) | ⟨n, hn, rfl | rfl⟩
    all_goals refine ⟨_, ?_, rfl⟩
    · simp
    · simp
    · simp
    · simp
    · exact Or.inl (Or.inl (Or.inl (Or.inl (Or.inl (Or.inr ⟨n, hn, rfl⟩)))))
    · exact Or.inl (Or.inl (Or.inl (Or.inl (Or.inr ⟨n, hn, rfl⟩))))
    · exact Or.inl (Or.inl (Or.inl (Or.inr ⟨n, hn, rfl⟩)))
    · exact Or.inl (Or.inl (Or.inr ⟨n, hn, rfl⟩))
    · exact Or.inl (Or.inr ⟨n, hn, rfl⟩)
    · exact Or.inr ⟨n, hn, rfl⟩
  · rintro ⟨i, hi, s, hs, rfl⟩
    refine ⟨i, List.mem_range.mpr hi, ?_⟩
    simp only [List.map_cons, List.map_nil, List.cons_append, List.nil_append, conns, conns_append,
      conns_flatMap, List.mem_cons, List.mem_append, List.mem_flatMap, List.mem_range,
      List.not_mem_nil, or_false]
    simp only [controlPins, List.mem_append, List.mem_cons, List.not_mem_nil, or_false, List.mem_map,
      List.mem_range] at hs
    rcases hs with ((((((rfl | rfl | rfl | rfl) | ⟨n, hn, rfl⟩) | ⟨n, hn, rfl⟩) | ⟨n, hn, rfl⟩) |
      ⟨n, hn, rfl⟩) | ⟨n, hn, rfl⟩) | ⟨n, hn, rfl⟩
    · exact Or.inr (Or.inl rfl)
    · exact Or.inr (Or.inr (Or.inl rfl))
    · exact Or.inl rfl
    · exact Or.inr (Or.inr (Or.inr (Or.inl rfl)))
    · exact Or.inr (Or.inr (Or.inr (Or.inr (Or.inl (Or.inl ⟨n, hn, Or.inl rfl⟩)))))
    · exact Or.inr (Or.inr (Or.inr (Or.inr (Or.inl (Or.inl ⟨n, hn, Or.inr rfl⟩)))))
    · exact Or.inr (Or.inr (Or.inr (Or.inr (Or.inl (Or.inr ⟨n, hn, Or.inl rfl⟩)))))
    · exact Or.inr (Or.inr (Or.inr (Or.inr (Or.inl (Or.inr ⟨n, hn, Or.inr rfl⟩)))))
    · exact Or.inr (Or.inr (Or.inr (Or.inr (Or.inr ⟨n, hn, Or.inl rfl⟩))))
    · exact Or.inr (Or.inr (Or.inr (Or.inr (Or.inr ⟨n, hn, Or.inr rfl⟩))))

theorem mic_inj : Function.Injective fun m : ℕ => fmt "Xmic_" m "" := by
  intro a b h
  dsimp only at h
  names at h
  exact h

theorem pins_ne (N L M : ℕ) (s : String) (hs : s ∈ controlPins N L M) : s ≠ "" := by
  simp only [controlPins, List.mem_append, List.mem_cons, List.not_mem_nil, or_false, List.mem_map,
    List.mem_range] at hs
  rcases hs with ((((((rfl | rfl | rfl | rfl) | ⟨n, hn, rfl⟩) | ⟨n, hn, rfl⟩) | ⟨n, hn, rfl⟩) |
    ⟨n, hn, rfl⟩) | ⟨n, hn, rfl⟩) | ⟨n, hn, rfl⟩ <;>
    first | decide | exact fmt_ne_empty _ _ _ (by decide)

omit [Field K] [LinearOrder K] in
theorem ctl_netlist (ids : String → ℕ → String) (N L M Mt off : ℕ) (h : M - off = Mt) :
    ∃ s : Sub Obj K, Sub.run (Obj.name ids) (digitalOps N L M Mt off) .empty = .ok s ∧
      s.netlist (Obj.name ids) = ctlNet N L M off := by
  have hp : parts (digitalOps N L M Mt off : List (Op Obj K)) = (List.range (M - off)).map fun i =>
      ⟨fmt "Xmic_" (off + i) "", .sub (fmt "multi_input_comparator_" (off + i) ""),
        (controlPins N L M).map (.pin (fmt "Xmic_" (off + i) ""))⟩ := by
    unfold digitalOps
    simp only [List.map_cons, List.map_nil, List.cons_append, List.nil_append, parts, parts_append,
      parts_flatMap, parts_map_add, flatMap_none, List.append_nil]
  have hnd : ((Sub.empty.parts ++ parts (digitalOps N L M Mt off : List (Op Obj K))).map
      Part.inst).Nodup := by
    rw [show (Sub.empty : Sub Obj K).parts = [] from rfl, List.nil_append, hp, List.map_map]
    refine List.Nodup.map ?_ List.nodup_range
    intro a b e
    have := mic_inj e
    omega
  have hform : ∀ c ∈ conns (digitalOps N L M Mt off : List (Op Obj K)),
      (∃ (q : ℕ) (s : String), c = (.own s, .pin (fmt "Xmic_" q "") s)) ∨
      ∃ (q : ℕ) (i : ℕ), c = (.own "", .num (fmt "Xmic_" q "") i) := by
    intro c hc
    obtain ⟨i, -, s, -, rfl⟩ := (ctl_conns N L M Mt off c).mp hc
    exact Or.inl ⟨_, _, rfl⟩
  have hne : ∀ c ∈ conns (digitalOps N L M Mt off : List (Op Obj K)), c.1.name ids ≠ "" := by
    intro c hc
    obtain ⟨i, -, s, hs, rfl⟩ := (ctl_conns N L M Mt off c).mp hc
    exact pins_ne N L M s hs
  have hnode := fun c hc => (hub_node mic_inj (fun _ s => s) (fun _ _ => "") ids _ hform hne c hc).2
  refine ⟨_, run_eq (Obj.name ids) _ .empty hnd, ?_⟩
  change (parts (digitalOps N L M Mt off : List (Op Obj K))).map (Part.line (Obj.name ids)
    (Wires.connects (Obj.name ids) (conns (digitalOps N L M Mt off : List (Op Obj K))) .empty)) = _
  rw [hp, List.map_map]
  unfold ctlNet
  apply List.map_congr_left
  intro i hi
  rw [List.mem_range] at hi
  simp only [Function.comp, Part.line, nodeOrder, List.map_map]
  congr 1
  conv_rhs => rw [← List.map_id (controlPins N L M)]
  apply List.map_congr_left
  intro s hs
  exact hnode _ ((ctl_conns N L M Mt off _).mpr ⟨i, by omega, s, hs, rfl⟩)

end

/-! ## The property -/

theorem gains_sum (S : Analog.Sys ℝ) (GT : ℕ → ℕ → ℝ) (k : ℕ) (f : ℕ → ℝ) :
    (gains S GT k).length = S.N + S.L + S.M ∧
    ∑ i ∈ Finset.range (S.N + S.L + S.M), (gains S GT k).getD i 0 * f i =
      ∑ i ∈ Finset.range S.N, GT k i * f i + ∑ i ∈ Finset.range S.L, S.Bt k i * f (S.N + i)
        + ∑ i ∈ Finset.range S.M, S.At k i * f (S.N + S.L + i) := by
  constructor
  · unfold gains
    simp [Nat.add_assoc]
  · rw [Finset.sum_range_add, Finset.sum_range_add]
    have e1 : ∀ i < S.N, (gains S GT k).getD i 0 = GT k i := by
      intro i hi
      unfold gains
      simp [List.getD, hi, Nat.lt_add_right]
    have e2 : ∀ i < S.L, (gains S GT k).getD (S.N + i) 0 = S.Bt k i := by
      intro i hi
      unfold gains
      simp [List.getD, List.getElem?_append, hi]
    have e3 : ∀ i < S.M, (gains S GT k).getD (S.N + S.L + i) 0 = S.At k i := by
      intro i hi
      unfold gains
      rw [List.getD_eq_getElem?_getD, List.getElem?_append_right (by simp), List.length_append,
        List.length_map, List.length_map, List.length_range, List.length_range, Nat.add_sub_cancel_left]
      simp [hi]
    congr 1
    · congr 1
      · exact Finset.sum_congr rfl fun i hi => by rw [e1 i (Finset.mem_range.mp hi)]
      · exact Finset.sum_congr rfl fun i hi => by rw [e2 i (Finset.mem_range.mp hi)]
    · exact Finset.sum_congr rfl fun i hi => by rw [e3 i (Finset.mem_range.mp hi)]

/-- The summer line of a comparator computes the control observation. -/
theorem summer_iff (law : Law) (sol : Sol) (S : Analog.Sys ℝ) (GT : ℕ → ℕ → ℝ) (k : ℕ) (mid : ℝ) :
    Obeys law sol ⟨"As", .sum (gains S GT k) mid, (List.range (S.N + S.L + S.M)).flatMap
      (fun i => [inputName S.N S.L i "_P", inputName S.N S.L i "_N"]) ++ ["STILDE"]⟩ ↔
    ∀ t, sol.v "STILDE" t =
        ∑ i ∈ Finset.range S.N, GT k i * diff sol (fmt "X" i "_P") (fmt "X" i "_N") t
        + ∑ i ∈ Finset.range S.L, S.Bt k i * diff sol (fmt "IN" i "_P") (fmt "IN" i "_N") t
        + ∑ i ∈ Finset.range S.M, S.At k i * diff sol (fmt "S" i "_P") (fmt "S" i "_N") t + mid ∧
      ∀ j < 2 * (S.N + S.L + S.M), sol.i "As" j t = 0 := by
  unfold Obeys
  dsimp only
  rw [(gains_sum S GT k fun _ => 0).1, List.length_append, pairs_length]
  simp only [List.length_cons, List.length_nil, zero_add, true_and]
  have hout : ((List.range (S.N + S.L + S.M)).flatMap
      (fun i => [inputName S.N S.L i "_P", inputName S.N S.L i "_N"]) ++ ["STILDE"]).getD
        (2 * (S.N + S.L + S.M)) "" = "STILDE" := by
    rw [List.getD_eq_getElem?_getD, List.getElem?_append_right (by rw [pairs_length]), pairs_length]
    simp
  have hin : ∀ i < S.N + S.L + S.M, ((List.range (S.N + S.L + S.M)).flatMap
      (fun i => [inputName S.N S.L i "_P", inputName S.N S.L i "_N"]) ++ ["STILDE"]).getD
        (2 * i) "" = inputName S.N S.L i "_P" ∧ ((List.range (S.N + S.L + S.M)).flatMap
      (fun i => [inputName S.N S.L i "_P", inputName S.N S.L i "_N"]) ++ ["STILDE"]).getD
        (2 * i + 1) "" = inputName S.N S.L i "_N" := by
    intro i hi
    have := pairs_get (S.N + S.L + S.M) (fun i => inputName S.N S.L i "_P")
      (fun i => inputName S.N S.L i "_N") i hi
    rw [List.getD_eq_getElem?_getD, List.getD_eq_getElem?_getD,
      List.getElem?_append_left (by rw [pairs_length]; omega),
      List.getElem?_append_left (by rw [pairs_length]; omega), this.1, this.2]
    exact ⟨rfl, rfl⟩
  rw [hout]
  have hs : ∀ t, ∑ i ∈ Finset.range (S.N + S.L + S.M), (gains S GT k).getD i 0 *
      (sol.v (((List.range (S.N + S.L + S.M)).flatMap
        (fun i => [inputName S.N S.L i "_P", inputName S.N S.L i "_N"]) ++ ["STILDE"]).getD
          (2 * i) "") t - sol.v (((List.range (S.N + S.L + S.M)).flatMap
        (fun i => [inputName S.N S.L i "_P", inputName S.N S.L i "_N"]) ++ ["STILDE"]).getD
          (2 * i + 1) "") t) =
      ∑ i ∈ Finset.range S.N, GT k i * diff sol (fmt "X" i "_P") (fmt "X" i "_N") t
        + ∑ i ∈ Finset.range S.L, S.Bt k i * diff sol (fmt "IN" i "_P") (fmt "IN" i "_N") t
        + ∑ i ∈ Finset.range S.M, S.At k i * diff sol (fmt "S" i "_P") (fmt "S" i "_N") t := by
    intro t
    rw [Finset.sum_congr rfl (g := fun i => (gains S GT k).getD i 0 *
      (sol.v (inputName S.N S.L i "_P") t - sol.v (inputName S.N S.L i "_N") t))
      (fun i hi => by
        obtain ⟨h1, h2⟩ := hin i (Finset.mem_range.mp hi)
        rw [h1, h2]), (gains_sum S GT k _).2]
    unfold diff
    congr 1
    · congr 1
      · refine Finset.sum_congr rfl fun i hi => ?_
        have hi := Finset.mem_range.mp hi
        unfold inputName
        rw [if_pos hi, if_pos hi]
      · refine Finset.sum_congr rfl fun i hi => ?_
        have hi := Finset.mem_range.mp hi
        unfold inputName
        rw [if_neg (by omega), if_pos (by omega), if_neg (by omega), if_pos (by omega),
          Nat.add_sub_cancel_left]
    · refine Finset.sum_congr rfl fun i hi => ?_
      unfold inputName
      rw [if_neg (by omega), if_neg (by omega), if_neg (by omega), if_neg (by omega),
        show S.N + S.L + i - S.N - S.L = i by omega]
  simp only [hs]

/-- C94, which analog systems are accepted: the constructor of the digital control circuit succeeds
exactly when there are as many rows of the control observation as controls without dither. -/
theorem C94_shape (ids : String → ℕ → String) (S : Analog.Sys ℝ) (off : ℕ) (mid : ℝ)
    (hS : S.GammaT = none → S.Mt = 0) :
    (∃ r, digitalControl ids S off mid = .ok r) ↔ S.M - off = S.Mt := by
  constructor
  · rintro ⟨r, hr⟩
    unfold digitalControl at hr
    by_cases h1 : S.M - off < S.Mt
    · split at hr
      · cases hr
      · rw [if_pos h1] at hr
        cases hr
    · by_contra hne
      have : ∃ e, multiComparator ids S (off + (S.M - off - 1)) (S.M - off - 1) mid = .error e := by
        unfold multiComparator
        split
        · exact ⟨_, rfl⟩
        · rw [if_pos (by omega)]
          exact ⟨_, rfl⟩
      obtain ⟨e, he⟩ := this
      obtain ⟨e', he'⟩ := Synthesis.mapM_error (fun i => multiComparator ids S (off + i) i mid)
        (List.range (S.M - off)) (S.M - off - 1) (List.mem_range.mpr (by omega)) e he
      rw [he'] at hr
      cases hr
  · intro h
    obtain ⟨s, hs, -⟩ := ctl_netlist (K := ℝ) ids S.N S.L S.M S.Mt off h
    unfold digitalControl
    cases hG : S.GammaT with
    | none =>
      rw [h, hS hG]
      exact ⟨(s, []), by rw [hS hG] at hs; rw [hs]; rfl⟩
    | some GT =>
      rw [mapM_ok _ _ (fun i => coDef S GT (off + i) i mid)
        (fun i hi => co_def ids S _ _ mid GT hG (by rw [List.mem_range] at hi; omega))]
      dsimp only
      rw [if_neg (by omega), hs]
      exact ⟨_, rfl⟩

theorem cpins_mem (N L M : ℕ) (s : String) : s ∈ controlPins N L M ↔
    (s = "VSS" ∨ s = "VDD" ∨ s = "CLK" ∨ s = "VCM") ∨
    (∃ n < N, s = fmt "X" n "_P" ∨ s = fmt "X" n "_N") ∨
    (∃ n < L, s = fmt "IN" n "_P" ∨ s = fmt "IN" n "_N") ∨
    ∃ n < M, s = fmt "S" n "_P" ∨ s = fmt "S" n "_N" := by
  simp only [controlPins, List.mem_append, List.mem_cons, List.not_mem_nil, or_false, List.mem_map,
    List.mem_range]
  constructor
  · rintro ((((((h | ⟨n, hn, h⟩) | ⟨n, hn, h⟩) | ⟨n, hn, h⟩) | ⟨n, hn, h⟩) | ⟨n, hn, h⟩) |
      ⟨n, hn, h⟩)
    · exact Or.inl h
    · exact Or.inr (Or.inl ⟨n, hn, Or.inl h.symm⟩)
    · exact Or.inr (Or.inl ⟨n, hn, Or.inr h.symm⟩)
    · exact Or.inr (Or.inr (Or.inl ⟨n, hn, Or.inl h.symm⟩))
    · exact Or.inr (Or.inr (Or.inl ⟨n, hn, Or.inr h.symm⟩))
    · exact Or.inr (Or.inr (Or.inr ⟨n, hn, Or.inl h.symm⟩))
    · exact Or.inr (Or.inr (Or.inr ⟨n, hn, Or.inr h.symm⟩))
  · rintro (h | ⟨n, hn, h | h⟩ | ⟨n, hn, h | h⟩ | ⟨n, hn, h | h⟩)
    · exact Or.inl (Or.inl (Or.inl (Or.inl (Or.inl (Or.inl h)))))
    · exact Or.inl (Or.inl (Or.inl (Or.inl (Or.inl (Or.inr ⟨n, hn, h.symm⟩)))))
    · exact Or.inl (Or.inl (Or.inl (Or.inl (Or.inr ⟨n, hn, h.symm⟩))))
    · exact Or.inl (Or.inl (Or.inl (Or.inr ⟨n, hn, h.symm⟩)))
    · exact Or.inl (Or.inl (Or.inr ⟨n, hn, h.symm⟩))
    · exact Or.inl (Or.inr ⟨n, hn, h.symm⟩)
    · exact Or.inr ⟨n, hn, h.symm⟩

/-- The constructor of the digital control, in the case where it succeeds. -/
theorem control_ok (ids : String → ℕ → String) (S : Analog.Sys ℝ) (off : ℕ) (mid : ℝ)
    (GT : ℕ → ℕ → ℝ) (hG : S.GammaT = some GT) (hM : S.M - off = S.Mt) :
    ∃ c, digitalControl ids S off mid =
      .ok (c, (List.range (S.M - off)).map fun i => coDef S GT (off + i) i mid) ∧
      c.netlist (Obj.name ids) = ctlNet S.N S.L S.M off := by
  obtain ⟨c, hc, hn⟩ := ctl_netlist (K := ℝ) ids S.N S.L S.M S.Mt off hM
  refine ⟨c, ?_, hn⟩
  unfold digitalControl
  rw [mapM_ok _ _ (fun i => coDef S GT (off + i) i mid)
    (fun i hi => co_def ids S _ _ mid GT hG (by rw [List.mem_range] at hi; omega))]
  dsimp only
  rw [if_neg (by omega), hc]

/-- A comparator with the definition `coDef`, seen from outside. -/
theorem comparator_obeys (law : Law) (S : Analog.Sys ℝ) (GT : ℕ → ℕ → ℝ) (m k : ℕ) (hm : m < S.M)
    (mid : ℝ) (pot : String → ℝ → ℝ) (j : ℕ → ℝ → ℝ)
    (h : ObeysDef law (coDef S GT m k mid) (fun i => pot ((controlPins S.N S.L S.M).getD i "")) j) :
    ∃ v j, law "clocked_comparator" v j ∧ v 0 = pot "CLK" ∧ v 4 = pot "VCM" ∧
      v 2 = pot (fmt "S" m "_P") ∧ v 3 = pot (fmt "S" m "_N") ∧ ∀ t, v 1 t =
        ∑ i ∈ Finset.range S.N, GT k i * (pot (fmt "X" i "_P") t - pot (fmt "X" i "_N") t)
        + ∑ i ∈ Finset.range S.L, S.Bt k i * (pot (fmt "IN" i "_P") t - pot (fmt "IN" i "_N") t)
        + ∑ i ∈ Finset.range S.M, S.At k i * (pot (fmt "S" i "_P") t - pot (fmt "S" i "_N") t) + mid := by
  obtain ⟨so, ho, hp, -⟩ := h
  have hpin : ∀ s ∈ controlPins S.N S.L S.M, so.v s = pot s := by
    intro s hs
    obtain ⟨k, hk, e⟩ := List.getElem_of_mem hs
    have := (hp k hk).1
    dsimp only [coDef] at this
    rw [e, List.getD_eq_getElem?_getD, List.getElem?_eq_getElem hk, e] at this
    exact this
  have h1 := (summer_iff law so S GT k mid).mp (ho _ List.mem_cons_self)
  have h2 : law "clocked_comparator"
      (fun i => so.v (["CLK", "STILDE", fmt "S" m "_P", fmt "S" m "_N", "VCM"].getD i "")) (so.i "Xcomp") :=
    ho _ (List.mem_cons_of_mem _ List.mem_cons_self)
  refine ⟨_, _, h2, hpin _ ((cpins_mem _ _ _ _).mpr (by simp)), hpin _ ((cpins_mem _ _ _ _).mpr (by simp)),
    hpin _ ((cpins_mem _ _ _ _).mpr (Or.inr (Or.inr (Or.inr ⟨m, hm, Or.inl rfl⟩)))),
    hpin _ ((cpins_mem _ _ _ _).mpr (Or.inr (Or.inr (Or.inr ⟨m, hm, Or.inr rfl⟩)))), ?_⟩
  intro t
  change so.v "STILDE" t = _
  rw [(h1 t).1]
  unfold diff
  congr 1
  congr 1
  · congr 1
    · refine Finset.sum_congr rfl fun i hi => ?_
      have hi := Finset.mem_range.mp hi
      rw [hpin _ ((cpins_mem _ _ _ _).mpr (Or.inr (Or.inl ⟨i, hi, Or.inl rfl⟩))),
        hpin _ ((cpins_mem _ _ _ _).mpr (Or.inr (Or.inl ⟨i, hi, Or.inr rfl⟩)))]
    · refine Finset.sum_congr rfl fun i hi => ?_
      have hi := Finset.mem_range.mp hi
      rw [hpin _ ((cpins_mem _ _ _ _).mpr (Or.inr (Or.inr (Or.inl ⟨i, hi, Or.inl rfl⟩)))),
        hpin _ ((cpins_mem _ _ _ _).mpr (Or.inr (Or.inr (Or.inl ⟨i, hi, Or.inr rfl⟩))))]
  · refine Finset.sum_congr rfl fun i hi => ?_
    have hi := Finset.mem_range.mp hi
    rw [hpin _ ((cpins_mem _ _ _ _).mpr (Or.inr (Or.inr (Or.inr ⟨i, hi, Or.inl rfl⟩)))),
      hpin _ ((cpins_mem _ _ _ _).mpr (Or.inr (Or.inr (Or.inr ⟨i, hi, Or.inr rfl⟩))))]

/-- C94: in every solution of the digital control circuit, the comparator of control `off + i`
compares, up to the offset `mid`, entry `i` of what `control_observation` returns for the states,
inputs and controls at the terminals of the circuit; it is clocked by `CLK` and its outputs are the
terminals `S{off + i}_P` and `S{off + i}_N`. -/
theorem C94_observation (ids : String → ℕ → String) (S : Analog.Sys ℝ) (off : ℕ) (mid : ℝ)
    (GT : ℕ → ℕ → ℝ) (hG : S.GammaT = some GT) (hM : S.M - off = S.Mt) :
    ∃ c ds, digitalControl ids S off mid = .ok (c, ds) ∧ ds.length = S.Mt ∧
      ∀ (law : Law) (sol : Sol),
        (∀ i D, ds[i]? = some D → ∀ v j, law (fmt "multi_input_comparator_" (off + i) "") v j →
          ObeysDef law D v j) →
        (∀ l ∈ c.netlist (Obj.name ids), Obeys law sol l) →
        ∀ i < S.Mt, ∃ v j, law "clocked_comparator" v j ∧ v 0 = sol.v "CLK" ∧ v 4 = sol.v "VCM" ∧
          v 2 = sol.v (fmt "S" (off + i) "_P") ∧ v 3 = sol.v (fmt "S" (off + i) "_N") ∧
          ∀ t, ∃ y : Analog.Vec ℝ, S.controlObservation
            ⟨S.N, fun n => diff sol (fmt "X" n "_P") (fmt "X" n "_N") t⟩
            (some ⟨S.L, fun l => diff sol (fmt "IN" l "_P") (fmt "IN" l "_N") t⟩)
            (some ⟨S.M, fun m => diff sol (fmt "S" m "_P") (fmt "S" m "_N") t⟩) = .ok y ∧
            v 1 t = y.v i + mid := by
  obtain ⟨c, hc, hn⟩ := control_ok ids S off mid GT hG hM
  refine ⟨c, _, hc, by simp [hM], ?_⟩
  intro law sol hlaw hob i hi
  have hl : law (fmt "multi_input_comparator_" (off + i) "")
      (fun k => sol.v ((controlPins S.N S.L S.M).getD k "")) (sol.i (fmt "Xmic_" (off + i) "")) := by
    refine hob ⟨fmt "Xmic_" (off + i) "", .sub (fmt "multi_input_comparator_" (off + i) ""),
      controlPins S.N S.L S.M⟩ ?_
    rw [hn]
    exact List.mem_map.mpr ⟨i, List.mem_range.mpr (by omega), rfl⟩
  have hD := hlaw i (coDef S GT (off + i) i mid) (by simp [show i < S.M - off by omega]) _ _ hl
  obtain ⟨v, j, h1, h2, h3, h4, h5, h6⟩ := comparator_obeys law S GT (off + i) i (by omega) mid sol.v _ hD
  refine ⟨v, j, h1, h2, h3, h4, h5, ?_⟩
  intro t
  refine ⟨_, by
    unfold Analog.Sys.controlObservation Analog.npDot
    rw [hG]
    dsimp only
    rw [if_neg (by simp), if_neg (by simp), if_neg (by simp)]
    rfl, ?_⟩
  rw [h6 t]
  rfl

theorem stilde_ne (n : ℕ) (suf : String) : fmt "S" n suf ≠ "STILDE" := by
  intro h
  unfold fmt at h
  replace h := congrArg String.toList h
  simp [String.toList_append] at h
  cases hd : Nat.toDigits 10 n with
  | nil => exact Nat.toDigits_ne_nil hd
  | cons a as =>
    rw [hd, List.cons_append] at h
    have ha : a = 'T' := (List.cons.inj h).1
    have : a.isDigit = true := Nat.isDigit_of_mem_toDigits (b := 10) (by omega) (by omega)
      (hd ▸ List.mem_cons_self)
    rw [ha] at this
    revert this
    decide

/-- C94, the drivers of the controls: inside the comparator of control `m`, the terminals of control
`j` are only sensed by the summer, except that the comparator drives the terminals of its own
control. -/
theorem C94_drivers (ids : String → ℕ → String) (S : Analog.Sys ℝ) (off : ℕ) (mid : ℝ)
    (GT : ℕ → ℕ → ℝ) (hG : S.GammaT = some GT) (hM : S.M - off = S.Mt) :
    ∃ c ds, digitalControl ids S off mid = .ok (c, ds) ∧ ∀ i D, ds[i]? = some D → ∀ j < S.M, ∀ e k,
      (At D.body e k (fmt "S" j "_P") →
        (e = "As" ∧ k < 2 * (S.N + S.L + S.M)) ∨ (j = off + i ∧ e = "Xcomp" ∧ k = 2)) ∧
      (At D.body e k (fmt "S" j "_N") →
        (e = "As" ∧ k < 2 * (S.N + S.L + S.M)) ∨ (j = off + i ∧ e = "Xcomp" ∧ k = 3)) := by
  obtain ⟨c, hc, -⟩ := control_ok ids S off mid GT hG hM
  refine ⟨c, _, hc, ?_⟩
  intro i D hD j hj e k
  rw [List.getElem?_map] at hD
  obtain ⟨i', hi', rfl⟩ := Option.map_eq_some_iff.mp hD
  obtain rfl : i' = i := by
    rw [List.getElem?_eq_some_iff] at hi'
    obtain ⟨h, e⟩ := hi'
    rw [List.getElem_range] at e
    exact e.symm
  have key : ∀ x, At (coDef S GT (off + i') i' mid).body e k x → x ≠ "STILDE" →
      (e = "As" ∧ k < 2 * (S.N + S.L + S.M)) ∨ (e = "Xcomp" ∧
        ["CLK", "STILDE", fmt "S" (off + i') "_P", fmt "S" (off + i') "_N", "VCM"][k]? = some x) := by
    rintro x ⟨l, hl, rfl, hk⟩ hx
    simp only [coDef, List.mem_cons, List.not_mem_nil, or_false] at hl
    rcases hl with rfl | rfl
    · refine Or.inl ⟨rfl, ?_⟩
      by_contra hlt
      dsimp only at hk
      rw [List.getElem?_append_right (by rw [pairs_length]; omega), List.getElem?_singleton] at hk
      split_ifs at hk
      exact hx (Option.some.inj hk).symm
    · exact Or.inr ⟨rfl, hk⟩
  constructor
  · intro h
    rcases key _ h (stilde_ne _ _) with h | ⟨h1, h2⟩
    · exact Or.inl h
    · refine Or.inr ?_
      rcases k with _ | _ | _ | _ | _ | k <;> simp only [List.getElem?_cons_zero,
        List.getElem?_cons_succ, List.getElem?_nil, Option.some.injEq, reduceCtorEq] at h2
      · names at h2
      · exact absurd h2.symm (stilde_ne _ _)
      · names at h2
        exact ⟨h2.symm, h1, rfl⟩
      · names at h2
      · names at h2
  · intro h
    rcases key _ h (stilde_ne _ _) with h | ⟨h1, h2⟩
    · exact Or.inl h
    · refine Or.inr ?_
      rcases k with _ | _ | _ | _ | _ | k <;> simp only [List.getElem?_cons_zero,
        List.getElem?_cons_succ, List.getElem?_nil, Option.some.injEq, reduceCtorEq] at h2
      · names at h2
      · exact absurd h2.symm (stilde_ne _ _)
      · names at h2
      · names at h2
        exact ⟨h2.symm, h1, rfl⟩
      · names at h2

theorem inflow_none (v : String → ℝ → ℝ) (x : String) (t : ℝ) (l : Line ℝ) :
    inflow ⟨v, fun _ _ _ => 0⟩ x t l = 0 :=
  inflow_zero _ _ _ _ fun _ _ _ _ => rfl

theorem leaving_none (v : String → ℝ → ℝ) (x : String) (t : ℝ) (b : List (Line ℝ)) :
    leaving ⟨v, fun _ _ _ => 0⟩ b x t = 0 := by
  unfold leaving
  apply List.sum_eq_zero
  intro y hy
  obtain ⟨l, -, rfl⟩ := List.mem_map.mp hy
  exact inflow_none _ _ _ _

/-- What the summer of row `i` puts out for given potentials. -/
noncomputable def summed (S : Analog.Sys ℝ) (GT : ℕ → ℕ → ℝ) (mid : ℝ) (pot : String → ℝ → ℝ) (i : ℕ) (t : ℝ) : ℝ :=
  ∑ n ∈ Finset.range S.N, GT i n * (pot (fmt "X" n "_P") t - pot (fmt "X" n "_N") t)
    + ∑ n ∈ Finset.range S.L, S.Bt i n * (pot (fmt "IN" n "_P") t - pot (fmt "IN" n "_N") t)
    + ∑ n ∈ Finset.range S.M, S.At i n * (pot (fmt "S" n "_P") t - pot (fmt "S" n "_N") t) + mid

/-- A comparator with the definition `coDef` in which the inner comparator does what `P` asks for. -/
theorem comparator_real (S : Analog.Sys ℝ) (GT : ℕ → ℕ → ℝ) (m k : ℕ) (mid : ℝ) (pot : String → ℝ → ℝ)
    (P : (ℕ → ℝ → ℝ) → Prop)
    (hP : P fun q => Function.update pot "STILDE" (summed S GT mid pot k)
      (["CLK", "STILDE", fmt "S" m "_P", fmt "S" m "_N", "VCM"].getD q "")) :
    ObeysDef (fun _ v _ => P v) (coDef S GT m k mid) (fun q => pot ((controlPins S.N S.L S.M).getD q ""))
      (fun _ _ => 0) := by
  have hst : "STILDE" ∉ controlPins S.N S.L S.M := by
    rw [cpins_mem]
    rintro (h | ⟨n, hn, h | h⟩ | ⟨n, hn, h | h⟩ | ⟨n, hn, h | h⟩)
    · revert h; decide
    · names at h
    · names at h
    · names at h
    · names at h
    · exact stilde_ne _ _ h.symm
    · exact stilde_ne _ _ h.symm
  have hpot : ∀ (f : ℝ → ℝ) s, s ≠ "STILDE" → Function.update pot "STILDE" f s = pot s :=
    fun f s h => Function.update_of_ne h _ _
  refine ⟨⟨Function.update pot "STILDE" (summed S GT mid pot k),
    fun _ _ _ => 0⟩, ?_, ?_, ?_⟩
  · intro l hl
    simp only [coDef, List.mem_cons, List.not_mem_nil, or_false] at hl
    rcases hl with rfl | rfl
    · refine (summer_iff _ _ S GT k mid).mpr ?_
      intro t
      refine ⟨?_, fun _ _ => rfl⟩
      dsimp only [diff]
      rw [Function.update_self]
      unfold summed
      refine congrArg₂ _ (congrArg₂ _ ?_ ?_) rfl
      · refine congrArg₂ _ ?_ ?_
        · refine Finset.sum_congr rfl fun n _ => ?_
          rw [hpot _ _ (by intro h; names at h), hpot _ _ (by intro h; names at h)]
        · refine Finset.sum_congr rfl fun n _ => ?_
          rw [hpot _ _ (by intro h; names at h), hpot _ _ (by intro h; names at h)]
      · refine Finset.sum_congr rfl fun n _ => ?_
        rw [hpot _ _ (stilde_ne _ _), hpot _ _ (stilde_ne _ _)]
    · exact hP
  · intro q hk
    refine ⟨?_, ?_⟩
    · dsimp only [coDef] at hk ⊢
      rw [hpot, List.getD_eq_getElem?_getD, List.getElem?_eq_getElem hk]
      · rfl
      · intro h
        exact hst (h ▸ List.getElem_mem hk)
    · funext t
      exact (leaving_none _ _ _ _).symm
  · intro a _ t
    exact leaving_none _ _ _ _

/-- Potentials at which the comparators do what `P` asks for belong to a solution. -/
theorem realisable_with (ids : String → ℕ → String) (S : Analog.Sys ℝ) (off : ℕ) (mid : ℝ)
    (GT : ℕ → ℕ → ℝ) (hG : S.GammaT = some GT) (hM : S.M - off = S.Mt) (pot : String → ℝ → ℝ)
    (P : (ℕ → ℝ → ℝ) → Prop)
    (hP : ∀ i < S.Mt, P fun k => Function.update pot "STILDE" (summed S GT mid pot i)
      (["CLK", "STILDE", fmt "S" (off + i) "_P", fmt "S" (off + i) "_N", "VCM"].getD k "")) :
    ∃ c ds, digitalControl ids S off mid = .ok (c, ds) ∧ ∃ (law : Law) (sol : Sol), sol.v = pot ∧
      (∀ v j, law "clocked_comparator" v j ↔ P v) ∧
      (∀ i D, ds[i]? = some D → ∀ v j, law (fmt "multi_input_comparator_" (off + i) "") v j →
        ObeysDef law D v j) ∧
      ∀ l ∈ c.netlist (Obj.name ids), Obeys law sol l := by
  obtain ⟨c, hc, hn⟩ := control_ok ids S off mid GT hG hM
  refine ⟨c, _, hc, fun name v j => (name = "clocked_comparator" ∧ P v) ∨ ∃ i < S.M - off,
    name = fmt "multi_input_comparator_" (off + i) "" ∧
      ObeysDef (fun _ v _ => P v) (coDef S GT (off + i) i mid) v j, ⟨pot, fun _ _ _ => 0⟩, rfl, ?_, ?_, ?_⟩
  · intro v j
    constructor
    · rintro (⟨-, h⟩ | ⟨i, -, h, -⟩)
      · exact h
      · names at h
    · exact fun h => Or.inl ⟨rfl, h⟩
  · intro i D hD v j hl
    rw [List.getElem?_map] at hD
    obtain ⟨i', hi', rfl⟩ := Option.map_eq_some_iff.mp hD
    obtain rfl : i' = i := by
      rw [List.getElem?_eq_some_iff] at hi'
      obtain ⟨h, e⟩ := hi'
      rw [List.getElem_range] at e
      exact e.symm
    rcases hl with ⟨h, -⟩ | ⟨i, hi, h, so, ho, hp⟩
    · names at h
    · names at h
      subst h
      refine ⟨so, ?_, hp⟩
      intro l hl
      have := ho l hl
      simp only [coDef, List.mem_cons, List.not_mem_nil, or_false] at hl
      rcases hl with rfl | rfl
      · exact this
      · exact Or.inl ⟨rfl, this⟩
  · intro l hl
    rw [hn] at hl
    obtain ⟨i, hi, rfl⟩ := List.mem_map.mp hl
    have hi := List.mem_range.mp hi
    refine Or.inr ⟨i, hi, rfl, ?_⟩
    exact comparator_real S GT (off + i) i mid pot P (hP i (by omega))

/-- C94, the hypotheses of `C94_observation` are met: any potentials of the states, inputs and controls
belong to a solution (with comparators that accept everything). -/
theorem C94_realisable (ids : String → ℕ → String) (S : Analog.Sys ℝ) (off : ℕ) (mid : ℝ)
    (GT : ℕ → ℕ → ℝ) (hG : S.GammaT = some GT) (hM : S.M - off = S.Mt) (pot : String → ℝ → ℝ) :
    ∃ c ds, digitalControl ids S off mid = .ok (c, ds) ∧ ∃ (law : Law) (sol : Sol), sol.v = pot ∧
      (∀ i D, ds[i]? = some D → ∀ v j, law (fmt "multi_input_comparator_" (off + i) "") v j →
        ObeysDef law D v j) ∧
      ∀ l ∈ c.netlist (Obj.name ids), Obeys law sol l := by
  obtain ⟨c, ds, hc, law, sol, h1, -, h2, h3⟩ :=
    realisable_with ids S off mid GT hG hM pot (fun _ => True) fun _ _ => trivial
  exact ⟨c, ds, hc, law, sol, h1, h2, h3⟩

/-- `C94_observation`, `C94_drivers`: A system with two states, one input, a dither control and one control without dither. -/
example : ∃ r, digitalControl (fun e k => fmt e k "")
    (⟨2, 1, 2, 1, 1, fun _ _ => 0, fun _ _ => 1, fun _ _ => 1, some fun _ _ => 1,
      some fun _ n => if n = 1 then 1 else 0, fun _ _ => 0, fun _ _ => 0, fun _ _ => 0⟩ : Analog.Sys ℝ)
    1 (1 / 2) = .ok r :=
  (C94_shape _ _ _ _ (by simp)).mpr rfl

end Cbadc.Circuit
