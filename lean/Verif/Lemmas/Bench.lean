import Verif.Lemmas.Loose
import Verif.Lemmas.TestBench
import Verif.Model.Bench

/-! # Lemmas on the constructors of the test benches -/

namespace Cbadc.TestBench
open Circuit Circuit.Spec

theorem mem_group {s pre suf : String} {n : ℕ} : s ∈ group pre suf n ↔ ∃ i < n, s = fmt pre i suf := by
  unfold group
  simp only [List.mem_map, List.mem_range]
  constructor
  · rintro ⟨i, h, rfl⟩; exact ⟨i, h, rfl⟩
  · rintro ⟨i, h, rfl⟩; exact ⟨i, h, rfl⟩

theorem mem_tbPins {s : String} {n M : ℕ} : s ∈ tbPins n M ↔
    (s = "0" ∨ s = "VDD" ∨ s = "CLK" ∨ s = "VCM") ∨ (∃ i < n, s = fmt "IN" i "_P") ∨ (∃ i < n, s = fmt "IN" i "_N") ∨
      (∃ i < M, s = fmt "OUT" i "_P") ∨ ∃ i < M, s = fmt "OUT" i "_N" := by
  unfold tbPins
  simp only [List.mem_append, mem_group, List.mem_cons, List.not_mem_nil, or_false, or_assoc]

theorem mem_afPins {s : String} {L M : ℕ} : s ∈ afPins L M ↔
    (s = "VSS" ∨ s = "VDD" ∨ s = "CLK" ∨ s = "VCM") ∨ (∃ i < L, s = fmt "IN" i "_P") ∨ (∃ i < L, s = fmt "IN" i "_N") ∨
      (∃ i < M, s = fmt "OUT" i "_P") ∨ ∃ i < M, s = fmt "OUT" i "_N" := by
  unfold afPins
  simp only [List.mem_append, mem_group, List.mem_cons, List.not_mem_nil, or_false, or_assoc]

theorem in_notin_tbPins {n M l : ℕ} (h : n ≤ l) : fmt "IN" l "_P" ∉ tbPins n M := by
  rw [mem_tbPins]
  rintro ((e | e | e | e) | ⟨i, hi, e⟩ | ⟨i, hi, e⟩ | ⟨i, hi, e⟩ | ⟨i, hi, e⟩)
  · names at e
  · names at e
  · names at e
  · names at e
  · names at e
    omega
  · names at e
  · names at e
  · names at e

theorem group_nodup (pre suf : String) (n : ℕ) (h : ∀ i j, fmt pre i suf = fmt pre j suf → i = j) :
    (group pre suf n).Nodup :=
  List.Nodup.map (fun i j e => h i j e) List.nodup_range

theorem afPins_nodup (L M : ℕ) : (afPins L M).Nodup := by
  unfold afPins
  refine List.Nodup.append (List.Nodup.append (List.Nodup.append (List.Nodup.append (by decide) ?_ ?_) ?_ ?_) ?_ ?_) ?_ ?_
  · refine group_nodup _ _ _ fun i j e => ?_
    names at e; exact e
  · rw [List.disjoint_left]
    intro s hs hg
    obtain ⟨i, _, rfl⟩ := mem_group.mp hg
    simp only [List.mem_cons, List.not_mem_nil, or_false] at hs
    rcases hs with e | e | e | e <;> (names at e)
  · refine group_nodup _ _ _ fun i j e => ?_
    names at e; exact e
  · rw [List.disjoint_left]
    intro s hs hg
    obtain ⟨i, _, rfl⟩ := mem_group.mp hg
    simp only [List.mem_append, mem_group, List.mem_cons, List.not_mem_nil, or_false] at hs
    rcases hs with (e | e | e | e) | ⟨j, _, e⟩ <;> (names at e)
  · refine group_nodup _ _ _ fun i j e => ?_
    names at e; exact e
  · rw [List.disjoint_left]
    intro s hs hg
    obtain ⟨i, _, rfl⟩ := mem_group.mp hg
    simp only [List.mem_append, mem_group, List.mem_cons, List.not_mem_nil, or_false] at hs
    rcases hs with ((e | e | e | e) | ⟨j, _, e⟩) | ⟨j, _, e⟩ <;> (names at e)
  · refine group_nodup _ _ _ fun i j e => ?_
    names at e; exact e
  · rw [List.disjoint_left]
    intro s hs hg
    obtain ⟨i, _, rfl⟩ := mem_group.mp hg
    simp only [List.mem_append, mem_group, List.mem_cons, List.not_mem_nil, or_false] at hs
    rcases hs with (((e | e | e | e) | ⟨j, _, e⟩) | ⟨j, _, e⟩) | ⟨j, _, e⟩ <;> (names at e)

/-! ### The look ups -/

theorem mem_frontend {L M : ℕ} {c : Obj × Obj} : c ∈ frontendConns L M ↔
    ((c = (.own "0", .pin "Xaf" "VSS") ∨ c = (.own "VDD", .pin "Xaf" "VDD") ∨ c = (.own "CLK", .pin "Xaf" "CLK") ∨
      c = (.own "VCM", .pin "Xaf" "VCM")) ∨
    (∃ l < L, c = (.own (fmt "IN" l "_P"), .pin "Xaf" (fmt "IN" l "_P")) ∨
      c = (.own (fmt "IN" l "_N"), .pin "Xaf" (fmt "IN" l "_N"))) ∨
    ∃ m < M, c = (.own (fmt "OUT" m "_P"), .num "Aobs" (1 + m)) ∨
      c = (.own (fmt "OUT" m "_P"), .pin "Xaf" (fmt "OUT" m "_P")) ∨
      c = (.own (fmt "OUT" m "_N"), .pin "Xaf" (fmt "OUT" m "_N"))) := by
  unfold frontendConns
  simp only [List.mem_append, List.mem_cons, List.not_mem_nil, or_false, List.mem_flatMap, List.mem_range, or_assoc]

theorem lookup_own {n L M : ℕ} {s : String} (h : s ∈ tbPins n M) : lookup n L M (.own s) = .ok (.own s) := by
  unfold lookup
  dsimp only
  rw [if_pos h]

theorem lookup_pin {n L M : ℕ} {e s : String} (h : s ∈ afPins L M) : lookup n L M (.pin e s) = .ok (.pin e s) := by
  unfold lookup
  dsimp only
  rw [if_pos h]

theorem lookup_num {n L M : ℕ} {e : String} {k : ℕ} (h : k < M + 1) : lookup n L M (.num e k) = .ok (.num e k) := by
  unfold lookup
  dsimp only
  rw [if_pos h]

theorem lookupConn_ok {n L M : ℕ} {a b : Obj} (ha : lookup n L M a = .ok a) (hb : lookup n L M b = .ok b) :
    lookupConn n L M (a, b) = .ok (a, b) := by
  unfold lookupConn
  dsimp only
  rw [ha, hb]
  rfl

theorem lookup_frontend (n L M : ℕ) (c : Obj × Obj) (hc : c ∈ frontendConns L M) :
    lookupConn n L M c = .ok c ∨ (lookupConn n L M c = .error .valueError ∧ n < L) := by
  rcases mem_frontend.mp hc with (rfl | rfl | rfl | rfl) | ⟨l, hl, h⟩ | ⟨m, hm, h⟩
  · exact Or.inl (lookupConn_ok (lookup_own (mem_tbPins.mpr (Or.inl (by simp))))
      (lookup_pin (mem_afPins.mpr (Or.inl (by simp)))))
  · exact Or.inl (lookupConn_ok (lookup_own (mem_tbPins.mpr (Or.inl (by simp))))
      (lookup_pin (mem_afPins.mpr (Or.inl (by simp)))))
  · exact Or.inl (lookupConn_ok (lookup_own (mem_tbPins.mpr (Or.inl (by simp))))
      (lookup_pin (mem_afPins.mpr (Or.inl (by simp)))))
  · exact Or.inl (lookupConn_ok (lookup_own (mem_tbPins.mpr (Or.inl (by simp))))
      (lookup_pin (mem_afPins.mpr (Or.inl (by simp)))))
  · by_cases hln : l < n
    · refine Or.inl ?_
      rcases h with rfl | rfl
      · exact lookupConn_ok (lookup_own (mem_tbPins.mpr (Or.inr (Or.inl ⟨l, hln, rfl⟩))))
          (lookup_pin (mem_afPins.mpr (Or.inr (Or.inl ⟨l, hl, rfl⟩))))
      · exact lookupConn_ok (lookup_own (mem_tbPins.mpr (Or.inr (Or.inr (Or.inl ⟨l, hln, rfl⟩)))))
          (lookup_pin (mem_afPins.mpr (Or.inr (Or.inr (Or.inl ⟨l, hl, rfl⟩)))))
    · by_cases hown : lookupConn n L M c = .ok c
      · exact Or.inl hown
      · refine Or.inr ⟨?_, by omega⟩
        have key : ∀ s, s ∈ afPins L M → c = (.own s, .pin "Xaf" s) → lookupConn n L M c = .error .valueError := by
          intro s hs e
          subst e
          by_cases k : s ∈ tbPins n M
          · exact absurd (lookupConn_ok (lookup_own k) (lookup_pin hs)) hown
          · unfold lookupConn lookup
            dsimp only
            rw [if_neg k]
            rfl
        rcases h with h | h
        · exact key _ (mem_afPins.mpr (Or.inr (Or.inl ⟨l, hl, rfl⟩))) h
        · exact key _ (mem_afPins.mpr (Or.inr (Or.inr (Or.inl ⟨l, hl, rfl⟩)))) h
  · refine Or.inl ?_
    rcases h with rfl | rfl | rfl
    · exact lookupConn_ok (lookup_own (mem_tbPins.mpr (Or.inr (Or.inr (Or.inr (Or.inl ⟨m, hm, rfl⟩))))))
        (lookup_num (by omega))
    · exact lookupConn_ok (lookup_own (mem_tbPins.mpr (Or.inr (Or.inr (Or.inr (Or.inl ⟨m, hm, rfl⟩))))))
        (lookup_pin (mem_afPins.mpr (Or.inr (Or.inr (Or.inr (Or.inl ⟨m, hm, rfl⟩))))))
    · exact lookupConn_ok (lookup_own (mem_tbPins.mpr (Or.inr (Or.inr (Or.inr (Or.inr ⟨m, hm, rfl⟩))))))
        (lookup_pin (mem_afPins.mpr (Or.inr (Or.inr (Or.inr (Or.inr ⟨m, hm, rfl⟩))))))

theorem mapM_id {α : Type} (f : α → Res α) (l : List α) (h : ∀ a ∈ l, f a = .ok a) : l.mapM f = .ok l := by
  induction l with
  | nil => rfl
  | cons a l ih =>
    rw [List.mapM_cons, h a List.mem_cons_self, ih (fun b hb => h b (List.mem_cons_of_mem _ hb))]
    rfl

theorem frontend_lookups (n L M : ℕ) : (frontendConns L M).mapM (lookupConn n L M) =
    if L ≤ n then .ok (frontendConns L M) else .error .valueError := by
  by_cases h : L ≤ n
  · rw [if_pos h]
    refine mapM_id _ _ fun c hc => ?_
    rcases lookup_frontend n L M c hc with k | ⟨_, k⟩
    · exact k
    · omega
  · rw [if_neg h]
    refine mapM_error _ _ _ ?_ ⟨(.own (fmt "IN" n "_P"), .pin "Xaf" (fmt "IN" n "_P")), ?_, ?_⟩
    · intro c hc x hx
      rcases lookup_frontend n L M c hc with k | ⟨k, _⟩
      · rw [k] at hx; cases hx
      · rw [k] at hx; exact (Except.error.inj hx).symm
    · exact mem_frontend.mpr (Or.inr (Or.inl ⟨n, by omega, Or.inl rfl⟩))
    · unfold lookupConn lookup
      dsimp only
      rw [if_neg (in_notin_tbPins (le_refl n))]
      rfl

/-! ### The nodes -/

/-- The connections of a finished test bench. -/
theorem build_ok {k : Kind} {inputs : List Signal} {L M : ℕ} {cs : List (Obj × Obj)}
    (h : build k inputs L M = .ok cs) :
    L ≤ inputs.length ∧ (cs = baseConns inputs.length ++ frontendConns L M ∨
      cs = baseConns inputs.length ++ selfConns L M ++ frontendConns L M) := by
  unfold build at h
  cases hw : inputs.mapM inputWave with
  | error e => rw [hw] at h; cases h
  | ok w =>
    rw [hw] at h
    have hb : ∀ pre : List (Obj × Obj), (do return pre ++ (← (frontendConns L M).mapM (lookupConn inputs.length L M)) :
        Res (List (Obj × Obj))) = .ok cs → L ≤ inputs.length ∧ cs = pre ++ frontendConns L M := by
      intro pre hp
      rw [frontend_lookups] at hp
      by_cases hl : L ≤ inputs.length
      · rw [if_pos hl] at hp
        exact ⟨hl, (Except.ok.inj hp).symm⟩
      · rw [if_neg hl] at hp
        cases hp
    cases k with
    | stateSpace => cases h
    | opamp => exact ⟨(hb _ h).1, Or.inl (hb _ h).2⟩
    | ota => exact ⟨(hb _ h).1, Or.inr (hb _ h).2⟩
    | lc => exact ⟨(hb _ h).1, Or.inr (hb _ h).2⟩

theorem mem_conns {n L M : ℕ} {c : Obj × Obj} (h : c ∈ baseConns n ++ frontendConns L M) :
    c ∈ conns (max n L) M := by
  unfold conns
  rcases List.mem_append.mp h with h | h
  · refine List.mem_append_left _ ?_
    unfold baseConns at h
    rcases List.mem_append.mp h with h | h
    · rcases List.mem_append.mp h with h | h
      · exact List.mem_append_left _ (List.mem_append_left _ h)
      · refine List.mem_append_left _ (List.mem_append_right _ ?_)
        obtain ⟨l, hl, hc⟩ := List.mem_flatMap.mp h
        have := List.mem_range.mp hl
        exact List.mem_flatMap.mpr ⟨l, List.mem_range.mpr (by omega), hc⟩
    · exact List.mem_append_right _ h
  · refine List.mem_append_right _ ?_
    rw [mem_frontend] at h ⊢
    rcases h with h | ⟨l, hl, h⟩ | h
    · exact Or.inl h
    · exact Or.inr (Or.inl ⟨l, by omega, h⟩)
    · exact Or.inr (Or.inr h)

theorem base_num {n : ℕ} {c : Obj × Obj} (h : c ∈ baseConns n) : ∃ s e k, c = (.own s, .num e k) := by
  unfold baseConns supplyConns at h
  simp only [List.mem_append, List.mem_cons, List.not_mem_nil, or_false, List.mem_flatMap, List.mem_range] at h
  rcases h with ((h | h | h | h | h | h) | ⟨l, _, h⟩) | h
  all_goals try exact ⟨_, _, _, h⟩
  unfold inputConns at h
  simp only [List.mem_cons, List.not_mem_nil, or_false] at h
  rcases h with h | h | h | h <;> exact ⟨_, _, _, h⟩

theorem afPins_ne_empty {L M : ℕ} {s : String} (h : s ∈ afPins L M) : s ≠ "" := by
  rcases mem_afPins.mp h with (rfl | rfl | rfl | rfl) | ⟨i, _, rfl⟩ | ⟨i, _, rfl⟩ | ⟨i, _, rfl⟩ | ⟨i, _, rfl⟩
  · decide
  · decide
  · decide
  · decide
  all_goals exact fmt_ne_empty _ _ _ (by decide)

/-- Every terminal attached by a finished test bench is printed under the name of the terminal of the test bench it is
attached to. -/
theorem bench_node (ids : String → ℕ → String) {k : Kind} {inputs : List Signal} {L M : ℕ} {cs : List (Obj × Obj)}
    (h : build k inputs L M = .ok cs) (c : Obj × Obj) (hc : c ∈ baseConns inputs.length ++ frontendConns L M) :
    (Wires.connects (Obj.name ids) cs .empty).node (Obj.name ids) c.2 = c.1.name ids := by
  have hok : ∀ c ∈ baseConns inputs.length ++ frontendConns L M, _ := fun c hc => conns_ok (max inputs.length L) M c (mem_conns hc)
  have hne : ∀ c ∈ baseConns inputs.length ++ frontendConns L M, c.1.name ids ≠ "" :=
    fun c hc => conns_named (max inputs.length L) M ids c (mem_conns hc)
  have hstar := hub_star inst_inj Part.hubPin Part.hubNum _ hok
  rcases (build_ok h).2 with rfl | rfl
  · exact (star_node _ _ hstar hne c hc).2
  · have e : selfConns L M = ((afPins L M).map fun s => Obj.pin "Xaf" s).map fun x => (x, x) := by
      unfold selfConns
      rw [List.map_map]
      rfl
    rw [e]
    refine loose_node _ _ _ _ hstar hne ?_ ?_ ?_ c hc
    · exact List.Nodup.map (fun a b e => by injection e) (afPins_nodup L M)
    · intro x hx
      obtain ⟨s, hs, rfl⟩ := List.mem_map.mp hx
      refine ⟨?_, ?_⟩
      · rintro ⟨d, hd, e⟩
        obtain ⟨s', e', k', rfl⟩ := base_num hd
        rcases e with e | e <;> cases e
      · exact afPins_ne_empty hs
    · intro d hd hx
      obtain ⟨s, hs, e⟩ := List.mem_map.mp hx
      rcases mem_frontend.mp hd with (rfl | rfl | rfl | rfl) | ⟨l, _, rfl | rfl⟩ | ⟨m, _, rfl | rfl | rfl⟩ <;> cases e

end Cbadc.TestBench
