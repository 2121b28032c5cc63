import Verif.Lemmas.Waveforms
import Verif.Props.OpAmp

/-!
# C160: waveforms read back from a circuit simulation
-/

namespace Cbadc.NgSpice
open TestBench Circuit

/-- Every voltage that is read back is on the list of vectors the netlist asks ngspice to save, whatever groups of
terminals were highlighted when the simulator was created: the terminals of every group, the states, and the clock. -/
theorem C160_saved (hl : Groups) (N : ℕ) :
    (∀ g names, groupOf hl g = some names → ∀ c ∈ names, voltage c ∈ saved hl N) ∧
      (∀ n < N, ∀ p ∈ ["_P", "_N"], ∃ a ∈ saved hl N, SameName a ("V(XAF." ++ fmt "X" n p ++ ")")) ∧
      "V(CLK)" ∈ saved hl N := by
  refine ⟨fun g names h c hc => mem_saved_group h N hc, ?_, List.mem_cons_self⟩
  intro n hn p hp
  have h : "XAF." ++ fmt "X" n p ∈ stateNames "XAF." N := by
    unfold stateNames
    apply List.mem_map_of_mem
    simp only [List.mem_cons, List.not_mem_nil, or_false] at hp
    rcases hp with rfl | rfl
    · exact List.mem_append_left _ (List.mem_map.2 ⟨n, List.mem_range.2 hn, rfl⟩)
    · exact List.mem_append_right _ (List.mem_map.2 ⟨n, List.mem_range.2 hn, rfl⟩)
  obtain ⟨a, ha, hs⟩ := mem_saved_state hl N h
  refine ⟨a, ha, hs.trans ?_⟩
  simp [voltage]

/-- `get_input_signals`: the time and the voltage of every highlighted input terminal, in the order of the headers.  A
new test bench highlights the positive terminals of all inputs, then the negative ones. -/
theorem C160_inputs (n M N K : ℕ) (time : ℕ → ℝ) (wave : String → ℕ → ℝ) (f : RawFile)
    (h : Recorded K time wave (saved (highlighted n M) N) f.time f.vars) :
    ∃ cols rows, getInputSignals (highlighted n M) (some f) = .ok ("t" :: cols, rows) ∧
      IsTable K time wave cols rows ∧ cols.length = 2 * n ∧
      ∀ l < n, cols[l]? = some (fmt "IN" l "_P") ∧ cols[n + l]? = some (fmt "IN" l "_N") := by
  have hg : groupOf (highlighted n M) "input" = some (group "IN" "_P" n ++ group "IN" "_N" n) := by
    simp [groupOf, highlighted]
  obtain ⟨rows, hr, ht⟩ := stack_recorded h (group "IN" "_P" n ++ group "IN" "_N" n)
    fun c hc => ⟨voltage c, mem_saved_group hg N hc, rfl⟩
  refine ⟨_, rows, ?_, ht, by simp [group]; omega, fun l hl => ⟨group_get_first _ hl, group_get_last _ hl⟩⟩
  unfold getInputSignals
  rw [hg]
  dsimp only
  rw [hr]
  rfl

/-- The same for whatever input terminals were highlighted when the simulator was created. -/
theorem C160_highlighted (hl : Groups) (names : List String) (hg : groupOf hl "input" = some names) (N K : ℕ)
    (time : ℕ → ℝ) (wave : String → ℕ → ℝ) (f : RawFile) (h : Recorded K time wave (saved hl N) f.time f.vars) :
    ∃ rows, getInputSignals hl (some f) = .ok ("t" :: names, rows) ∧ IsTable K time wave names rows := by
  obtain ⟨rows, hr, ht⟩ := stack_recorded h names fun c hc => ⟨voltage c, mem_saved_group hg N hc, rfl⟩
  refine ⟨rows, ?_, ht⟩
  unfold getInputSignals
  rw [hg]
  dsimp only
  rw [hr]
  rfl

/-- `get_state_trajectories`: the time and the voltages of the state terminals inside the frontend, first the positive
ones, then the negative ones. -/
theorem C160_states (hl : Groups) (N K : ℕ) (time : ℕ → ℝ) (wave : String → ℕ → ℝ) (f : RawFile)
    (h : Recorded K time wave (saved hl N) f.time f.vars) :
    ∃ cols rows, getStateTrajectories N (some f) = .ok ("t" :: cols, rows) ∧
      IsTable K time wave cols rows ∧ cols.length = 2 * N ∧
      ∀ n < N, cols[n]? = some ("XAF." ++ fmt "X" n "_P") ∧ cols[N + n]? = some ("XAF." ++ fmt "X" n "_N") := by
  obtain ⟨rows, hr, ht⟩ := stack_recorded h (stateNames "XAF." N) fun c hc => mem_saved_state hl N hc
  refine ⟨_, rows, ?_, ht, by simp [stateNames, group]; omega, fun n hn => ⟨?_, ?_⟩⟩
  · unfold getStateTrajectories
    dsimp only
    rw [hr]
    rfl
  · unfold stateNames
    rw [List.getElem?_map, group_get_first _ hn, Option.map_some]
  · unfold stateNames
    rw [List.getElem?_map, group_get_last _ hn, Option.map_some]

/-- No two columns of these tables have the same header, not even up to the case of the letters (so that no two are
the same vector). -/
theorem C160_headers (n N M : ℕ) (f : RawFile) (hs : List String) (rows : List (List ℝ)) :
    (getInputSignals (highlighted n M) (some f) = .ok (hs, rows) → hs.Pairwise fun a b => ¬ SameName a b) ∧
      (getStateTrajectories N (some f) = .ok (hs, rows) → hs.Pairwise fun a b => ¬ SameName a b) := by
  have main : ∀ l : List String, (l.map key).Nodup → (∀ s ∈ l, '_' ∈ key s) →
      ("t" :: l).Pairwise fun a b => ¬ SameName a b := by
    intro l h1 h2
    have h3 : (("t" :: l).map key).Nodup := List.nodup_cons.2 ⟨t_not_mem l h2, h1⟩
    exact List.pairwise_map.1 h3
  have und : ∀ (pre q : String) (k : ℕ), ∀ s ∈ group pre "_P" k ++ group pre "_N" k, '_' ∈ key (q ++ s) := by
    intro pre q k s hs
    rcases List.mem_append.1 hs with h | h
    · obtain ⟨i, _, rfl⟩ := List.mem_map.1 h
      rw [key_append, key_fmt, keyP]
      simp
    · obtain ⟨i, _, rfl⟩ := List.mem_map.1 h
      rw [key_append, key_fmt, keyN]
      simp
  constructor
  · intro h
    have hg : groupOf (highlighted n M) "input" = some (group "IN" "_P" n ++ group "IN" "_N" n) := by
      simp [groupOf, highlighted]
    unfold getInputSignals at h
    rw [hg] at h
    dsimp only at h
    cases hst : stack f.time ((group "IN" "_P" n ++ group "IN" "_N" n).map fun s => f.getData (voltage s)) with
    | error e => rw [hst] at h; exact absurd h (by simp [bind, Except.bind])
    | ok r =>
      rw [hst] at h
      have e : "t" :: (group "IN" "_P" n ++ group "IN" "_N" n) = hs := by
        exact congrArg Prod.fst (Except.ok.inj h)
      rw [← e]
      apply main
      · simpa [String.empty_append] using group_nodup "IN" "" n
      · intro s hs'
        simpa using und "IN" "" n s hs'
  · intro h
    unfold getStateTrajectories at h
    dsimp only at h
    cases hst : stack f.time ((stateNames "XAF." N).map fun s => f.getData (voltage s)) with
    | error e => rw [hst] at h; exact absurd h (by simp [bind, Except.bind])
    | ok r =>
      rw [hst] at h
      have e : "t" :: stateNames "XAF." N = hs := by
        exact congrArg Prod.fst (Except.ok.inj h)
      rw [← e]
      apply main
      · unfold stateNames
        rw [List.map_map]
        exact group_nodup "X" "XAF." N
      · intro s hs'
        unfold stateNames at hs'
        obtain ⟨u, hu, rfl⟩ := List.mem_map.1 hs'
        exact und "X" "XAF." N u hu

/-- What `parse` loops over: the clock and the positive control terminals, the `m`-th column that of control `m`. -/
theorem C160_control (n M N K : ℕ) (time : ℕ → ℝ) (wave : String → ℕ → ℝ) (f : RawFile)
    (h : Recorded K time wave (saved (highlighted n M) N) f.time f.vars) :
    ∃ raw, readRaw (highlighted n M) M f = .ok raw ∧ raw.n = K ∧
      ∀ i < K, raw.clk i = wave "V(CLK)" i ∧ ∀ m < M, raw.v i m = wave ("V(" ++ fmt "OUT" m "_P" ++ ")") i := by
  have hg : groupOf (highlighted n M) "control" = some (group "OUT" "_P" M ++ group "OUT" "_N" M) := by
    simp [groupOf, highlighted]
  have hm : (List.range M).mapM (controlWave f ((group "OUT" "_P" M ++ group "OUT" "_N" M).take M))
      = .ok ((List.range M).map fun m => (List.range K).map (wave (voltage (fmt "OUT" m "_P")))) := by
    have key : ∀ l : List ℕ, (∀ m ∈ l, m < M) →
        l.mapM (controlWave f ((group "OUT" "_P" M ++ group "OUT" "_N" M).take M))
          = .ok (l.map fun m => (List.range K).map (wave (voltage (fmt "OUT" m "_P")))) := by
      intro l
      induction l with
      | nil => intro _; rfl
      | cons a l ih =>
        intro hl
        have ha : a < M := hl a List.mem_cons_self
        have hget : ((group "OUT" "_P" M ++ group "OUT" "_N" M).take M)[a]? = some (fmt "OUT" a "_P") := by
          rw [List.getElem?_take_of_lt ha]
          exact group_get_first _ ha
        have hmem : fmt "OUT" a "_P" ∈ group "OUT" "_P" M ++ group "OUT" "_N" M :=
          List.mem_of_getElem? (group_get_first _ ha)
        rw [List.mapM_cons, controlWave_recorded h hget (mem_saved_group hg N hmem),
          ih fun m hm => hl m (List.mem_cons_of_mem _ hm)]
        rfl
    exact key _ fun m hm => List.mem_range.1 hm
  have hc : f.getData "V(CLK)" = some ((List.range K).map (wave "V(CLK)")) :=
    getData_recorded h (List.mem_cons_self) rfl
  unfold readRaw
  rw [hg]
  dsimp only
  rw [hm]
  simp only [bind, Except.bind]
  rw [hc]
  refine ⟨_, rfl, ?_, ?_⟩
  · dsimp only
    rw [List.map_map]
    have : ∀ l : List ℕ, (l.map (List.length ∘ fun m => (List.range K).map (wave (voltage (fmt "OUT" m "_P"))))).foldr
        min ((List.range K).map (wave "V(CLK)")).length = K := by
      intro l
      induction l with
      | nil => simp
      | cons a l ih =>
        rw [List.map_cons, List.foldr_cons, ih]
        simp
    exact this _
  · intro i hi
    refine ⟨by simp [hi], fun m hm => ?_⟩
    simp [hi, hm, voltage]

/-- The columns of `get_state_trajectories` of an op-amp frontend: the difference of column `n` and column `N + n` is a
solution of the state equation of the analog system, sampled at the time points. -/
theorem C160_state_equation (ids : String → ℕ → String) (S : Analog.Sys ℝ) (C : ℝ) (hC : C ≠ 0) (G : ℕ → ℕ → ℝ)
    (hG : S.Gamma = some G) :
    ∃ s, opampFrontend ids S C = .ok s ∧
      ∀ (law : Spec.Law) (sol : Spec.Sol), (∀ v i, law "opamp" v i → Spec.IdealOpamp v i) →
        (∀ l ∈ s.netlist (Obj.name ids), Spec.Obeys law sol l) →
        (∀ n < S.N, Spec.Kirchhoff sol (s.netlist (Obj.name ids)) (fmt "VGND_" n "_P") ∧
          Spec.Kirchhoff sol (s.netlist (Obj.name ids)) (fmt "VGND_" n "_N")) →
        ∀ (hl : Groups) (K : ℕ) (time : ℕ → ℝ) (wave : String → ℕ → ℝ) (f : RawFile),
          Recorded K time wave (saved hl S.N) f.time f.vars →
          (∀ n < S.N, ∀ p ∈ ["_P", "_N"], ∀ i, wave ("V(Xaf." ++ fmt "X" n p ++ ")") i = sol.v (fmt "X" n p) (time i)) →
          ∃ hs rows, ∃ x : ℕ → ℝ → ℝ, getStateTrajectories S.N (some f) = .ok (hs, rows) ∧ rows.length = K ∧
            Spec.StateEquation S.N S.L S.M S.A S.B G x
              (fun l => Spec.diff sol (fmt "IN" l "_P") (fmt "IN" l "_N"))
              (fun m => Spec.diff sol (fmt "OUT" m "_P") (fmt "OUT" m "_N")) ∧
            ∀ i < K, ∃ row, rows[i]? = some row ∧ row[0]? = some (time i) ∧ ∀ n < S.N,
              ∃ p q, row[1 + n]? = some p ∧ row[1 + (S.N + n)]? = some q ∧ x n (time i) = p - q := by
  obtain ⟨s, hs, h⟩ := (C52_state_equation ids S C hC).2 G hG
  refine ⟨s, hs, ?_⟩
  intro law sol h1 h2 h3 hl K time wave f hrec hw
  obtain ⟨cols, rows, hget, ⟨hlen, ht⟩, _, hcols⟩ := C160_states hl S.N K time wave f hrec
  refine ⟨_, rows, _, hget, hlen, h law sol h1 h2 h3, ?_⟩
  intro i hi
  obtain ⟨row, hrow, _, h0, hj⟩ := ht i hi
  refine ⟨row, hrow, h0, ?_⟩
  intro n hn
  refine ⟨_, _, hj _ _ (hcols n hn).1, hj _ _ (hcols n hn).2, ?_⟩
  have e : ∀ p, wave ("V(" ++ ("XAF." ++ fmt "X" n p) ++ ")") = wave ("V(Xaf." ++ fmt "X" n p ++ ")") := by
    intro p
    apply hrec.names
    have h := xaf_same (fmt "X" n p)
    have e1 : "V(Xaf." ++ fmt "X" n p ++ ")" = voltage ("Xaf." ++ fmt "X" n p) := by
      apply String.toList_injective
      simp [voltage]
    rw [e1]
    exact h.symm
  rw [e, e, hw n hn "_P" (by simp), hw n hn "_N" (by simp)]
  rfl

/-- What is refused: nothing has been read yet (`AttributeError`), no input terminals are highlighted (`ValueError`, also
before anything is read), no control terminals are highlighted (`ValueError`), and an input terminal that was
highlighted only after the simulator was created and is not in the file (`ValueError`). -/
theorem C160_refused (hl : Groups) (N M : ℕ) :
    getStateTrajectories N none = .error .attributeError ∧
      (groupOf hl "input" ≠ none → getInputSignals hl none = .error .attributeError) ∧
      (groupOf hl "input" = none → ∀ raw, getInputSignals hl raw = .error .valueError) ∧
      (groupOf hl "control" = none → ∀ f, readRaw hl M f = .error .valueError) ∧
      ∀ names, groupOf hl "input" = some names → ∀ f : RawFile,
        (∃ c ∈ names, ∀ e ∈ f.vars, ¬ SameName e.1 ("V(" ++ c ++ ")")) →
        getInputSignals hl (some f) = .error .valueError := by
  refine ⟨rfl, ?_, ?_, ?_, ?_⟩
  · intro h
    unfold getInputSignals
    cases hg : groupOf hl "input" with
    | none => exact absurd hg h
    | some _ => rfl
  · intro h raw
    unfold getInputSignals
    rw [h]
  · intro h f
    unfold readRaw
    rw [h]
  · intro names hg f ⟨c, hc, hno⟩
    unfold getInputSignals
    rw [hg]
    dsimp only
    have hn : f.getData (voltage c) = none := by
      unfold RawFile.getData
      rw [Option.map_eq_none_iff, List.find?_eq_none]
      intro e he hd
      exact hno e he ((decide_eq_true_iff.1 hd : key e.1 = key (voltage c)))
    have hst : stack f.time (names.map fun s => f.getData (voltage s)) = .error .valueError := by
      unfold stack
      rw [if_neg]
      intro hall
      rw [List.all_eq_true] at hall
      have := hall _ (List.mem_map_of_mem (f := fun s => f.getData (voltage s)) hc)
      rw [hn] at this
      simp at this
    rw [hst]
    rfl

/-! ### Cases -/

/-- A file of two time points with all vectors a simulator of one input, one control and one state asks for; ngspice
writes their names in lower case. -/
def exFile : RawFile where
  time := [0, 1]
  vars := [("v(clk)", [0, 1]), ("v(out0_p)", [1, 1]), ("v(out0_n)", [0, 0]), ("v(in0_p)", [2, 3]),
    ("v(in0_n)", [-2, -3]), ("v(xaf.x0_p)", [5, 7]), ("v(xaf.x0_n)", [4, 4])]

theorem ex_saved : saved (highlighted 1 1) 1 = ["V(CLK)", "V(OUT0_P)", "V(OUT0_N)", "V(IN0_P)", "V(IN0_N)",
    "V(Xaf.X0_P)", "V(Xaf.X0_N)"] := by
  decide

/-- The hypothesis `Recorded` is met by this file. -/
theorem ex_recorded : ∃ wave, Recorded 2 (fun i => i) wave (saved (highlighted 1 1) 1) exFile.time exFile.vars ∧
    wave "V(Xaf.X0_P)" 1 = 7 := by
  refine ⟨fun q i => ((exFile.getData q).getD []).getD i 0, ⟨?_, ?_, ?_, ?_⟩, ?_⟩
  · simp [exFile, List.range_succ]
  · rw [ex_saved]
    unfold SameName exFile
    decide
  · intro e he
    simp only [exFile, List.mem_cons, List.not_mem_nil, or_false] at he
    rcases he with rfl | rfl | rfl | rfl | rfl | rfl | rfl <;>
      simp [exFile, RawFile.getData, key, List.range_succ]
  · intro a b h
    have : exFile.getData a = exFile.getData b := by
      unfold RawFile.getData
      have hk : key a = key b := h
      rw [hk]
    rw [this]
  · simp [exFile, RawFile.getData, key]

/-- `C160_headers`: Two rows, and the difference of the state columns in the second is three. -/
example : ∃ hs rows row p q, getStateTrajectories 1 (some exFile) = .ok (hs, rows) ∧ rows.length = 2 ∧
    hs = ["t", "XAF.X0_P", "XAF.X0_N"] ∧ rows[1]? = some row ∧ row[1]? = some p ∧ row[2]? = some q ∧ p = 7 := by
  obtain ⟨wave, h, h7⟩ := ex_recorded
  obtain ⟨cols, rows, hg, ⟨hl, ht⟩, hc2, hc⟩ := C160_states _ _ _ _ _ exFile h
  obtain ⟨row, hr, _, _, hj⟩ := ht 1 (by norm_num)
  obtain ⟨c0, c1⟩ := hc 0 (by norm_num)
  refine ⟨_, rows, row, _, _, hg, hl, ?_, hr, hj 0 _ c0, hj 1 _ c1, ?_⟩
  · match cols, hc2, c0, c1 with
    | [a, b], _, c0, c1 =>
      simp only [List.getElem?_cons_zero, Option.some.injEq] at c0
      simp only [Nat.add_zero, List.getElem?_cons_succ, List.getElem?_cons_zero, Option.some.injEq] at c1
      rw [c0, c1]
      rfl
  · rw [← h7]
    exact congrFun (h.names _ _ (by unfold SameName; decide)) 1

/-- The inputs and the controls of the same file. -/
example : (∃ cols rows, getInputSignals (highlighted 1 1) (some exFile) = .ok ("t" :: cols, rows) ∧ rows.length = 2) ∧
    ∃ raw, readRaw (highlighted 1 1) 1 exFile = .ok raw ∧ raw.n = 2 := by
  obtain ⟨wave, h, _⟩ := ex_recorded
  obtain ⟨cols, rows, h1, h2, _⟩ := C160_inputs _ _ _ _ _ _ exFile h
  obtain ⟨raw, h3, h4, _⟩ := C160_control _ _ _ _ _ _ exFile h
  exact ⟨⟨cols, rows, h1, h2.1⟩, raw, h3, h4⟩

/-- `C160_highlighted`: a group of one terminal only. -/
example : ∃ rows, getInputSignals [("input", ["IN0_N"])] (some ⟨[0], [("v(clk)", [1]), ("v(in0_n)", [6])]⟩)
    = .ok (["t", "IN0_N"], rows) ∧ IsTable 1 (fun _ => 0)
      (fun q _ => if key q = key "v(clk)" then 1 else 6) ["IN0_N"] rows := by
  refine C160_highlighted [("input", ["IN0_N"])] ["IN0_N"] rfl 0 1 (fun _ => 0)
    (fun q _ => if key q = key "v(clk)" then 1 else 6) _ ⟨rfl, ?_, ?_, ?_⟩
  · show ∀ q ∈ ["V(CLK)", "V(IN0_N)"], ∃ e ∈ [("v(clk)", [(1 : ℝ)]), ("v(in0_n)", [6])], SameName e.1 q
    intro q hq
    simp only [List.mem_cons, List.not_mem_nil, or_false] at hq
    rcases hq with rfl | rfl
    · exact ⟨_, List.mem_cons_self, by unfold SameName; decide⟩
    · exact ⟨_, List.mem_cons_of_mem _ List.mem_cons_self, by unfold SameName; decide⟩
  · intro e he
    simp only [List.mem_cons, List.not_mem_nil, or_false] at he
    rcases he with rfl | rfl <;> simp [key]
  · intro a b h
    have hk : key a = key b := h
    simp only [hk]

/-- The terminal `IN1_P`, highlighted after the run. -/
example : getInputSignals [("input", ["IN0_P", "IN1_P"])] (some exFile) = .error .valueError := by
  refine (C160_refused [("input", ["IN0_P", "IN1_P"])] 1 1).2.2.2.2 _ rfl exFile ⟨"IN1_P", by simp, ?_⟩
  unfold exFile SameName
  decide

/-- `C160_state_equation`:
The circuit of an integrator whose state rises with slope one half, and a file of three points of it. -/
example : ∃ s, opampFrontend (fun e k => fmt e k "") oneIntegrator 1 = .ok s ∧
    ∃ (law : Spec.Law) (sol : Spec.Sol), (∀ v i, law "opamp" v i → Spec.IdealOpamp v i) ∧
      (∀ l ∈ s.netlist (Obj.name fun e k => fmt e k ""), Spec.Obeys law sol l) ∧
      ∃ (wave : String → ℕ → ℝ) (f : RawFile),
        Recorded 3 (fun i => i) wave (saved (highlighted 1 1) 1) f.time f.vars ∧
        (∀ n < 1, ∀ p ∈ ["_P", "_N"], ∀ i : ℕ, wave ("V(Xaf." ++ fmt "X" n p ++ ")") i = sol.v (fmt "X" n p) i) ∧
        ∀ i : ℕ, wave "V(Xaf.X0_P)" i - wave "V(Xaf.X0_N)" i = i / 2 := by
  obtain ⟨c, hc, law, sol, h1, h2, h3, h4, _⟩ := C52_realisable (fun e k => fmt e k "")
    oneIntegrator 1 (fun _ _ => -2) rfl (fun _ t => t / 2) (fun _ _ => 1) (fun _ _ => 3 / 4) (by
      intro n _ t
      refine ((hasDerivAt_id t).div_const 2).congr_deriv ?_
      simp [oneIntegrator]
      norm_num)
  let wave : String → ℕ → ℝ := fun q i => if key q = key "V(Xaf.X0_P)" then sol.v "X0_P" i else
    if key q = key "V(Xaf.X0_N)" then sol.v "X0_N" i else 0
  have hp : ∀ i, wave "V(Xaf.X0_P)" i = sol.v "X0_P" i := fun i => if_pos rfl
  have hn : ∀ i, wave "V(Xaf.X0_N)" i = sol.v "X0_N" i := fun i => by
    show (if key "V(Xaf.X0_N)" = key "V(Xaf.X0_P)" then sol.v "X0_P" i else
      if key "V(Xaf.X0_N)" = key "V(Xaf.X0_N)" then sol.v "X0_N" i else 0) = _
    rw [if_neg (by decide), if_pos rfl]
  refine ⟨c, hc, law, sol, h1, h2, wave, ⟨(List.range 3).map fun i => (i : ℝ),
    (saved (highlighted 1 1) 1).map fun q => (q, (List.range 3).map (wave q))⟩, ⟨rfl, ?_, ?_, ?_⟩, ?_, ?_⟩
  · intro q hq
    exact ⟨_, List.mem_map_of_mem (f := fun q => (q, (List.range 3).map (wave q))) hq, rfl⟩
  · intro e he
    obtain ⟨q, _, rfl⟩ := List.mem_map.1 he
    rfl
  · intro a b h
    have hk : key a = key b := h
    funext i
    simp only [wave, hk]
  · intro n hn0 p hp0 i
    obtain rfl : n = 0 := by omega
    simp only [List.mem_cons, List.not_mem_nil, or_false] at hp0
    rcases hp0 with rfl | rfl
    · exact hp i
    · exact hn i
  · intro i
    rw [hp, hn]
    have := congrFun (h4 0) i
    exact this

end Cbadc.NgSpice
