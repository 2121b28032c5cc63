import Verif.Lemmas.Hierarchy
import Std.Data.String.ToNat
import Mathlib.Data.List.Pairwise
import Mathlib.Algebra.Order.Field.Rat
import Mathlib.Tactic.NormNum

/-! # The hierarchy of circuits -/

namespace Cbadc.Hierarchy
open Spec

variable {δ : Type} {V : Type*}

/-! ## C125: definitions -/

/-- The definitions collected for a netlist are exactly those of the sub-circuits that occur, at any depth,
each once, beginning with the circuit's own. -/
theorem C125_definitions [DecidableEq δ] (name : String) (cache : List String) (text : δ)
    (parts : List (Elem δ V)) :
    (∀ d, d ∈ defs (.sub name cache text parts) ↔
      ∃ s, Occurs (.sub name cache text parts) s ∧ HasText d s) ∧
    (defs (.sub name cache text parts)).Nodup ∧
    (defs (.sub name cache text parts)).head? = some text := by
  refine ⟨fun d => mem_defs d _, ?_, ?_⟩
  · rw [defs]
    refine (defsLoop_pairwise parts [text] (List.pairwise_singleton _ _)).imp ?_
    intro a b h
    simpa using h
  · rw [defs]
    obtain ⟨s, hs⟩ := defsLoop_append parts [text]
    rw [hs]; rfl

/-- A circuit with a sub-circuit used twice, one of them nested. -/
def nested : Elem String ℚ :=
  .sub "top" [] "T" [.sub "amp" [] "A" [.device none], .device (some ⟨"c", "cap", []⟩),
    .sub "block" [] "B" [.sub "amp" [] "A" [.device none]]]

example : defs nested = ["T", "A", "B"] := by decide +kernel
example : ∃ s, Occurs nested s ∧ HasText "A" s := (mem_defs "A" nested).mp (by decide +kernel)

/-! ## C126: names -/

/-- With current lists the check rejects exactly the circuits in which a sub-circuit contains another one of the
same name; a circuit it accepts comes out as it went in, with current lists, so that a second check agrees.
Missing: that circuits in which a name stands for two definitions are rejected (`C126_ambiguous_false`) and that
circuits with lists that are no longer current are judged correctly (`C126_stale_false`). -/
theorem C126_check_partial (e : Elem δ V) (h : Current e) :
    (Clash e → checkNames e = .error .valueError) ∧
    (¬ Clash e → ∃ e', checkNames e = .ok e' ∧ Current e' ∧ bare e' = bare e) := checkNames_spec e h

/-- The lists of a circuit that has not been checked yet are current. -/
theorem C126_fresh_partial (e : Elem δ V) (h : Fresh e) : Current e :=
  fun n c t ps ho => Or.inl (h n c t ps ho)

theorem nested_fresh : Fresh nested := by
  intro n c t ps ho
  simp only [nested, occurs_sub, occurs_device, List.mem_cons, List.not_mem_nil, or_false,
    exists_eq_or_imp, exists_eq_left] at ho
  aesop

theorem nested_no_clash : ¬ Clash nested := by
  simp only [nested, clash_sub, NameIn, hasName_sub, List.mem_cons, List.not_mem_nil, or_false,
    exists_eq_or_imp, exists_eq_left, occurs_device]
  simp only [HasName, Clash, occurs_device]
  simp

example : ∃ e', checkNames nested = .ok e' ∧ Current e' ∧ bare e' = bare nested :=
  (C126_check_partial nested (C126_fresh_partial _ nested_fresh)).2 nested_no_clash

/-- A sub-circuit inside one of the same name. -/
def recursive : Elem String ℚ := .sub "top" [] "T" [.sub "amp" [] "A" [.sub "top" [] "T'" []]]

example : checkNames recursive = .error .valueError := by
  refine (C126_check_partial recursive (C126_fresh_partial _ ?_)).1 ?_
  · intro n c t ps ho
    simp only [recursive, occurs_sub, List.mem_cons, List.not_mem_nil, or_false, exists_eq_left] at ho
    aesop
  · exact ⟨"top", [], "T", _, .refl _, _, List.mem_cons_self, .sub "top" [] "T'" [],
      .inside List.mem_cons_self (.refl _), [], "T'", [], rfl⟩

/-- Two different sub-circuits beside each other with the same name. -/
def siblings : Elem String ℚ := .sub "top" [] "T" [.sub "amp" [] "A" [], .sub "amp" [] "A'" []]

/-- A circuit in which one name has two different definitions passes the check; both definitions are written. -/
theorem C126_ambiguous_false :
    ¬ ∀ e : Elem String ℚ, Fresh e → Ambiguous e → checkNames e = .error .valueError := by
  intro h
  have h' := h siblings ?_ ?_
  · have he : (match checkNames siblings with | .ok _ => true | .error _ => false) = true := by decide +kernel
    rw [h'] at he
    exact absurd he (by simp)
  · intro n c t ps ho
    simp only [siblings, occurs_sub, List.mem_cons, List.not_mem_nil, or_false, exists_eq_or_imp,
      exists_eq_left, false_and, exists_false] at ho
    aesop
  · exact ⟨"amp", "A", "A'", .sub "amp" [] "A" [], .sub "amp" [] "A'" [],
      .inside List.mem_cons_self (.refl _), .inside (List.mem_cons_of_mem _ List.mem_cons_self) (.refl _),
      ⟨_, _, _, rfl⟩, ⟨_, _, _, rfl⟩, ⟨_, _, _, rfl⟩, ⟨_, _, _, rfl⟩, by decide⟩

example : defs siblings = ["T", "A", "A'"] := by decide +kernel

/-- Elements appended to the first sub-circuit in the circuit. -/
def addInside (new : Elem δ V) : Elem δ V → Elem δ V
  | .sub n c t (.sub n' c' t' ps :: qs) => .sub n c t (.sub n' c' t' (ps ++ [new]) :: qs)
  | e => e

/-- After a check that succeeded, an element can be added that makes the circuit one that must be rejected, and
the next check still accepts it: the lists stored by the first check are used again. -/
theorem C126_stale_false :
    ∃ e e' : Elem String ℚ, Fresh e ∧ checkNames e = .ok e' ∧
      Clash (addInside (.sub "top" [] "T'" []) e') ∧
      ∃ e'', checkNames (addInside (.sub "top" [] "T'" []) e') = .ok e'' := by
  refine ⟨.sub "top" [] "T" [.sub "amp" [] "A" []], .sub "top" [] "T" [.sub "amp" ["amp"] "A" []], ?_, ?_, ?_,
    .sub "top" [] "T" [.sub "amp" ["amp"] "A" [.sub "top" ["top"] "T'" []]], ?_⟩
  · intro n c t ps ho
    simp only [occurs_sub, List.mem_cons, List.not_mem_nil, or_false, exists_eq_left, false_and,
      exists_false] at ho
    aesop
  · simp [checkNames, checkLoop, subcktNames, namesLoop]
  · exact ⟨"top", [], "T", _, .refl _, _, List.mem_cons_self, .sub "top" [] "T'" [],
      .inside (by simp) (.refl _), [], "T'", [], rfl⟩
  · simp [addInside, checkNames, checkLoop, subcktNames, namesLoop]

/-! ## C127: models -/

/-- The model set written into a netlist has a model of the kind and name of every device in the tree, no two
models of the same kind and name, and no model that does not belong to a device. -/
theorem C127_models (e : Elem δ V) :
    (∀ m, Occurs e (.device (some m)) → ∃ m' ∈ modelSet e, m'.kind = m.kind ∧ m'.name = m.name) ∧
    (modelSet e).Pairwise (fun a b => ¬ (a.kind = b.kind ∧ a.name = b.name)) ∧
    (∀ m ∈ modelSet e, Occurs e (.device (some m))) := by
  refine ⟨fun m h => ?_, ?_, fun m h => of_mem_modelSet m e h⟩
  · obtain ⟨m', hm', he⟩ := modelSet_has m e h
    exact ⟨m', hm', (DevModel.eq_iff _ _).mp he⟩
  · refine (modelSet_pairwise e).imp ?_
    intro a b h hk
    rw [← DevModel.eq_iff, h] at hk
    exact absurd hk (by simp)

/-- If models of the same kind and name agree, the model written for a device is its own.
Missing: that this holds without the condition (`C127_dither_false`). -/
theorem C127_own_partial (e : Elem δ V)
    (h : ∀ m m', Occurs e (.device (some m)) → Occurs e (.device (some m')) → m.kind = m'.kind →
      m.name = m'.name → m = m') (m : DevModel V) (hm : Occurs e (.device (some m))) : m ∈ modelSet e := by
  obtain ⟨m', hm', hk, hn⟩ := (C127_models e).1 m hm
  rw [h m m' hm ((C127_models e).2.2 m' hm') hk.symm hn.symm]
  exact hm'

example : (⟨"c", "cap", []⟩ : DevModel ℚ) ∈ modelSet nested := by
  refine C127_own_partial nested ?_ _ (.inside (List.mem_cons_of_mem _ List.mem_cons_self) (.refl _))
  intro m m' h h'
  simp only [nested, occurs_sub, List.mem_cons, List.not_mem_nil, or_false, exists_eq_or_imp,
    exists_eq_left, occurs_device] at h h'
  aesop

section Controls

variable {K : Type*} [Field K] (text : String → δ)

theorem sum_name_inj {i j : ℕ} (h : "sum_" ++ i.repr = "sum_" ++ j.repr) : i = j := by
  apply Nat.repr_injective
  apply String.toList_injective
  have := congrArg String.toList h
  rw [String.toList_append, String.toList_append] at this
  exact List.append_cancel_left this

/-- the devices in a digital control -/
theorem occurs_digital {c : Ctl K} {gains : ℕ → List K} {M off : ℕ} {m : DevModel (Value K)}
    (h : Occurs (digitalElem text c gains M off) (.device (some m))) :
    (∃ k, m = summerModel ("sum_" ++ k.repr) ((gains k).map fun _ => 0) (gains k)
        ((c.outHigh - c.outLow) / 2 + c.outLow) 1) ∨
    m = adcModel "adc" c.inLow c.inHigh (c.T / 1000) (c.T / 1000) ∨
    m = dffModel "dflip" 0 c.eps c.eps 1 (c.T / 1000) (c.T / 1000) ∨
    m = dacModel "dac" c.outLow c.outHigh ((c.outHigh - c.outLow) / 2) c.load (c.T / 100) (c.T / 100) := by
  rw [digitalElem, occurs_sub] at h
  rcases h with h | ⟨p, hp, ho⟩
  · cases h
  · obtain ⟨i, -, rfl⟩ := List.mem_map.mp hp
    simp only [multiInputElem, comparatorElem, occurs_sub, List.mem_cons, List.not_mem_nil, or_false,
      exists_eq_or_imp, exists_eq_left, occurs_device, reduceCtorEq, false_or, Elem.device.injEq,
      Option.some.injEq] at ho
    rcases ho with h | h | h | h | h | h
    · exact Or.inl ⟨i, h⟩
    · exact Or.inr (Or.inl h)
    · exact Or.inr (Or.inl h)
    · exact Or.inr (Or.inr (Or.inl h))
    · exact Or.inr (Or.inr (Or.inr h))
    · exact Or.inr (Or.inr (Or.inr h))

/-- In the netlist of a digital control every device has the model it was given. -/
theorem C127_digital_control (c : Ctl K) (gains : ℕ → List K) (M off : ℕ) (m : DevModel (Value K))
    (h : Occurs (digitalElem text c gains M off) (.device (some m))) :
    m ∈ modelSet (digitalElem text c gains M off) := by
  refine C127_own_partial _ ?_ m h
  intro a b ha hb hk hn
  rcases occurs_digital text ha with ⟨i, rfl⟩ | rfl | rfl | rfl <;>
    rcases occurs_digital text hb with ⟨j, rfl⟩ | rfl | rfl | rfl <;>
    first
    | rfl
    | (rw [sum_name_inj hn])
    | (exact absurd hk (by simp [summerModel, adcModel, dffModel, dacModel]))

/-- The models written for a digital control are those of its comparators. -/
theorem C127_digital_models (c : Ctl K) (gains : ℕ → List K) (M off : ℕ) (m : DevModel (Value K)) :
    m ∈ modelSet (digitalElem text c gains M off) ↔ DigitalModel c gains (M - off) m := by
  have ho : Occurs (digitalElem text c gains M off) (.device (some m)) ↔ DigitalModel c gains (M - off) m := by
    rw [digitalElem, occurs_sub]
    unfold DigitalModel
    constructor
    · rintro (h | ⟨p, hp, ho⟩)
      · cases h
      · obtain ⟨i, hi, rfl⟩ := List.mem_map.mp hp
        have hi := List.mem_range.mp hi
        simp only [multiInputElem, comparatorElem, occurs_sub, List.mem_cons, List.not_mem_nil, or_false,
          exists_eq_or_imp, exists_eq_left, occurs_device, reduceCtorEq, false_or, Elem.device.injEq,
          Option.some.injEq] at ho
        rcases ho with h | h | h | h | h | h
        · exact Or.inl ⟨i, hi, by rw [h, summerModel, List.map_const']⟩
        · exact Or.inr ⟨by omega, Or.inl h⟩
        · exact Or.inr ⟨by omega, Or.inl h⟩
        · exact Or.inr ⟨by omega, Or.inr (Or.inl h)⟩
        · exact Or.inr ⟨by omega, Or.inr (Or.inr h)⟩
        · exact Or.inr ⟨by omega, Or.inr (Or.inr h)⟩
    · intro h
      have key : ∀ i < M - off, Occurs (multiInputElem text c gains (off + i) i) (.device (some m)) →
          ∃ p ∈ (List.range (M - off)).map fun i => multiInputElem text c gains (off + i) i,
            Occurs p (.device (some m)) :=
        fun i hi h => ⟨_, List.mem_map.mpr ⟨i, List.mem_range.mpr hi, rfl⟩, h⟩
      right
      rcases h with ⟨i, hi, h⟩ | ⟨hn, h⟩
      · refine key i hi ?_
        simp only [multiInputElem, comparatorElem, occurs_sub, List.mem_cons, List.not_mem_nil, or_false,
          exists_eq_or_imp, exists_eq_left, occurs_device, reduceCtorEq, false_or, Elem.device.injEq,
          Option.some.injEq]
        left
        rw [h, summerModel, List.map_const']
      · refine key 0 hn ?_
        simp only [multiInputElem, comparatorElem, occurs_sub, List.mem_cons, List.not_mem_nil, or_false,
          exists_eq_or_imp, exists_eq_left, occurs_device, reduceCtorEq, false_or, Elem.device.injEq,
          Option.some.injEq]
        rcases h with h | h | h
        · exact Or.inr (Or.inl h)
        · exact Or.inr (Or.inr (Or.inr (Or.inl h)))
        · exact Or.inr (Or.inr (Or.inr (Or.inr (Or.inl h))))
  rw [← ho]
  exact ⟨(C127_models _).2.2 m, C127_digital_control text c gains M off m⟩

theorem digital_first {c : Ctl K} {gains : ℕ → List K} {M R : ℕ} (hR : R < M) {m : DevModel (Value K)}
    (h : Occurs (comparatorElem text c) (.device (some m))) :
    Occurs (digitalElem text c gains M R) (.device (some m)) := by
  refine .inside (List.mem_map.mpr ⟨0, List.mem_range.mpr (by omega), rfl⟩) ?_
  exact .inside (List.mem_cons_of_mem _ List.mem_cons_self) h

theorem subset_modelSet_head {name : String} {cache : List String} {t : δ} {p : Elem δ V}
    {ps : List (Elem δ V)} : modelSet p ⊆ modelSet (.sub name cache t (p :: ps)) := by
  intro m hm
  rw [modelSet, modelLoop]
  apply subset_modelLoop
  obtain ⟨m', hm', he⟩ := appendNew_has DevModel.eq DevModel.eq_refl (r := []) hm
  rcases mem_of_appendNew _ hm' with h | h
  · cases h
  · have hp := modelSet_pairwise p
    by_cases heq : m' = m
    · exact heq ▸ hm'
    · exfalso
      rw [List.pairwise_iff_getElem] at hp
      obtain ⟨i, hi, rfl⟩ := List.getElem_of_mem h
      obtain ⟨j, hj, rfl⟩ := List.getElem_of_mem hm
      rcases Nat.lt_trichotomy i j with hij | hij | hij
      · rw [hp i j hi hj hij] at he; cases he
      · subst hij; exact heq rfl
      · have := hp j i hj hi hij
        rw [DevModel.eq_iff] at he
        have : ((modelSet p)[j]).eq ((modelSet p)[i]) = true := (DevModel.eq_iff _ _).mpr ⟨he.1.symm, he.2.symm⟩
        rw [hp j i hj hi hij] at this; cases this

/-- In the netlist of a dither control the clock converter, the flip-flops and the output converters of the
random controls do not get the models they were given, which prescribe almost no delay (`eps`): models of the
comparators with the same names, which prescribe delays proportional to the clock period, are the ones
written. -/
theorem C127_dither_false (c : Ctl K) (gains : ℕ → List K) (M R : ℕ) (file : String) (hR : 1 ≤ R) (hM : R < M)
    (hT : c.T / 1000 ≠ c.eps) (hT' : c.T / 100 ≠ c.eps) :
    ∀ m ∈ ditherModels c,
      Occurs (ditherElem text c gains M R file) (.device (some m)) ∧
      m ∉ modelSet (ditherElem text c gains M R file) := by
  have key : ∀ m m' : DevModel (Value K), Occurs (comparatorElem text c) (.device (some m')) →
      m'.kind = m.kind → m'.name = m.name → m' ≠ m → m ∉ modelSet (ditherElem text c gains M R file) := by
    intro m m' ho hk hn hne hm
    have hm' : m' ∈ modelSet (ditherElem text c gains M R file) := by
      rw [ditherElem]
      exact subset_modelSet_head (C127_digital_control text c gains M R m' (digital_first text hM ho))
    have hp := (C127_models (ditherElem text c gains M R file)).2.1
    have : Std.Symm fun a b : DevModel (Value K) => ¬ (a.kind = b.kind ∧ a.name = b.name) :=
      ⟨fun a b h hk => h ⟨hk.1.symm, hk.2.symm⟩⟩
    exact hp.forall hm' hm hne ⟨hk, hn⟩
  intro m hm
  simp only [ditherModels, List.mem_cons, List.not_mem_nil, or_false] at hm
  have h0 : 0 ∈ List.range R := List.mem_range.mpr (by omega)
  rcases hm with rfl | rfl | rfl
  · refine ⟨.inside (p := .device (some _)) (List.mem_cons_of_mem _ (List.mem_cons_of_mem _ List.mem_cons_self)) (.refl _),
      key _ (adcModel "adc" c.inLow c.inHigh (c.T / 1000) (c.T / 1000))
        (.inside (p := .device (some _)) (by simp) (.refl _)) rfl rfl ?_⟩
    simp [adcModel, hT]
  · refine ⟨.inside (p := .device (some _)) ?_ (.refl _),
      key _ (dffModel "dflip" 0 c.eps c.eps 1 (c.T / 1000) (c.T / 1000))
        (.inside (p := .device (some _)) (by simp) (.refl _)) rfl rfl ?_⟩
    · refine List.mem_cons_of_mem _ (List.mem_cons_of_mem _ (List.mem_cons_of_mem _ ?_))
      exact List.mem_append_left _ (List.mem_append_left _ (List.mem_map.mpr ⟨0, h0, rfl⟩))
    · simp [dffModel, hT]
  · refine ⟨.inside (p := .device (some _)) ?_ (.refl _),
      key _ (dacModel "dac" c.outLow c.outHigh ((c.outHigh - c.outLow) / 2) c.load (c.T / 100) (c.T / 100))
        (.inside (p := .device (some _)) (by simp) (.refl _)) rfl rfl ?_⟩
    · refine List.mem_cons_of_mem _ (List.mem_cons_of_mem _ (List.mem_cons_of_mem _ ?_))
      exact List.mem_append_right _ (List.mem_map.mpr ⟨0, h0, rfl⟩)
    · simp [dacModel, hT']

end Controls

/-- Two states, one random control, the default voltages and a clock period of one microsecond. -/
def ctlEx : Ctl ℚ := ⟨1, 0, 1, 0, 1 / 1000000, 1 / 10 ^ 15, 1 / 10 ^ 12⟩

example : (⟨"adc_bridge", "adc", [("in_low", .num 0), ("in_high", .num 1), ("rise_delay", .num (1 / 10 ^ 15 : ℚ)),
    ("fall_delay", .num (1 / 10 ^ 15))]⟩ : DevModel (Value ℚ)) ∉
    modelSet (ditherElem id ctlEx (fun _ => [1, 2]) 2 1 "dither.txt") :=
  (C127_dither_false id ctlEx (fun _ => [1, 2]) 2 1 "dither.txt" le_rfl (by norm_num)
    (by norm_num [ctlEx]) (by norm_num [ctlEx]) _ List.mem_cons_self).2

example : (⟨"summer", "sum_1", [("input_offset", .nums [0, 0]), ("input_gain", .nums [1, 2]),
      ("output_offset", .num ((1 - 0) / 2 + 0)), ("output_gain", .num 1)]⟩ : DevModel (Value ℚ)) ∈
    modelSet (digitalElem id ctlEx (fun _ => [1, 2]) 2 0) :=
  (C127_digital_models id ctlEx (fun _ => [1, 2]) 2 0 _).2 (Or.inl ⟨1, by norm_num, rfl⟩)

example : adcModel "adc" (0 : ℚ) 1 (1 / 1000000 / 1000) (1 / 1000000 / 1000) ∈
    modelSet (digitalElem id ctlEx (fun _ => [1, 2]) 2 0) :=
  C127_digital_control id ctlEx (fun _ => [1, 2]) 2 0 _
    (digital_first id (by norm_num) (.inside List.mem_cons_self (.refl _)))

end Cbadc.Hierarchy
