import Mathlib.Tactic.Ring
import Mathlib.Tactic.Linarith
import Mathlib.MeasureTheory.Integral.IntervalIntegral.Basic
import Mathlib.Analysis.SpecialFunctions.Integrals.Basic
import Std.Data.String.ToNat
import Verif.Model.VerilogAms

/-! # C139: the Verilog-AMS modules -/

namespace Cbadc.Vams

open Spec

variable {env : String → ℝ → ℝ}

/-- A number is read where a factor is expected. -/
private theorem read_number (v : ℝ) (ts : List Tok) (f : Frame) (st : List Frame) (h : f.open_ = true) :
    parse env (number v ++ ts) f st = parse env ts { f with prod := f.prod * (f.sign * fun _ => v), sign := 1, open_ := false } st := by
  unfold number
  by_cases c : v < 0
  · rw [if_pos c]
    simp only [List.cons_append, List.nil_append, parse, h, if_true, Frame.factor, Option.bind_some]
    congr 2
    funext t
    simp
  · rw [if_neg c]
    simp only [List.cons_append, List.nil_append, parse, h, if_true, Frame.factor, Option.bind_some]

private theorem abs_signed (v : ℝ) : (if v < 0 then -|v| else |v|) = v := by
  by_cases c : v < 0
  · rw [if_pos c, abs_of_neg c, neg_neg]
  · rw [if_neg c, abs_of_nonneg (not_lt.1 c)]

/-- A signed number after a finished term. -/
private theorem read_signed (v : ℝ) (ts : List Tok) (f : Frame) (st : List Frame) (h : f.open_ = false) (hs : f.sign = 1) :
    parse env (signed v ++ ts) f st = parse env ts { f with sum := f.sum + f.prod, prod := fun _ => v } st := by
  unfold signed
  have h1 := abs_signed v
  by_cases c : v < 0
  · rw [if_pos c] at h1 ⊢
    rw [List.cons_append]
    simp only [parse, h, Bool.false_eq_true, if_false]
    rw [read_number _ _ _ _ rfl]
    congr 1
    obtain ⟨a, b, s, o, cl⟩ := f
    simp only at h hs ⊢
    subst h hs
    congr 1
    funext t
    simp [h1]
  · rw [if_neg c] at h1 ⊢
    rw [List.cons_append]
    simp only [parse, h, Bool.false_eq_true, if_false]
    rw [read_number _ _ _ _ rfl]
    congr 1
    obtain ⟨a, b, s, o, cl⟩ := f
    simp only at h hs ⊢
    subst h hs
    congr 1
    funext t
    simp [h1]

/-- A signed number at the beginning. -/
private theorem read_signed_first (v : ℝ) (ts : List Tok) (st : List Frame) :
    parse env (signed v ++ ts) {} st = parse env ts { prod := fun _ => v, open_ := false } st := by
  unfold signed
  have h1 := abs_signed v
  by_cases c : v < 0
  · rw [if_pos c] at h1 ⊢
    rw [List.cons_append]
    simp only [parse, if_true]
    rw [read_number _ _ _ _ rfl]
    congr 2
    funext t
    simp [h1]
  · rw [if_neg c] at h1 ⊢
    rw [List.cons_append]
    simp only [parse, if_true]
    rw [read_number _ _ _ _ rfl]
    congr 2
    funext t
    simp [h1]

/-- The bracket of an input. -/
private theorem read_bracket (name : String) (offset : ℝ) (ts : List Tok) (f : Frame) (st : List Frame) (h : f.open_ = false)
    (hs : f.sign = 1) :
    parse env ([.times, .lpar, .probe2 name "vgnd"] ++ ((if offset ≠ 0 then signed offset else []) ++ [.rpar]) ++ ts) f st =
      parse env ts { f with prod := f.prod * fun t => env name t - env "vgnd" t + offset } st := by
  obtain ⟨a, b, s, o, cl⟩ := f
  simp only at h hs
  subst h hs
  by_cases c : offset ≠ 0
  · rw [if_pos c]
    simp only [List.cons_append, List.nil_append, List.append_assoc, parse, Bool.false_eq_true, if_false, if_true, Frame.factor,
      Option.bind_some]
    rw [read_signed _ _ _ _ rfl rfl]
    simp only [parse, Bool.false_eq_true, if_false, if_true, Frame.factor, Option.bind_some]
    congr 2
    funext t
    simp
  · rw [if_neg c]
    rw [not_not] at c
    subst c
    simp only [List.cons_append, List.nil_append, parse, Bool.false_eq_true, if_false, if_true, Frame.factor,
      Option.bind_some]
    congr 2
    funext t
    simp

/-- The weighted sum of inputs from number `k` on. -/
private noncomputable def inputSum (env : String → ℝ → ℝ) : ℕ → List ℝ → List ℝ → ℝ → ℝ
  | k, g :: gs, o :: os => fun t => g * (env (inName k) t - env "vgnd" t + o) + inputSum env (k + 1) gs os t
  | _, _, _ => fun _ => 0

/-- Reading inputs after a finished term: the total grows by the weighted sum. -/
private theorem read_inputs (ts : List Tok) (st : List Frame) (gs : List ℝ) : ∀ (os : List ℝ) (k : ℕ) (f : Frame), gs.length = os.length →
    f.open_ = false → f.sign = 1 → ∃ g : Frame, g.open_ = false ∧ g.sign = 1 ∧ g.close = f.close ∧
      g.sum + g.prod = f.sum + f.prod + inputSum env k gs os ∧ parse env (summerInputs k gs os ++ ts) f st = parse env ts g st := by
  induction gs with
  | nil =>
    intro os k f hl h hs
    refine ⟨f, h, hs, rfl, ?_, ?_⟩
    · funext t
      simp [inputSum]
    · cases os <;> simp [summerInputs]
  | cons a gs ih =>
    intro os k f hl h hs
    match os with
    | [] => simp at hl
    | o :: os =>
      simp only [List.length_cons, Nat.add_right_cancel_iff] at hl
      simp only [summerInputs]
      by_cases c : a ≠ 0
      · have e : summerInput k a o ++ summerInputs (k + 1) gs os ++ ts = signed a ++ (([.times, .lpar, .probe2 (inName k) "vgnd"] ++
            ((if o ≠ 0 then signed o else []) ++ [.rpar])) ++ (summerInputs (k + 1) gs os ++ ts)) := by
          rw [summerInput, if_pos c]
          simp only [List.append_assoc]
        rw [e, read_signed _ _ _ _ h hs, read_bracket _ _ _ { f with sum := f.sum + f.prod, prod := fun _ => a } _ h hs]
        obtain ⟨g, h1, h2, h3, h4, h5⟩ := ih os (k + 1) { f with sum := f.sum + f.prod, prod := (fun _ => a) * fun t => env (inName k) t - env "vgnd" t + o } hl h hs
        refine ⟨g, h1, h2, h3, ?_, h5⟩
        rw [h4]
        funext t
        simp [inputSum]
        ring
      · obtain ⟨g, h1, h2, h3, h4, h5⟩ := ih os (k + 1) f hl h hs
        rw [not_not] at c
        subst c
        refine ⟨g, h1, h2, h3, ?_, ?_⟩
        · rw [h4]
          funext t
          simp [inputSum]
        · rw [summerInput, if_neg (by simp), List.nil_append, h5]

/-- Reading all inputs, if one of them has a gain. -/
private theorem read_inputs_first (ts : List Tok) (st : List Frame) (gs : List ℝ) : ∀ (os : List ℝ) (k : ℕ), gs.length = os.length →
    (∃ a ∈ gs, a ≠ 0) → ∃ g : Frame, g.open_ = false ∧ g.close = id ∧
      g.sum + g.prod = inputSum env k gs os ∧ parse env (summerInputs k gs os ++ ts) {} st = parse env ts g st := by
  induction gs with
  | nil =>
    rintro os k hl ⟨a, ha, -⟩
    cases ha
  | cons a gs ih =>
    intro os k hl h
    match os with
    | [] => simp at hl
    | o :: os =>
      simp only [List.length_cons, Nat.add_right_cancel_iff] at hl
      simp only [summerInputs]
      by_cases c : a ≠ 0
      · have e : summerInput k a o ++ summerInputs (k + 1) gs os ++ ts = signed a ++ (([.times, .lpar, .probe2 (inName k) "vgnd"] ++
            ((if o ≠ 0 then signed o else []) ++ [.rpar])) ++ (summerInputs (k + 1) gs os ++ ts)) := by
          rw [summerInput, if_pos c]
          simp only [List.append_assoc]
        rw [e, read_signed_first, read_bracket _ _ _ { prod := fun _ => a, open_ := false } _ rfl rfl]
        obtain ⟨g, h1, h2, h3, h4, h5⟩ := read_inputs (env := env) ts st gs os (k + 1)
          { prod := (fun _ => a) * fun t => env (inName k) t - env "vgnd" t + o, open_ := false } hl rfl rfl
        refine ⟨g, h1, h3, ?_, h5⟩
        rw [h4]
        funext t
        simp [inputSum]
      · obtain ⟨b, hb, hb0⟩ := h
        rw [not_not] at c
        subst c
        have hb' : b ∈ gs := (List.mem_cons.1 hb).resolve_left hb0
        obtain ⟨g, h1, h2, h3, h4⟩ := ih os (k + 1) hl ⟨b, hb', hb0⟩
        refine ⟨g, h1, h2, ?_, ?_⟩
        · rw [h3]
          funext t
          simp [inputSum]
        · rw [summerInput, if_neg (by simp), List.nil_append, h4]

/-- The value of the text of a summer. -/
private theorem value_summer {gs os : List ℝ} (hl : gs.length = os.length) (h : ∃ a ∈ gs, a ≠ 0) (og oo : ℝ) :
    value env (summerText gs os og oo) = some fun t => og * inputSum env 0 gs os t + oo := by
  unfold value summerText
  rw [read_number _ _ _ _ rfl]
  simp only [List.cons_append, List.nil_append, parse, Bool.false_eq_true, if_false, if_true]
  obtain ⟨g, h1, h2, h3, h4⟩ := read_inputs_first (env := env) (.rpar :: .plus :: number oo)
    [{ prod := 1 * (1 * fun _ => og) }] gs os 0 hl h
  rw [h4]
  simp only [parse, h1, Bool.false_eq_true, if_false, if_true, Frame.factor, Option.bind_some, h2, id_eq, h3]
  have e : number oo = number oo ++ [] := (List.append_nil _).symm
  rw [e, read_number _ _ _ _ rfl]
  simp only [parse, Bool.false_eq_true, if_false]
  congr 1
  funext t
  simp

theorem inName_inj {i j : ℕ} (h : inName i = inName j) : i = j := by
  apply Nat.repr_injective
  apply String.toList_injective
  have := congrArg String.toList h
  rw [inName, inName, String.toList_append, String.toList_append] at this
  exact List.append_cancel_left this

theorem inName_ne (i : ℕ) : inName i ≠ "out" ∧ inName i ≠ "vgnd" := by
  constructor <;> intro h <;> have := congrArg String.toList h <;> rw [inName, String.toList_append] at this <;> simp at this

theorem portNode_skip {q : String} : ∀ (ps ns ps' ns' : List String), ps.length = ns.length → q ∉ ps →
    portNode (ps ++ ps') (ns ++ ns') q = portNode ps' ns' q
  | [], [], _, _, _, _ => rfl
  | [], _ :: _, _, _, h, _ => by simp at h
  | _ :: _, [], _, _, h, _ => by simp at h
  | p :: ps, n :: ns, ps', ns', h, hq => by
    rw [List.cons_append, List.cons_append, portNode, if_neg (fun e : q = p => hq (e ▸ List.mem_cons_self))]
    exact portNode_skip ps ns ps' ns' (by simpa using h) fun hm => hq (List.mem_cons_of_mem _ hm)

theorem portNode_in (ps' ns' : List String) : ∀ (ins : List String) (k i : ℕ) (h : i < ins.length),
    portNode ((List.range' k ins.length).map inName ++ ps') (ins ++ ns') (inName (k + i)) = ins[i] := by
  intro ins
  induction ins with
  | nil => intro k i h; simp at h
  | cons n ins ih =>
    intro k i h
    rw [List.length_cons, List.range'_succ, List.map_cons, List.cons_append, List.cons_append, portNode]
    match i with
    | 0 => rw [if_pos (by rw [Nat.add_zero])]; rfl
    | i + 1 =>
      rw [if_neg (fun e => by have := inName_inj e; omega), ← Nat.add_assoc, Nat.add_right_comm, ih]
      rfl

/-- The weighted sum in terms of the nodes. -/
private theorem inputSum_eq {gnd : String} {volt : String → ℝ → ℝ} (hg : env "vgnd" = volt gnd) (t : ℝ) (gs : List ℝ) :
    ∀ (os : List ℝ) (ins : List String) (k : ℕ), gs.length = os.length → gs.length = ins.length →
    (∀ i (h : i < ins.length), env (inName (k + i)) = volt ins[i]) → inputSum env k gs os t =
      ((gs.zip (os.zip (ins.map fun n => volt n - volt gnd))).map fun p => p.1 * (p.2.2 t + p.2.1)).sum := by
  induction gs with
  | nil => intro os ins k _ _ _; simp [inputSum]
  | cons a gs ih =>
    intro os ins k h1 h2 h3
    match os, ins with
    | [], _ => simp at h1
    | _ :: _, [] => simp at h2
    | o :: os, n :: ins =>
      simp only [List.length_cons, Nat.add_right_cancel_iff] at h1 h2
      have h4 := h3 0 (by simp)
      rw [inputSum]
      dsimp only
      rw [ih os ins (k + 1) h1 h2 fun i h => by
        have := h3 (i + 1) (by simpa using h)
        rw [← Nat.add_assoc, Nat.add_right_comm] at this
        exact this]
      rw [Nat.add_zero] at h4
      simp [hg, h4]

/-- **C139** A `Summer` means the same in Spectre, through its Verilog-AMS module, as in ngspice: the output node is at the
weighted sum of the voltages of the input nodes with respect to the common node.  (Partial: one gain at least is not zero.) -/
theorem C139_summer_partial (gain offset : List ℝ) (outGain outOffset : ℝ) (h : ∃ a ∈ gain, a ≠ 0) (ins : List String) (out gnd : String)
    (hn : ins.length = gain.length) (ho : gain.length = offset.length) (volt : String → ℝ → ℝ) :
    ∃ m, summerModule gain offset outGain outOffset = .ok m ∧
      m.instance (ins ++ [out, gnd]) volt =
        some (out, Spec.summer gain offset outGain outOffset (ins.map fun n => volt n - volt gnd)) ∧
      ngspiceSummer (summerNgspice (ins ++ [out, gnd])) gain offset outGain outOffset volt =
        (out, Spec.summer gain offset outGain outOffset (ins.map fun n => volt n - volt gnd)) := by
  refine ⟨_, if_neg (not_not.2 ho), ?_, ?_⟩
  · have hp : summerPorts gain.length = (List.range' 0 ins.length).map inName ++ ["out", "vgnd"] := by
      rw [summerPorts, hn, List.range_eq_range']
    have hlen : ((List.range' 0 ins.length).map inName).length = ins.length := by simp
    have hmem : ∀ q, (∀ i, inName i ≠ q) → q ∉ (List.range' 0 ins.length).map inName := by
      intro q hq hm
      obtain ⟨i, -, hi⟩ := List.mem_map.1 hm
      exact hq i hi
    have h1 : portNode ((List.range' 0 ins.length).map inName ++ ["out", "vgnd"]) (ins ++ [out, gnd]) "out" = out := by
      rw [portNode_skip _ _ _ _ hlen (hmem _ fun i => (inName_ne i).1), portNode, if_pos rfl]
    have h2 : portNode ((List.range' 0 ins.length).map inName ++ ["out", "vgnd"]) (ins ++ [out, gnd]) "vgnd" = gnd := by
      rw [portNode_skip _ _ _ _ hlen (hmem _ fun i => (inName_ne i).2), portNode, if_neg (by decide), portNode, if_pos rfl]
    unfold Module.instance
    dsimp only
    rw [hp, if_pos (by simp), value_summer ho h, h1]
    dsimp only [Option.map]
    congr 2
    funext t
    rw [Spec.summer, inputSum_eq (gnd := gnd) (volt := volt) (by rw [h2]) t gain offset ins 0 ho hn.symm]
    intro i hi
    rw [portNode_in]
  · have e1 : (ins ++ [out, gnd]).dropLast = ins ++ [out] := by
      rw [show ins ++ [out, gnd] = (ins ++ [out]) ++ [gnd] by simp, List.dropLast_concat]
    have e2 : (ins ++ [out, gnd]).getLast? = some gnd := by
      rw [show ins ++ [out, gnd] = (ins ++ [out]) ++ [gnd] by simp, List.getLast?_concat]
    rw [ngspiceSummer, summerNgspice, e1, e2, List.dropLast_concat, List.getLast?_concat]
    simp only [Option.getD_some, List.map_map]
    rfl

/-- **C139** Lists of different lengths are rejected. -/
theorem C139_lengths (gain offset : List ℝ) (outGain outOffset : ℝ) (h : gain.length ≠ offset.length) :
    summerModule gain offset outGain outOffset = .error .valueError := if_pos h

/-- **C139** is false if no gain differs from zero: the module is no Verilog-AMS, while ngspice gives the output offset. -/
theorem C139_zero_false (gain offset : List ℝ) (outGain outOffset : ℝ) (h : ∀ a ∈ gain, a = 0) (ho : gain.length = offset.length)
    (nodes : List String) (volt : String → ℝ → ℝ) : ∃ m, summerModule gain offset outGain outOffset = .ok m ∧
      m.instance nodes volt = none ∧
      (ngspiceSummer (summerNgspice nodes) gain offset outGain outOffset volt).2 = fun _ => outOffset := by
  refine ⟨_, if_neg (not_not.2 ho), ?_, ?_⟩
  · have e : ∀ (gs os : List ℝ) (k : ℕ), (∀ a ∈ gs, a = 0) → summerInputs k gs os = [] := by
      intro gs
      induction gs with
      | nil => intro os k _; rfl
      | cons a gs ih =>
        intro os k hz
        cases os with
        | nil => rfl
        | cons o os =>
          rw [summerInputs, summerInput, if_neg (not_not.2 (hz a List.mem_cons_self)), List.nil_append,
            ih os _ fun b hb => hz b (List.mem_cons_of_mem _ hb)]
    unfold Module.instance
    dsimp only
    rw [value, summerText, e _ _ _ h, read_number _ _ _ _ rfl]
    simp [parse]
  · have e : ∀ (gs : List ℝ) (l : List (ℝ × (ℝ → ℝ))) (t : ℝ), (∀ a ∈ gs, a = 0) →
        ((gs.zip l).map fun p => p.1 * (p.2.2 t + p.2.1)).sum = 0 := by
      intro gs
      induction gs with
      | nil => intro l t _; simp
      | cons a gs ih =>
        intro l t hz
        cases l with
        | nil => simp
        | cons x l =>
          rw [List.zip_cons_cons, List.map_cons, List.sum_cons, ih l t fun b hb => hz b (List.mem_cons_of_mem _ hb),
            hz a List.mem_cons_self]
          simp
    funext t
    rw [ngspiceSummer]
    dsimp only
    rw [Spec.summer, e _ _ _ h]
    simp

/-- **C139** A `DifferentialSummer` in ngspice adds the differences of its pairs of input nodes. -/
theorem C139_differential_ngspice (gain offset : List ℝ) (outGain outOffset : ℝ) (ps ms : List String) (out : String)
    (h : ps.length = ms.length) (volt : String → ℝ → ℝ) :
    ngspiceSummer (diffSummerNgspice ps.length (ps ++ ms ++ [out])) gain offset outGain outOffset volt =
      (out, Spec.summer gain offset outGain outOffset ((ps.zip ms).map fun p => volt p.1 - volt p.2)) := by
  have e1 : (ps ++ ms ++ [out]).take ps.length = ps := by rw [List.append_assoc, List.take_left]
  have e2 : ((ps ++ ms ++ [out]).drop ps.length).take ps.length = ms := by
    rw [List.append_assoc, List.drop_left, h, List.take_left]
  rw [ngspiceSummer, diffSummerNgspice, e1, e2, List.getLast?_concat]
  rfl

/-- **C139** is false of a `DifferentialSummer` in Spectre: it uses the module of the `Summer`, whose ports do not fit; with one
input the voltage is driven onto the negative input node, with several inputs the numbers of nodes and ports differ. -/
theorem C139_differential_false (gain offset : List ℝ) (outGain outOffset : ℝ) (ps ms : List String) (out : String)
    (h : ps.length = ms.length) (hg : ps.length = gain.length) (ho : gain.length = offset.length) (volt : String → ℝ → ℝ)
    (r : String × (ℝ → ℝ)) (m : Module) (hm : summerModule gain offset outGain outOffset = .ok m)
    (hr : m.instance (ps ++ ms ++ [out]) volt = some r) : ps.length = 1 ∧ ms = [r.1] := by
  rw [summerModule, if_neg (not_not.2 ho), Except.ok.injEq] at hm
  subst hm
  unfold Module.instance at hr
  dsimp only at hr
  by_cases c : (summerPorts gain.length).length = (ps ++ ms ++ [out]).length
  · rw [if_pos c] at hr
    simp only [summerPorts, List.length_append, List.length_map, List.length_range, List.length_cons, List.length_nil] at c
    have h1 : ps.length = 1 := by omega
    refine ⟨h1, ?_⟩
    obtain ⟨p, rfl⟩ := List.length_eq_one_iff.1 h1
    obtain ⟨n, rfl⟩ := List.length_eq_one_iff.1 (h ▸ h1)
    obtain ⟨v, -, rfl⟩ := Option.map_eq_some_iff.1 hr
    have e : summerPorts gain.length = ["in_0", "out", "vgnd"] := by
      rw [← hg, h1]
      decide +kernel
    rw [e]
    simp [portNode]
  · rw [if_neg c] at hr
    cases hr

/-- The value of an integrator. -/
private theorem value_integrator (p : IntegratorParams) (a b : String) (volt : String → ℝ → ℝ) :
    (integratorModule p).instance [a, b] volt = some (b, fun t => p.gain * ∫ s in (0 : ℝ)..t, (volt a s + |p.in_offset|)) := by
  unfold Module.instance integratorModule
  dsimp only
  rw [if_pos (by rfl), value, read_number _ _ _ _ rfl]
  have e1 : portNode ["in", "out"] [a, b] "in" = a := rfl
  have e2 : portNode ["in", "out"] [a, b] "out" = b := rfl
  simp only [List.cons_append, List.nil_append, parse, Bool.false_eq_true, if_false, if_true, Frame.factor, Option.bind_some, e1, e2]
  by_cases c : p.in_offset ≠ 0
  · rw [if_pos c]
    by_cases c' : p.in_offset < 0
    · rw [if_pos c', List.cons_append]
      simp only [parse, Bool.false_eq_true, if_false]
      rw [read_number _ _ _ _ rfl]
      simp only [parse, Bool.false_eq_true, if_false, if_true, Frame.factor, Option.bind_some, Option.map_some, abs_of_neg c']
      congr 2
      funext t
      simp [Spec.idt]
    · rw [if_neg c', List.cons_append]
      simp only [parse, Bool.false_eq_true, if_false]
      rw [read_number _ _ _ _ rfl]
      simp only [parse, Bool.false_eq_true, if_false, if_true, Frame.factor, Option.bind_some, Option.map_some,
        abs_of_nonneg (not_lt.1 c')]
      congr 2
      funext t
      simp [Spec.idt]
  · rw [if_neg c]
    rw [not_not] at c
    simp only [List.nil_append, parse, Bool.false_eq_true, if_false, if_true, Frame.factor, Option.bind_some, Option.map_some, c]
    congr 2
    funext t
    simp [Spec.idt]

/-- **C139** An integrator without negative offset drives its output node as in ngspice.  (Partial: no initial value, and as
long as the limits are not reached.) -/
theorem C139_integrator_partial (p : IntegratorParams) (h : 0 ≤ p.in_offset) (a b : String) (volt : String → ℝ → ℝ) :
    (integratorModule p).instance [a, b] volt = some (b, Spec.integrator p.gain p.in_offset (volt a)) := by
  rw [value_integrator, abs_of_nonneg h]
  congr 2
  funext t
  rw [Spec.integrator, intervalIntegral.integral_const_mul]

/-- **C139** is false for a negative offset, which is printed with two minus signs: the output is wrong at all times but zero. -/
theorem C139_offset_false (p : IntegratorParams) (h : p.in_offset < 0) (hg : p.gain ≠ 0) (a b : String) (volt : String → ℝ → ℝ)
    (hc : Continuous (volt a)) : ∃ v, (integratorModule p).instance [a, b] volt = some (b, v) ∧
      v = Spec.integrator p.gain (-p.in_offset) (volt a) ∧
      ∀ t, t ≠ 0 → v t ≠ Spec.integrator p.gain p.in_offset (volt a) t := by
  have e : (fun t => p.gain * ∫ s in (0 : ℝ)..t, (volt a s + |p.in_offset|)) = Spec.integrator p.gain (-p.in_offset) (volt a) := by
    funext t
    rw [Spec.integrator, intervalIntegral.integral_const_mul, abs_of_neg h]
  refine ⟨_, e ▸ value_integrator p a b volt, rfl, fun t ht heq => ?_⟩
  rw [Spec.integrator, Spec.integrator, ← sub_eq_zero, ← intervalIntegral.integral_sub] at heq
  · have e3 : (fun s => p.gain * (volt a s + -p.in_offset) - p.gain * (volt a s + p.in_offset)) = fun _ => -2 * (p.gain * p.in_offset) := by
      funext s
      ring
    rw [e3, intervalIntegral.integral_const, smul_eq_mul] at heq
    have h1 : t * (p.gain * p.in_offset) = 0 := by linarith
    rcases mul_eq_zero.1 h1 with h2 | h2
    · exact ht h2
    · rcases mul_eq_zero.1 h2 with h3 | h3
      · exact hg h3
      · exact h.ne h3
  · exact (continuous_const.mul (hc.add continuous_const)).intervalIntegrable _ _
  · exact (continuous_const.mul (hc.add continuous_const)).intervalIntegrable _ _

/-- **C139** is false of the limits, which are not printed: whatever they are, a constant input drives the output beyond. -/
theorem C139_limits_false (p : IntegratorParams) (hg : p.gain ≠ 0) (a b : String) : ∃ v u, (integratorModule p).instance [a, b]
      (fun _ _ => u) = some (b, v) ∧ ∃ t, 0 < t ∧ p.out_upper_limit + p.limit_range < v t := by
  refine ⟨_, (|p.out_upper_limit + p.limit_range| + 1) / p.gain - |p.in_offset|, value_integrator p a b _, 1, one_pos, ?_⟩
  rw [intervalIntegral.integral_const, smul_eq_mul, sub_add_cancel, sub_zero, one_mul, mul_div_cancel₀ _ hg]
  linarith [le_abs_self (p.out_upper_limit + p.limit_range)]

section Comparator

variable {K : Type*} [LinearOrder K] {inLow inHigh outLow outHigh outUndef v : K}

/-- **C139** Above the upper threshold the Verilog-AMS comparator decides as the bridges in ngspice.  (Partial: not below.) -/
theorem C139_comparator_partial (h : inLow ≤ inHigh) (hv : inHigh < v) :
    comparatorLevel inLow inHigh outLow outHigh outUndef v = bridge inLow inHigh outLow outHigh outUndef v := by
  rw [comparatorLevel, if_pos hv.le, bridge, if_neg (not_lt.2 (h.trans hv.le)), if_pos hv]

/-- **C139** is false below the upper threshold: the low level and the undefined level are exchanged. -/
theorem C139_comparator_false (hne : outLow ≠ outUndef) (hv : v < inHigh) :
    comparatorLevel inLow inHigh outLow outHigh outUndef v ≠ bridge inLow inHigh outLow outHigh outUndef v := by
  rw [comparatorLevel, if_neg (not_le.2 hv), bridge]
  by_cases c : v < inLow
  · rw [if_pos c, if_pos c]
    exact hne.symm
  · rw [if_neg c, if_neg c, if_neg (not_lt.2 hv.le)]
    exact hne

end Comparator

/-! ## Examples -/

/-- A summer with a negative gain, a gain of zero and a negative offset. -/
example : ∃ m, summerModule [2, 0, -3] [0, 1, -1] (1 / 2) (-1) = .ok m ∧
    m.instance ["a", "b", "c", "o", "g"] (fun n t => if n = "a" then t else if n = "g" then 0 else 2) =
      some ("o", fun t => t - 5 / 2) := by
  obtain ⟨m, h1, h2, -⟩ := C139_summer_partial [2, 0, -3] [0, 1, -1] (1 / 2) (-1) ⟨2, by simp, two_ne_zero⟩ ["a", "b", "c"] "o" "g"
    rfl rfl (fun n t => if n = "a" then t else if n = "g" then 0 else 2)
  refine ⟨m, h1, h2.trans ?_⟩
  congr 2
  funext t
  simp [Spec.summer]
  ring

/-- Two gains for one offset. -/
example : summerModule [1, 2] [0] 1 0 = .error .valueError := C139_lengths _ _ _ _ (by decide)

/-- A summer that is switched off. -/
example : ∃ m, summerModule [0, 0] [1, 2] 1 3 = .ok m ∧ m.instance ["a", "b", "o", "g"] (fun _ _ => 1) = none :=
  (C139_zero_false [0, 0] [1, 2] 1 3 (by simp) rfl _ _).imp fun _ h => ⟨h.1, h.2.1⟩

/-- A differential summer with two inputs in ngspice. -/
example : (ngspiceSummer (diffSummerNgspice 2 ["a", "b", "c", "d", "o"]) [1, 2] [0, 0] 1 0
    (fun n _ => if n = "a" then 3 else if n = "d" then 1 else 0)) = ("o", fun _ => 1) := by
  refine (C139_differential_ngspice [1, 2] [0, 0] 1 0 ["a", "b"] ["c", "d"] "o" rfl _).trans ?_
  congr 1
  funext t
  simp [Spec.summer]
  norm_num

/-- A differential summer with one input in Spectre drives its negative input. -/
example : ∃ m v, summerModule [1] [0] 1 0 = .ok m ∧ m.instance ["p", "n", "o"] (fun _ _ => 1) = some ("n", v) := by
  obtain ⟨m, h1, h2, -⟩ := C139_summer_partial [1] [0] 1 0 ⟨1, by simp, one_ne_zero⟩ ["p"] "n" "o" rfl rfl (fun _ _ => 1)
  exact ⟨m, _, h1, h2⟩

/-- An integrator with an offset of a tenth, and one with minus a tenth. -/
example : ∃ v, (integratorModule { in_offset := 1 / 10 }).instance ["a", "b"] (fun _ _ => 1) = some ("b", v) ∧ v 10 = 11 := by
  refine ⟨_, C139_integrator_partial { in_offset := 1 / 10 } (by norm_num) "a" "b" _, ?_⟩
  rw [Spec.integrator, intervalIntegral.integral_const]
  norm_num

example : ∃ v, (integratorModule { in_offset := -1 / 10 }).instance ["a", "b"] (fun _ _ => 1) = some ("b", v) ∧ v 10 ≠ 9 := by
  obtain ⟨v, h1, -, h2⟩ := C139_offset_false { in_offset := -1 / 10 } (by norm_num) one_ne_zero "a" "b" (fun _ _ => 1) continuous_const
  refine ⟨v, h1, fun h => h2 10 (by norm_num) (h.trans ?_)⟩
  rw [Spec.integrator, intervalIntegral.integral_const]
  norm_num

/-- `C139_comparator_partial`: A comparator with the thresholds 2 and 4 at 5, 3 and 1. -/
example : comparatorLevel (2 : ℤ) 4 (-1) 1 0 5 = 1 ∧ comparatorLevel (2 : ℤ) 4 (-1) 1 0 3 = -1 ∧
    comparatorLevel (2 : ℤ) 4 (-1) 1 0 1 = 0 := by decide

end Cbadc.Vams
