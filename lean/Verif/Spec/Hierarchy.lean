import Verif.Model.Hierarchy
import Mathlib.Data.List.Nodup

/-!
# Specification of circuit hierarchies

What occurs where in the tree of sub-circuits.  Nothing here refers to how the tree is walked.
-/

namespace Cbadc.Hierarchy.Spec

variable {δ : Type} {V : Type*}

/-- `Occurs a b`: the element `b` is `a` or somewhere inside `a`. -/
inductive Occurs : Elem δ V → Elem δ V → Prop
  | refl (a) : Occurs a a
  | inside {name cache text parts p b} : p ∈ parts → Occurs p b → Occurs (.sub name cache text parts) b

/-- The element is a sub-circuit with the given definition. -/
def HasText (d : δ) (e : Elem δ V) : Prop := ∃ name cache parts, e = .sub name cache d parts

/-- The element is a sub-circuit with the given name. -/
def HasName (n : String) (e : Elem δ V) : Prop := ∃ cache text parts, e = .sub n cache text parts

/-- Some sub-circuit contains another one of the same name. -/
def Clash (e : Elem δ V) : Prop :=
  ∃ n cache text parts, Occurs e (.sub n cache text parts) ∧
    ∃ p ∈ parts, ∃ s, Occurs p s ∧ HasName n s

/-- Two sub-circuits with the same name and different definitions. -/
def Ambiguous (e : Elem δ V) : Prop :=
  ∃ n d d' s s', Occurs e s ∧ Occurs e s' ∧ HasName n s ∧ HasName n s' ∧ HasText d s ∧ HasText d' s' ∧ d ≠ d'

/-- Every stored list is either empty or lists exactly the names of the sub-circuit and those inside. -/
def Current (e : Elem δ V) : Prop :=
  ∀ n cache text parts, Occurs e (.sub n cache text parts) →
    cache = [] ∨ ∀ k, k ∈ cache ↔ ∃ s, Occurs (.sub n cache text parts) s ∧ HasName k s

/-- No list has been stored yet. -/
def Fresh (e : Elem δ V) : Prop :=
  ∀ n cache text parts, Occurs e (.sub n cache text parts) → cache = []

mutual
/-- The element without its stored lists. -/
def bare : Elem δ V → Elem δ V
  | .device m => .device m
  | .sub name _ text parts => .sub name [] text (bares parts)
/-- The elements without their stored lists. -/
def bares : List (Elem δ V) → List (Elem δ V)
  | [] => []
  | p :: ps => bare p :: bares ps
end

/-- A model of the circuit of a digital control with `n` comparators: the summers weight the states by the gains and
centre their sum between the levels of the outputs; the converters have the levels of the control and all delays are
fixed fractions of the clock period. -/
def DigitalModel {K : Type*} [Field K] (c : Ctl K) (gains : ℕ → List K) (n : ℕ) (m : DevModel (Value K)) : Prop :=
  (∃ i < n, m = ⟨"summer", "sum_" ++ i.repr, [("input_offset", .nums (List.replicate (gains i).length 0)),
    ("input_gain", .nums (gains i)), ("output_offset", .num ((c.outHigh - c.outLow) / 2 + c.outLow)),
    ("output_gain", .num 1)]⟩) ∨
  0 < n ∧
    (m = ⟨"adc_bridge", "adc", [("in_low", .num c.inLow), ("in_high", .num c.inHigh),
        ("rise_delay", .num (c.T / 1000)), ("fall_delay", .num (c.T / 1000))]⟩ ∨
     m = ⟨"d_dff", "dflip", [("clk_delay", .num 0), ("set_delay", .num c.eps), ("reset_delay", .num c.eps),
        ("ic", .num 1), ("rise_delay", .num (c.T / 1000)), ("fall_delay", .num (c.T / 1000))]⟩ ∨
     m = ⟨"dac_bridge", "dac", [("out_low", .num c.outLow), ("out_high", .num c.outHigh),
        ("out_undef", .num ((c.outHigh - c.outLow) / 2)), ("input_load", .num c.load),
        ("t_rise", .num (c.T / 100)), ("t_fall", .num (c.T / 100))]⟩)

/-- The models a dither control gives to the clock converter, the flip-flops and the output converters of its random
controls. -/
def ditherModels {K : Type*} [Field K] (c : Ctl K) : List (DevModel (Value K)) :=
  [⟨"adc_bridge", "adc", [("in_low", .num c.inLow), ("in_high", .num c.inHigh), ("rise_delay", .num c.eps),
     ("fall_delay", .num c.eps)]⟩,
   ⟨"d_dff", "dflip", [("clk_delay", .num 0), ("set_delay", .num c.eps), ("reset_delay", .num c.eps), ("ic", .num 1),
     ("rise_delay", .num c.eps), ("fall_delay", .num c.eps)]⟩,
   ⟨"dac_bridge", "dac", [("out_low", .num c.outLow), ("out_high", .num c.outHigh),
     ("out_undef", .num ((c.outHigh + c.outLow) / 2)), ("input_load", .num c.eps), ("t_rise", .num c.eps),
     ("t_fall", .num c.eps)]⟩]

end Cbadc.Hierarchy.Spec
