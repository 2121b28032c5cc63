import Verif.Model.SignalTree

/-! # Specifications for combinations of signals

Predicates on expressions; they use the type of expressions but none of the functions of the model. -/

namespace Cbadc.Signal.Spec

mutual
/-- No object with mutable attributes occurs in the expression (random signals and held samples are the classes
with such attributes, `src/cbadc/analog_signal/random.py`, `zero_order_hold.py`). -/
def Stateless : Sig → Prop
  | .obj _ => False
  | .add l => StatelessAll l
  | .mul l => StatelessAll l
  | .quad _ _ _ i q => Stateless i ∧ Stateless q
  | .modulator i q _ => Stateless i ∧ Stateless q
  | _ => True
/-- As `Stateless`, for all parts (`src/cbadc/analog_signal/_analog_signal.py:74,109`). -/
def StatelessAll : List Sig → Prop
  | [] => True
  | s :: l => Stateless s ∧ StatelessAll l
end

mutual
/-- No `RCImpulseResponse` (`src/cbadc/analog_signal/impulse_responses.py:88-142`) occurs among the terms and factors. -/
def NoRC : Sig → Prop
  | .rc _ _ _ => False
  | .add l => NoRCAll l
  | .mul l => NoRCAll l
  | _ => True
/-- As `NoRC`, for all parts (`src/cbadc/analog_signal/_analog_signal.py:74,109`). -/
def NoRCAll : List Sig → Prop
  | [] => True
  | s :: l => NoRC s ∧ NoRCAll l
end

end Cbadc.Signal.Spec
