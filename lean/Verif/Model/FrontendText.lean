import Mathlib.Data.Real.Basic
import Verif.Model.Cards
import Verif.Model.Circuit

/-!
# The text of the printed frontends

`get_sub_circuit_definitions` of `OpAmpFrontend` and `GmCFrontend`: the elements and connections of `Verif.Model.Circuit`
printed by the templates of `Verif.Model.Cards`.  The numbers are real numbers; `str` of a number is a parameter.
-/

namespace Cbadc.FrontendText

open Cbadc.Circuit Cbadc.Cards
open Cbadc.NetlistText (Text definitionText)

/-- The constructor call behind a part of a frontend: `src/cbadc/circuit/opamp.py:93-121`, `141-142`,
`src/cbadc/circuit/ota.py:91-97`, `112-116`, `180-206`, `src/cbadc/circuit/analog_frontend.py:56-121`.  The name of the
model of an `OTA` is not printed.  The devices that no frontend contains are left out. -/
def component (num : ℝ → Text) (e : Part Obj ℝ) : Res (Component ℝ) :=
  match e.dev with
  | .res r => .ok (.resistor e.inst.toList (num r))
  | .cap c => .ok (.capacitor e.inst.toList (num c))
  | .ind l => .ok (.inductor e.inst.toList (num l))
  | .vccs g => .ok (.ota e.inst.toList "ota".toList (num g))
  | .sub s => .ok (.sub e.inst.toList s.toList e.terms.length [])
  | _ => .error .notImplemented

/-- `subckt.get_ngspice(connections)` for one part: `templates/ngspice/sub_circuit_definition.cir.j2:5` and
`src/cbadc/circuit/__init__.py:233-245`.  The elements of the frontends have no comments.  No source is printed, so that
the factor one half of the pulse sources does not matter. -/
noncomputable def partText (num : ℝ → Text) (isFloat : Text → Bool) (ids : String → ℕ → String) (w : Wires Obj)
    (e : Part Obj ℝ) : Res Text :=
  match component num e with
  | .error x => .error x
  | .ok c => c.ngspice (1 / 2 : ℝ) num isFloat [] (e.terms.map fun t => (w.node (Obj.name ids) t).toList)

/-- The texts of several parts, in order: `templates/ngspice/sub_circuit_definition.cir.j2:4-6`. -/
noncomputable def partTexts (num : ℝ → Text) (isFloat : Text → Bool) (ids : String → ℕ → String) (w : Wires Obj) :
    List (Part Obj ℝ) → Res (List Text)
  | [] => .ok []
  | e :: es =>
    match partText num isFloat ids w e with
    | .error x => .error x
    | .ok t =>
      match partTexts num isFloat ids w es with
      | .error x => .error x
      | .ok ts => .ok (t :: ts)

/-- The first text of `get_sub_circuit_definitions()`: `src/cbadc/circuit/__init__.py:413-434`; `ports` are the names of
the sub-circuit's own terminals. -/
noncomputable def subText (num : ℝ → Text) (isFloat : Text → Bool) (ids : String → ℕ → String) (name : String)
    (ports : List String) (s : Sub Obj ℝ) : Res Text :=
  match partTexts num isFloat ids s.wires s.parts with
  | .error x => .error x
  | .ok ts => .ok (definitionText name.toList (ports.map fun p => (s.wires.node (Obj.name ids) (.own p)).toList) ts)

/-- The terminals of a frontend: `src/cbadc/circuit/analog_frontend.py:32-42`. -/
def frontendPins (L M : ℕ) : List String :=
  ["VSS", "VDD", "CLK", "VCM"]
    ++ (List.range L).map (fmt "IN" · "_P") ++ (List.range L).map (fmt "IN" · "_N")
    ++ (List.range M).map (fmt "OUT" · "_P") ++ (List.range M).map (fmt "OUT" · "_N")

/-- `OpAmpFrontend(...)` and its printed definition: `src/cbadc/circuit/opamp.py:42-74`, `analog_frontend.py:29-45`. -/
noncomputable def opampText (num : ℝ → Text) (isFloat : Text → Bool) (ids : String → ℕ → String) (S : Analog.Sys ℝ)
    (C : ℝ) : Res Text :=
  match opampFrontend ids S C with
  | .error x => .error x
  | .ok s => subText num isFloat ids "opamp_analog_frontend" (frontendPins S.L S.M) s

/-- `MultiInputOTA(...)` and its printed definition: `src/cbadc/circuit/ota.py:34-131`, `src/cbadc/circuit/__init__.py:413-434`.
The two checks come first, as in `multiOta`. -/
noncomputable def multiOtaText (num : ℝ → Text) (isFloat : Text → Bool) (ids : String → ℕ → String) (S : Analog.Sys ℝ)
    (k : ℕ) (C : ℝ) (gain : Option ℝ) : Res Text :=
  match S.Gamma with
  | none => .error .valueError
  | some G =>
    if gain ≠ none ∧ absMax S.N S.L S.B * C = 0 then .error .zeroDivision
    else
      match Sub.run (Obj.name ids) (multiOtaOps S G k C (absMax S.N S.L S.B) gain) .empty with
      | .error x => .error x
      | .ok s => subText num isFloat ids (fmt "multi_input_ota_" k "") (multiOtaPins S.N S.L S.M) s

/-- `GmCFrontend(...)`, its printed definition and those of its transconductors: `src/cbadc/circuit/ota.py:150-213`,
`src/cbadc/circuit/__init__.py:413-445`.  The definitions of the digital control, which are printed before those of the
transconductors, are left out. -/
noncomputable def gmcText (num : ℝ → Text) (isFloat : Text → Bool) (ids : String → ℕ → String) (S : Analog.Sys ℝ)
    (C : ℝ) (gain : Option ℝ) : Res (Text × List Text) :=
  match (List.range S.N).mapM (fun n => multiOtaText num isFloat ids S n C gain) with
  | .error x => .error x
  | .ok ts =>
    match Sub.run (Obj.name ids) (gmcOps S.N S.L S.M C) .empty with
    | .error x => .error x
    | .ok s =>
      match subText num isFloat ids "ota_frontend" (frontendPins S.L S.M) s with
      | .error x => .error x
      | .ok t => .ok (t, ts)

end Cbadc.FrontendText
