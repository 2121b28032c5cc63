import Verif.Model.FrontendText
import Verif.Spec.Cards
import Verif.Spec.Circuit

/-!
# The circuit a printed definition stands for

What the elements read from a text (`Verif.Spec.Cards`) mean as elements of a circuit (`Verif.Spec.Circuit`).  Capital and
small letters are the same to ngspice.
-/

namespace Cbadc.FrontendText

open Cbadc.Circuit Cbadc.Cards
open Cbadc.NetlistText (Text lower)

/-- A name, whatever the case of its letters. -/
def plain (t : Text) : String := String.ofList (lower t)

/-- The element of a circuit that an element line describes; `val` reads a number. -/
def lineOf (val : Text → Option ℝ) : Stmt → Option (Line ℝ)
  | .passive c n a b v =>
    match val v with
    | none => none
    | some x =>
      if c = 'R' then some ⟨plain n, .res x, [plain a, plain b]⟩
      else if c = 'C' then some ⟨plain n, .cap x, [plain a, plain b]⟩
      else if c = 'L' then some ⟨plain n, .ind x, [plain a, plain b]⟩
      else none
  | .controlled c n a b p q v =>
    match val v with
    | none => none
    | some x =>
      if c = 'G' then some ⟨plain n, .vccs x, [plain a, plain b, plain p, plain q]⟩
      else if c = 'E' then some ⟨plain n, .vcvs x, [plain a, plain b, plain p, plain q]⟩
      else none
  | .inst n nets s [] => some ⟨plain n, .sub (plain s), nets.map plain⟩
  | _ => none

/-- The elements up to the end of the definition `name`, which must be the end of the text. -/
def bodyOf (val : Text → Option ℝ) (name : Text) : List Stmt → Option (List (Line ℝ))
  | [] => none
  | .ends n :: r => if plain n = plain name ∧ r = [] then some [] else none
  | s :: r =>
    match lineOf val s, bodyOf val name r with
    | some l, some ls => some (l :: ls)
    | _, _ => none

/-- The definition of a sub-circuit: its name, its ports and its elements. -/
def readDef (val : Text → Option ℝ) (t : Text) : Option (String × Def ℝ) :=
  match readText t with
  | some (.subckt n ts :: r) => (bodyOf val n r).map fun b => (plain n, ⟨ts.map plain, b⟩)
  | _ => none

/-- The number `r` is printed as one word and read back with a relative error of at most `ε`. -/
def Near (num : ℝ → Text) (val : Text → Option ℝ) (ε r : ℝ) : Prop :=
  Word (num r) ∧ ∃ y, val (num r) = some y ∧ |y - r| ≤ ε * |r|

/-- The entries of two matrices differ by at most the fraction `δ`. -/
def Close (δ : ℝ) (N J : ℕ) (A' A : ℕ → ℕ → ℝ) : Prop := ∀ n < N, ∀ j < J, |A' n j - A n j| ≤ δ * |A n j|

end Cbadc.FrontendText
