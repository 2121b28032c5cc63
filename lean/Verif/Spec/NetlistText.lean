import Verif.Model.NetlistText

/-! # Specification of lines and words -/

namespace Cbadc.NetlistText.Spec

/-- Line breaks: a carriage return followed by a line feed is one break. -/
def Break (b : Text) : Prop :=
  b = ['\r', '\n'] ∨ ∃ c : Char, b = [c] ∧ c.toNat ∈ [0x0a, 0x0b, 0x0c, 0x0d, 0x1c, 0x1d, 0x1e, 0x85, 0x2028, 0x2029]

/-- White space. -/
def Space (c : Char) : Prop :=
  c.toNat ∈ [0x09, 0x0a, 0x0b, 0x0c, 0x0d, 0x1c, 0x1d, 0x1e, 0x1f, 0x20, 0x85, 0xa0, 0x1680, 0x2000, 0x2001, 0x2002,
    0x2003, 0x2004, 0x2005, 0x2006, 0x2007, 0x2008, 0x2009, 0x200a, 0x2028, 0x2029, 0x202f, 0x205f, 0x3000]

/-- No character of the line is a break. -/
def Whole (l : Text) : Prop := ∀ c ∈ l, ¬ Break [c]

/-- The lines of a text; a break at the end does not begin another line. -/
inductive Lines : Text → List Text → Prop
  | nil : Lines [] []
  | last (l : Text) : l ≠ [] → Whole l → Lines l [l]
  | cons (l b rest : Text) (ls : List Text) : Whole l → Break b → (b = ['\r'] → rest.head? ≠ some '\n') →
      Lines rest ls → Lines (l ++ b ++ rest) (l :: ls)

/-- A word: some characters without white space. -/
def Word (w : Text) : Prop := w ≠ [] ∧ ∀ c ∈ w, ¬ Space c

/-- The words of a line, separated by white space. -/
inductive Words : Text → List Text → Prop
  | nil (g : Text) : (∀ c ∈ g, Space c) → Words g []
  | cons (g w rest : Text) (ws : List Text) : (∀ c ∈ g, Space c) → Word w → (∀ c, rest.head? = some c → Space c) →
      Words rest ws → Words (g ++ w ++ rest) (w :: ws)

/-- Equal up to the case of the ASCII letters. -/
def SameLetters (a b : Text) : Prop := a.map Char.toLower = b.map Char.toLower

/-- What a netlist must look like: the first line is `.subckt` with a name and distinct terminals, no other line is
blank, and one of them begins with `.ends`. -/
def Readable (t : Text) (name : Text) (terminals : List Text) : Prop :=
  ∃ first rest kw, Lines t (first :: rest) ∧ Words first (kw :: name :: terminals) ∧
    SameLetters kw ".subckt".toList ∧ (∀ l ∈ rest, ∃ w ws, Words l (w :: ws)) ∧
    (∃ l ∈ rest, ∃ w ws, Words l (w :: ws) ∧ SameLetters w ".ends".toList) ∧
    terminals.Pairwise fun a b => ¬ (a.map Char.toUpper = b.map Char.toUpper)

end Cbadc.NetlistText.Spec
