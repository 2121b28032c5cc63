import Mathlib.Data.Int.Notation
import Verif.Model.NetlistText

/-!
# Specification: tables of whole numbers as text
-/

namespace Cbadc.CsvText.Spec

open Cbadc.NetlistText (Text)

/-- nothing but blanks, tabulators and line ends -/
def Blank (t : Text) : Prop := ∀ c ∈ t, c = ' ' ∨ c = '\t' ∨ c = '\n' ∨ c = '\r'

/-- digits, at least one -/
def Digits (t : Text) : Prop := t ≠ [] ∧ ∀ c ∈ t, c.isDigit = true

/-- the text is a decimal numeral of the whole number, with or without leading zeros and sign -/
inductive Numeral : ℤ → Text → Prop
  | plain (ds : Text) (h : Digits ds) : Numeral (Nat.ofDigitChars 10 ds 0) ds
  | plus (ds : Text) (h : Digits ds) : Numeral (Nat.ofDigitChars 10 ds 0) ('+' :: ds)
  | minus (ds : Text) (h : Digits ds) : Numeral (-(Nat.ofDigitChars 10 ds 0 : ℤ)) ('-' :: ds)

/-- the text is a row of numerals with the separator between them and any blanks around them -/
inductive Row (sep : Text) : List ℤ → Text → Prop
  | last (before : Text) (v : ℤ) (t after : Text) (hb : Blank before) (hv : Numeral v t) (ha : Blank after) :
      Row sep [v] (before ++ (t ++ after))
  | cons (before : Text) (v : ℤ) (t after : Text) (vs : List ℤ) (rest : Text) (hb : Blank before) (hv : Numeral v t)
      (ha : Blank after) (hr : Row sep vs rest) : Row sep (v :: vs) (before ++ (t ++ (after ++ (sep ++ rest))))

/-- no line end -/
def OneLine (t : Text) : Prop := '\n' ∉ t ∧ '\r' ∉ t

/-- the text is a table with one line for each row; the lines end as on any of the usual systems, the last one need not -/
inductive Table (sep : Text) : List (List ℤ) → Text → Prop
  | empty : Table sep [] []
  | last (r : List ℤ) (t : Text) (h : Row sep r t) (ho : OneLine t) : Table sep [r] t
  | cons (r : List ℤ) (t eol : Text) (rs : List (List ℤ)) (rest : Text) (h : Row sep r t) (ho : OneLine t)
      (he : eol = ['\n'] ∨ eol = ['\r', '\n'] ∨ eol = ['\r']) (hr : Table sep rs rest) :
      Table sep (r :: rs) (t ++ (eol ++ rest))

/-- the separator is not empty, has no white space and does not begin with a digit -/
def Separator (sep : Text) : Prop :=
  sep ≠ [] ∧ (∀ c ∈ sep, c.toNat ∉ [0x20, 0x09, 0x0a, 0x0b, 0x0c, 0x0d]) ∧ ∀ c ∈ sep.head?, c.isDigit = false

/-- a voltage printed with a fixed number of decimals: perhaps a sign, digits, a point, digits -/
inductive Fixed : Text → Prop
  | plain (a b : Text) (ha : Digits a) (hb : Digits b) : Fixed (a ++ '.' :: b)
  | minus (a b : Text) (ha : Digits a) (hb : Digits b) : Fixed ('-' :: (a ++ '.' :: b))

end Cbadc.CsvText.Spec
