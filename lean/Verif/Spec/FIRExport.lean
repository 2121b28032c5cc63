import Mathlib.Algebra.Field.Rat
import Mathlib.Algebra.Order.Ring.Rat
import Mathlib.Analysis.SpecialFunctions.Trigonometric.Basic
import Mathlib.Data.Matrix.Mul

/-!
# Specification of the exported text

How a reader of the target language understands the files: the text is split into lines and words, an array
literal is a nested list of numbers in brackets separated by single commas, numbers are decimal.  Nothing
here refers to how the text was produced.
-/

namespace Cbadc.Spec.Export

/-- Split a text at every occurrence of a character. -/
def split (sep : Char) : List Char → List (List Char)
  | [] => [[]]
  | c :: t =>
    if c = sep then [] :: split sep t
    else
      match split sep t with
      | [] => [[c]]
      | w :: ws => (c :: w) :: ws

/-- The value of a non-empty string of decimal digits. -/
def readNat (t : List Char) : Option ℕ :=
  if t ≠ [] ∧ t.all Char.isDigit then some (Nat.ofDigitChars 10 t 0) else none

/-- The value of a decimal integer with an optional minus sign. -/
def readInt : List Char → Option ℤ
  | '-' :: t => (readNat t).map fun (n : ℕ) => -(n : ℤ)
  | t => (readNat t).map fun (n : ℕ) => (n : ℤ)

/-- The value of a signed exponent. -/
def readExp : List Char → Option ℤ
  | '-' :: t => (readNat t).map fun (n : ℕ) => -(n : ℤ)
  | '+' :: t => (readNat t).map fun (n : ℕ) => (n : ℤ)
  | _ => none

/-- The value of a number `digits.digits e exponent`. -/
def readAbs (ech : Char) (t : List Char) : Option ℚ :=
  match split ech t with
  | [mant, ex] =>
    match split '.' mant with
    | [i, f] =>
      match readNat i, readNat f, readExp ex with
      | some i', some f', some e => some (((i' : ℚ) + f' / 10 ^ f.length) * 10 ^ e)
      | _, _, _ => none
    | _ => none
  | _ => none

/-- The value of a number in scientific notation with an optional minus sign. -/
def readSci (ech : Char) : List Char → Option ℚ
  | '-' :: t => (readAbs ech t).map fun x => -x
  | t => readAbs ech t

/-- An array literal: a number (its text) or a list of literals. -/
inductive Lit
  | num (t : List Char)
  | arr (items : List Lit)

/-- Position of the reader inside an array literal: `want` expects a value, `tok` is inside a number (its
characters so far, last one first), `after` comes after a closing bracket, `done` after the outermost one,
`fin` after the final semicolon.  The stack holds the items read so far of each open bracket, last first. -/
inductive Pos
  | want (stack : List (List Lit))
  | tok (cs : List Char) (stack : List (List Lit))
  | after (stack : List (List Lit))
  | done (v : Lit)
  | fin (v : Lit)
  | bad

/-- Close the innermost open bracket. -/
def close : List (List Lit) → Pos
  | [] => .bad
  | [f] => .done (.arr f.reverse)
  | f :: g :: st => .after ((.arr f.reverse :: g) :: st)

/-- Add a value to the innermost open bracket. -/
def push (v : Lit) : List (List Lit) → List (List Lit)
  | [] => []
  | f :: st => (v :: f) :: st

/-- Read one character of an array literal with the brackets `o` and `c`. -/
def step (o c : Char) : Pos → Char → Pos
  | .want st, ch =>
    if ch = o then .want ([] :: st)
    else if ch = c ∨ ch = ',' ∨ ch = ';' ∨ st = [] then .bad
    else .tok [ch] st
  | .tok cs st, ch =>
    if ch = ',' then .want (push (.num cs.reverse) st)
    else if ch = c then close (push (.num cs.reverse) st)
    else if ch = o ∨ ch = ';' then .bad
    else .tok (ch :: cs) st
  | .after st, ch =>
    if ch = ',' then .want st else if ch = c then close st else .bad
  | .done v, ch => if ch = ';' then .fin v else .bad
  | .fin _, _ => .bad
  | .bad, _ => .bad

/-- The array literal a text ending with a semicolon stands for. -/
def literal (o c : Char) (t : List Char) : Option Lit :=
  match t.foldl (step o c) (.want []) with
  | .fin v => some v
  | _ => none

/-- All results, or nothing if one is missing. -/
def allOf {α β : Type} (f : α → Option β) : List α → Option (List β)
  | [] => some []
  | a :: as =>
    match f a, allOf f as with
    | some b, some bs => some (b :: bs)
    | _, _ => none

/-- A number literal read by `rd`. -/
def number {α : Type} (rd : List Char → Option α) : Lit → Option α
  | .num t => rd t
  | .arr _ => none

/-- A literal that is a list of things read by `rd`. -/
def listOf {α : Type} (rd : Lit → Option α) : Lit → Option (List α)
  | .num _ => none
  | .arr items => allOf rd items

/-- A three-dimensional array of numbers. -/
def cube {α : Type} (rd : List Char → Option α) (v : Lit) : Option (List (List (List α))) :=
  listOf (listOf (listOf (number rd))) v

/-- What one line of a C header says. -/
inductive CLine (α : Type)
  | blank
  | define (name : String) (value : ℤ)
  | array (type name : String) (value : List (List (List α)))
deriving DecidableEq

/-- Read one line of a C header: blank or comment, `#define name value` or `type name = literal;`. -/
def readCLine {α : Type} (rd : List Char → Option α) (t : List Char) : Option (CLine α) :=
  if t = [] ∨ t.take 2 = ['/', '/'] then some .blank
  else
    match split ' ' t with
    | [d, x, v] =>
      if d = "#define".toList then (readInt v).map fun n => .define (String.ofList x) n else none
    | [ty, nm, eq, v] =>
      if eq = ['='] then
        ((literal '{' '}' v).bind (cube rd)).map fun a => .array (String.ofList ty) (String.ofList nm) a
      else none
    | _ => none

/-- Read a C header line by line. -/
def readC {α : Type} (rd : List Char → Option α) (t : List Char) : Option (List (CLine α)) :=
  allOf (readCLine rd) (split '\n' t)

/-- What one line of a Rust module says. -/
inductive RustLine (α : Type)
  | blank
  | letUsize (name : String) (value : ℤ)
  | letArray (name : String) (value : List (List (List α)))
deriving DecidableEq

/-- Read one line of a Rust module: blank or comment, `let name: usize = value;` or
`let mut name = literal;`. -/
def readRustLine {α : Type} (rd : List Char → Option α) (t : List Char) : Option (RustLine α) :=
  if t = [] ∨ t.take 2 = ['/', '/'] then some .blank
  else
    match split ' ' t with
    | [lt, a, b, eq, v] =>
      if lt = "let".toList ∧ eq = ['='] then
        if b = "usize".toList then
          match split ':' a, split ';' v with
          | [x, []], [n, []] => (readInt n).map fun n => .letUsize (String.ofList x) n
          | _, _ => none
        else if a = "mut".toList then
          ((literal '[' ']' v).bind (cube rd)).map fun w => .letArray (String.ofList b) w
        else none
      else none
    | _ => none

/-- Read a Rust module line by line. -/
def readRust {α : Type} (rd : List Char → Option α) (t : List Char) : Option (List (RustLine α)) :=
  allOf (readRustLine rd) (split '\n' t)

/-- The array `a[l][m][k]` with the entries `h l k m` of a filter. -/
def nested {α : Type} (L M K3 : ℕ) (h : ℕ → ℕ → ℕ → α) : List (List (List α)) :=
  (List.range L).map fun l => (List.range M).map fun m => (List.range K3).map fun k => h l k m

/-- A binary floating-point number with a 53 bit significand (of any exponent). -/
def Double (x : ℚ) : Prop := ∃ m q : ℤ, |m| < 2 ^ 53 ∧ x = m * 2 ^ q

/-- Among all floating-point numbers `x` is the one nearest to `d`, all others being further away. -/
def NearestDouble (d x : ℚ) : Prop := Double x ∧ ∀ y, Double y → y ≠ x → |d - x| < |d - y|

/-- A 32 bit integer. -/
def FitsInt32 (n : ℤ) : Prop := -2 ^ 31 ≤ n ∧ n < 2 ^ 31

/-- The frequency response at `w` radians per sample of a filter with impulse response `g` of `n` taps. -/
noncomputable def response {L M : ℕ} (n : ℕ) (g : ℕ → Matrix (Fin L) (Fin M) ℝ) (l : Fin L) (m : Fin M)
    (w : ℝ) : ℂ :=
  ∑ k ∈ Finset.range n, (g k l m : ℂ) * Complex.exp (-(Complex.I * w * k))

/-- The number of non-zero taps of a filter with `n` taps for every input and control. -/
def nonZeroTaps {K : Type*} [Zero K] [DecidableEq K] {L M : ℕ} (n : ℕ) (h : ℕ → Matrix (Fin L) (Fin M) K) :
    ℕ :=
  ((Finset.univ : Finset (Fin L × Fin n × Fin M)).filter fun p => h p.2.1 p.1 p.2.2 ≠ 0).card

end Cbadc.Spec.Export
