import Mathlib.Data.Real.Basic

/-!
# What ngspice records (specification for C160)

A vector is a name and a list of values.  Names are not case sensitive.
-/

namespace Cbadc.NgSpice

/-- Equal up to the case of the letters. -/
def SameName (a b : String) : Prop := a.toList.map Char.toLower = b.toList.map Char.toLower

/-- The file of a run of `K` time points: `wave q i` is the value of the vector `q` at the `i`-th.  Every vector asked
for is there, possibly among others, and every vector of the file is that of its name. -/
structure Recorded (K : ℕ) (time : ℕ → ℝ) (wave : String → ℕ → ℝ) (asked : List String) (ts : List ℝ)
    (vars : List (String × List ℝ)) : Prop where
  times : ts = (List.range K).map time
  here : ∀ q ∈ asked, ∃ e ∈ vars, SameName e.1 q
  waves : ∀ e ∈ vars, e.2 = (List.range K).map (wave e.1)
  names : ∀ a b, SameName a b → wave a = wave b

/-- `rows` is a table of `K` time points: first the time, then one column for every name of `cols`, the voltage of the
node of that name. -/
def IsTable (K : ℕ) (time : ℕ → ℝ) (wave : String → ℕ → ℝ) (cols : List String) (rows : List (List ℝ)) : Prop :=
  rows.length = K ∧ ∀ i < K, ∃ row, rows[i]? = some row ∧ row.length = 1 + cols.length ∧ row[0]? = some (time i) ∧
    ∀ j h, cols[j]? = some h → row[1 + j]? = some (wave ("V(" ++ h ++ ")") i)

end Cbadc.NgSpice
