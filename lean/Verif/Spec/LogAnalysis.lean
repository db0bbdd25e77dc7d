import Verif.Model.LogAnalysis
import Verif.Spec.Harness
/-! # Vocabulary for the analysis of logs (C113) -/

namespace Verif

section
variable {K : Type} [Field K]

/-- The entry of a column in the row of a generation; zero where there is no such row. -/
def LogTable.entry (t : LogTable K) (g : Nat) (c : LogColumn) : K :=
  match t[g]? with
  | none => 0
  | some row => row c

/-- The runs that have a row for the generation. -/
def reached {α : Type} (log : α → LogTable K) (runs : List α) (g : Nat) : List α := runs.filter (fun n => decide (g < (log n).length))

/-- The mean of a column over some runs. -/
def meanOverRuns {α : Type} (log : α → LogTable K) (runs : List α) (g : Nat) (c : LogColumn) : K :=
  (runs.map (fun n => (log n).entry g c)).sum / (runs.length : K)

/-- A log as a run writes it: the column `generation` holds the number of the generation. -/
def NumberedLog (t : LogTable K) : Prop := ∀ g, g < t.length → t.entry g .generation = (g : K)

end

/-- `os.listdir(p)` gave these names: all that is in the folder, each once. -/
structure Listing {B : Type} (ls : List FName → Except IoErr (List FName)) (disk : Disk B) (p : List FName) (names : List FName) : Prop where
  answer : ls p = .ok names
  once : names.Nodup
  all : ∀ n, n ∈ names ↔ disk (p ++ [n]) ≠ none

/-- A ratio and what `str` writes for it, where no exponent is needed: an integer, or digits, a point and digits. -/
inductive RatioText : ElitismRatio → List Char → Prop
  | int (n : Nat) : RatioText (.int n) (decimal n)
  | float (n : Nat) (frac : List Char) (h : ∀ c ∈ frac, c.isDigit = true) : RatioText (.float (decimal n ++ '.' :: frac) n) (decimal n ++ '.' :: frac)

end Verif
