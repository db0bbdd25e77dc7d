import Verif.Model.Plots
/-!
# Vocabulary for plots (C90)
-/

namespace Verif

/-- The factor an SI prefix stands for. -/
noncomputable def siFactor (s : String) : ℝ :=
  if s = "E" then 10 ^ 18 else if s = "P" then 10 ^ 15 else if s = "T" then 10 ^ 12 else if s = "G" then 10 ^ 9 else if s = "M" then 10 ^ 6
  else if s = "k" then 10 ^ 3 else if s = "" then 1 else if s = "m" then 1 / 10 ^ 3 else if s = "$\\mu$" then 1 / 10 ^ 6 else if s = "n" then 1 / 10 ^ 9
  else if s = "p" then 1 / 10 ^ 12 else if s = "f" then 1 / 10 ^ 15 else if s = "a" then 1 / 10 ^ 18 else if s = "z" then 1 / 10 ^ 21 else 0

/-- `m` is the largest absolute value in the data. -/
def LargestAbs (data : List ℝ) (m : ℝ) : Prop := (∃ a ∈ data, |a| = m) ∧ ∀ a ∈ data, |a| ≤ m

end Verif
