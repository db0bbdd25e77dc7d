import Mathlib.Analysis.Real.Sqrt
/-!
# The triangular distribution
-/

namespace Verif

/-- The probability that a triangular law with ends `a`, `b` and peak `p` gives to the numbers up to `y`. -/
noncomputable def triangleShare (a p b y : ℝ) : ℝ :=
  if y < a then 0
  else if y ≤ p then (y - a) ^ 2 / ((b - a) * (p - a))
  else if y < b then 1 - (b - y) ^ 2 / ((b - a) * (b - p))
  else 1

end Verif
