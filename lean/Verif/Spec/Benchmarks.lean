import Mathlib.Data.Real.Basic
/-! # Vocabulary: minima in the plane (C105) -/

namespace Verif

/-- `p` is where `f` is smallest, and nowhere else is it as small. -/
def OnlyMinimum (f : ℝ × ℝ → ℝ) (p : ℝ × ℝ) : Prop := ∀ q, q ≠ p → f p < f q

/-- The functions whose reference point is meant as the minimum and is. -/
def benchGood : List String :=
  ["booth_function", "matyas_function", "ackley_function", "easom_function", "rastrigin_function", "rosenbrock_function", "beale_function", "goldstein_price_function",
    "levi13_function"]

end Verif
