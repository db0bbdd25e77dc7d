import Mathlib.Data.Real.Basic
import Mathlib.Algebra.BigOperators.Group.List.Basic
import Mathlib.MeasureTheory.Integral.Bochner.Basic
/-!
# Vocabulary for fits and for the mean of noise
-/

namespace Verif

/-- Sum of the squared residuals of a function with one coefficient at given points. -/
def residuals (f : ℝ → ℝ → ℝ) (data : List (ℝ × ℝ)) (c : ℝ) : ℝ := (data.map (fun p => (f p.1 c - p.2) ^ 2)).sum

/-- What users expect of a least squares fit: a value it returns has the smallest sum of squared residuals. -/
def LeastSquares (fit : (ℝ → ℝ → ℝ) → List (ℝ × ℝ) → Except ε ℝ) : Prop :=
  ∀ f data c, fit f data = .ok c → ∀ c', residuals f data c ≤ residuals f data c'

open MeasureTheory in
/-- White noise of variance one: any two of the numbers drawn are uncorrelated, each has mean square one. -/
def WhiteNoise {ι Ω : Type} [MeasurableSpace Ω] [DecidableEq ι] (μ : Measure Ω) (X : Ω → ι → ℝ) : Prop :=
  ∀ i j, Integrable (fun ω => X ω i * X ω j) μ ∧ ∫ ω, X ω i * X ω j ∂μ = if i = j then 1 else 0

end Verif
