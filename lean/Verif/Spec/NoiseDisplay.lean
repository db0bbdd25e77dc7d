import Verif.Model.NoiseDisplay
/-!
# Vocabulary for the displays of noise
-/

namespace Verif

/-- `m` is the largest of the values. -/
def IsPeak {n : Nat} (v : Fin n → ℝ) (m : ℝ) : Prop := (∀ i, v i ≤ m) ∧ ∃ i, v i = m

/-- A plotted level says that the ratio is `r`: minus infinity for zero, decibels otherwise. -/
def Plotted.Says : Plotted → ℝ → Prop
  | .num d, r => 0 < r ∧ (10 : ℝ) ^ (d / 10) = r
  | .negInf, r => r = 0
  | .posInf, _ => False
  | .nan, _ => False

end Verif
