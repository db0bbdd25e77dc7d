import Verif.Model.Scaled
import Mathlib.Analysis.Calculus.ContDiff.Defs
import Mathlib.Algebra.BigOperators.Group.Finset.Basic
/-! # Vocabulary for sensitivities in units of the imprecisions -/

namespace Verif

variable {n : Nat}

/-- Partial derivative in direction `i`. -/
noncomputable def pderiv (i : Fin n) (f : (Fin n → ℝ) → ℝ) (x : Fin n → ℝ) : ℝ := deriv (fun t => f (Function.update x i t)) (x i)

/-- The score as a function of the errors of the parameters, each counted in units of its imprecision `s i`. -/
def inErrors (f : (Fin n → ℝ) → ℝ) (x s : Fin n → ℝ) : (Fin n → ℝ) → ℝ := fun e => f (fun i => x i + s i * e i)

/-- The score as a function of the parameters in other units: parameter `i` is `c i` times its new value. -/
def inUnits (f : (Fin n → ℝ) → ℝ) (c : Fin n → ℝ) : (Fin n → ℝ) → ℝ := fun y => f (fun i => c i * y i)

/-- `v` is an eigenvector for `l`. -/
def EigenPair (H : Hess ℝ) (l : ℝ) (v : List ℝ) : Prop :=
  v.length = H.size ∧ ∀ i, i < H.size → ∑ j ∈ Finset.range H.size, H.entry i j * v.getD j 0 = l * v.getD i 0

/-- `±1`. -/
def sgn (b : Bool) : ℝ := if b then 1 else -1

end Verif
