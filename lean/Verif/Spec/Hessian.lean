import Verif.Model.Hessian
import Mathlib.Algebra.BigOperators.Group.Finset.Basic
/-! # Vocabulary for sensitivity scores (C43) -/

namespace Verif

section
variable {K : Type} [Field K] [LinearOrder K]

/-- Mean absolute entry of row and column `i` of the Hessian. -/
def rowColMean (H : Hess K) (i : Nat) : K :=
  ((∑ j ∈ Finset.range H.size, |H.entry i j|) + ∑ j ∈ Finset.range H.size, |H.entry j i|) / (2 * (H.size : K))

/-- Mean of `f` over a set of positions. -/
def meanOver (s : Finset Nat) (f : Nat → K) : K := (∑ i ∈ s, f i) / (s.card : K)

/-- Positions at which a list has the value `m`. -/
def positions {A : Type} [DecidableEq A] (l : List A) (m : A) : Finset Nat := (Finset.range l.length).filter (fun i => l[i]? = some m)

end

end Verif
