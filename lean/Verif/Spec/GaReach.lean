import Mathlib.Data.List.Basic
/-!
# Which values the parameter genetic algorithm can try
-/

namespace Verif

/-- `v` is the value of parameter `i` at the start or in one of the first `N` random vectors. -/
def DrawnValue {K : Type} (gen : Nat → List K) (x0 : List K) (N i : Nat) (v : K) : Prop :=
  x0[i]? = some v ∨ ∃ k < N, (gen k)[i]? = some v

end Verif
