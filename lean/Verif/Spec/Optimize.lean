import Verif.Model.Optimize
import Verif.Spec.Params
import Verif.Spec.Ga
/-! # Vocabulary for parameter optimisation (C52) -/

namespace Verif
open Graph

/-- Whatever it is answered, the optimiser ends with a vector satisfying `P`. -/
def Strat.Ends (P : List ℚ → Prop) : Strat → Prop
  | .done x _ => P x
  | .ask _ k => ∀ v, (k v).Ends P
  | .askGrad _ k => ∀ d, (k d).Ends P

/-- On an objective `v` of `n` parameters, the optimiser ends with a vector and its true value. -/
def Strat.Honest (n : Nat) (v : List ℚ → ℚ) : Strat → Prop
  | .done x f => f = v x
  | .ask x k => x.length = n ∧ (k (v x)).Honest n v
  | .askGrad _ k => ∀ d, (k d).Honest n v

/-- A vector that respects lists of lower and upper bounds. -/
def Respects (lo up x : List ℚ) : Prop :=
  Fits (fun i y => ∀ l u : ℚ, lo[i]? = some l → up[i]? = some u → l ≤ y ∧ y ≤ u) lo.length x

/-- Every unlocked parameter of the components of `g` is within its bounds. -/
def WithinOwnBounds (g : Graph) (h : Heap) : Prop :=
  ∀ m ∈ getModels g, ∀ i, Unlocked h m i → ∀ l u : ℚ, (h m).lower[i]? = some l → (h m).upper[i]? = some u →
    ∃ y, (h m).params[i]? = some y ∧ l ≤ y ∧ y ≤ u

/-- What is assumed of the optimisers and of random sampling: vectors of the right length. -/
structure OptEnv.Sized (e : OptEnv) (n : Nat) : Prop where
  lbfgs : ∀ k x lo up, (e.lbfgs k x lo up).Ends (·.length = n)
  pso : ∀ k s lo up, (e.pso k s lo up).Ends (·.length = n)
  cma : ∀ x lo up, (e.cma x lo up).Ends (·.length = n)
  gen : ∀ k, (e.gen k).length = n

/-- Further, the vectors keep to the bounds the optimisers are given. -/
structure OptEnv.Bounded (e : OptEnv) (lo up : List ℚ) : Prop where
  lbfgs : ∀ k x, (e.lbfgs k x lo up).Ends (Respects lo up)
  pso : ∀ k s, (e.pso k s lo up).Ends (Respects lo up)
  cma : ∀ x, (e.cma x lo up).Ends (Respects lo up)
  gen : ∀ k, Respects lo up (e.gen k)

end Verif
