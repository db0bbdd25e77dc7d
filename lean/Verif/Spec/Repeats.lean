import Verif.Model.Repeats
import Verif.Spec.Optimize
/-! # Vocabulary for repeated parameter optimisation (C131) -/

namespace Verif

/-- On an objective `v` of `n` parameters, the optimiser ends with a vector satisfying `P`. -/
def Strat.EndsOn (n : Nat) (v : List ℚ → ℚ) (P : List ℚ → Prop) : Strat → Prop
  | .done x _ => P x
  | .ask x k => x.length = n ∧ (k (v x)).EndsOn n v P
  | .askGrad _ k => ∀ d, (k d).EndsOn n v P

/-- The optimiser asks for and ends with vectors of `n` parameters only. -/
def Strat.Keeps (n : Nat) : Strat → Prop
  | .done x _ => x.length = n
  | .ask x k => x.length = n ∧ ∀ v, (k v).Keeps n
  | .askGrad x k => x.length = n ∧ ∀ d, (k d).Keeps n

/-- From a start within the bounds, L-BFGS-B ends with a value not above that of the start, whatever the objective. -/
def OptEnv.Descends (e : OptEnv) (lo up : List ℚ) : Prop :=
  ∀ (v : List ℚ → ℚ) (k : Nat) (x : List ℚ), Respects lo up x → (e.lbfgs k x lo up).EndsOn lo.length v (fun y => v y ≤ v x)

/-- L-BFGS-B and the swarm ask for vectors of the right length. -/
structure OptEnv.Keeps (e : OptEnv) (n : Nat) : Prop where
  lbfgs : ∀ k x lo up, x.length = n → (e.lbfgs k x lo up).Keeps n
  pso : ∀ k s lo up, (e.pso k s lo up).Keeps n

end Verif
