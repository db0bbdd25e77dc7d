import Verif.Spec.Evolver
/-! # How likely an evolution history is

The chances are those of the choices `sample_matrix` makes (location and operator).  Which classes and parameter values the new components get are
separate random draws (`StepRec.draw`), taken as given here. -/

namespace Verif
open Graph

/-- How many mutations the evolver chooses among on `g`: over the operators, the locations offered for the order networkx's sort puts `g` in. -/
def mutations (lib : Library) (ops : List Op) (g : Graph) : Nat :=
  match g.topoSort with
  | .ok order => legalCount lib ops g order
  | .error _ => 0

/-- The evolver offers step `r` on `g`. -/
def OfferedMove (lib : Library) (ops : List Op) (g : Graph) (r : StepRec) : Prop :=
  r.op ∈ ops ∧ ∃ order, g.topoSort = .ok order ∧ r.loc ∈ locs lib g order r.op

/-- Successive calls of `evolve_graph` starting from `x0`, the steps taken (most recent first, each with the graph before it), the product of the
probabilities with which the evolver's matrix had its choices drawn, and the individual reached. -/
inductive ChanceRun (lib : Library) (matrix : Graph → Except Err PMat) (x0 : Ind) : List (Graph × StepRec) → ℚ → Ind → Prop
  | start : ChanceRun lib matrix x0 [] 1 x0
  | step {rs q x M k r uuid y} : ChanceRun lib matrix x0 rs q x → matrix x.graph = .ok M → M.CanDraw k → M.sample k = .ok (r.loc, r.op) →
      drawOk lib x.graph r.op r.loc r.draw → evolveGraph lib matrix x k r.draw uuid = .ok (y, r.op) →
      ChanceRun lib matrix x0 ((x.graph, r) :: rs) (q * M.flat k) y

end Verif
