import Verif.Model.WholeRun
/-!
# Model of the Hessian evolver in a run of `topology_optimization`

`topology_optimization` hands `generation / (n_generations - 1)` to `update_population` (line 107), which hands it to every `evolve_graph` of that generation.  `Model/Topology`
numbers the calls of `evolve_graph` and of parameter optimisation consecutively, so the generation of a call is found from its number.
-/

namespace Verif
open Graph

/-- `generation / (ga_opts['n_generations'] - 1)` (`algorithms/topology_optimization.py:107`). -/
def runFraction (nGen k : Nat) : ℚ := k / ((nGen : ℚ) - 1)

/-- The generation to which the call with number `n` belongs (`topology_optimization.py:95-117`), with tournaments or the roulette and without elitism, when the first
generation begins at call `c0`: each generation makes `nPop` calls of `evolve_graph` (lines 369-377, 411-421) and then `nPop` of parameter optimisation.  Calls
that would come after the run are counted to the last generation. -/
def generationOfCall (c0 nPop nGen n : Nat) : Nat := min ((n - c0) / (2 * nPop)) (nGen - 1)

/-- `HessianProbabilityEvolver.update_graph_matrix` (`simulator/fiber/evolver.py:275-290`) in a run: weights for the fraction of the run that has passed, then the matrix, with the scores of
the graph (`get_all_edge_scores`, which may raise) for removals.  `shuffle n` is what `random.shuffle` does in call `n`. -/
def scheduledEvolver (lib : Library) (ops : List Op) (scores : Graph → Heap → Except Err (EdgeRef → Option ℚ)) (shuffle : Nat → List Nat → List Nat) (c0 nPop nGen : Nat) :
    Nat → Graph → Heap → Except Err PMat := fun n g h =>
  match scores g h with
  | .error e => .error e
  | .ok s => weightedMatrix lib ops (hessianScale s (shuffle n)) (genWeight (runFraction nGen (generationOfCall c0 nPop nGen n))) g

end Verif
