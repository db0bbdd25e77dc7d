import Verif.Model.Optimize
/-!
# Model of repeated parameter optimisation (`scripts/run_discrete_time_lens.py:99-142`)

The loop makes the graph anew from the same component objects (line 100), builds its function (line 101) and optimises its parameters
(lines 103-104).  `Graph.init_graph` puts splitters to their default parameters; the nodes of the script have one output and no
parameters, so nothing is put back.  Plots and files are left out.
-/

namespace Verif
open Graph

/-- The loop (lines 99-104): what each repeat returns, and the parameters after the last.  `es` are the optimisers and the random numbers, one entry for each repeat; `x0` is never
given, so each repeat starts with what it finds in the components. -/
def repeats (g : Graph) (eval : Heap → ℚ) (method : OptMethod) : List OptEnv → Heap → Except Err (List (List ℚ × ℚ) × Heap)
  | [], h => .ok ([], h)
  | e :: es, h =>
    match parametersOptimize e g h eval none method h with
    | .error err => .error err
    | .ok (h1, x, s) =>
      match repeats g eval method es h1 with
      | .error err => .error err
      | .ok (rs, h2) => .ok ((x, s) :: rs, h2)

end Verif
