import Verif.Model.RandomGraph
import Verif.Model.Optimize
import Verif.Model.Topology
/-!
# Model of a run on designs: `topology_optimization` with `evolve_graph` and `parameters_optimize_complete`

`Model/Topology` has the loop, with mutating, checking and optimising as arguments; here they are the modelled functions.  The contents of a graph object is the
graph with its lineage and its component objects.  Propagation and evaluation do not raise and are not random.  Attributes kept on graph objects for looking
at later (`score`, `scaled_hess_matrix`, `time`) are left out.
-/

namespace Verif
open Graph

/-- A design: graph with lineage, and its component objects. Individuals of `algorithms/topology_optimization.py:82`. -/
abbrev Design := Ind × Heap

/-- What a run uses from outside.  Random numbers and optimisers may differ from call to call and from design to design.
`algorithms/topology_optimization.py:23-144`. -/
structure RunWorld where
  S : Settings
  cls : ClassId → Part
  lib : Library
  /-- the evolver's `update_graph_matrix`, by number of the call -/
  matrix : Nat → Graph → Heap → Except Err PMat
  pick : Nat → Design → Pick
  env : Nat → Design → OptEnv
  /-- propagation and evaluation -/
  eval : Graph → Heap → ℚ
  /-- `parameter_opt_method` -/
  method : OptMethod

/-- `evolver.evolve_graph(graph, evaluator, generation)`. `simulator/fiber/evolver.py:44-88`. -/
def designEv (W : RunWorld) (n : Nat) (d : Design) : Except Err Design :=
  match evolveCall W.S W.cls W.lib (W.matrix n) d.1 d.2 (W.pick n d) with
  | (d', .ok _) => .ok d'
  | (_, .error e) => .error e

/-- `graph.assert_number_of_edges()` (`lib/graph.py:477-481`): the graph has no cycle. -/
def designChk (d : Design) : Bool :=
  match d.1.graph.topoSort with
  | .ok _ => true
  | .error _ => false

/-- `len(x0) != 0`, `x0` from `extract_parameters_to_list` (which raises for no design in its life, C75). -/
def designHasParams (d : Design) : Bool :=
  match extractToList d.1.graph d.2 with
  | .ok (ps, _) => ps.length ≠ 0
  | .error _ => false

/-- What line 317 of `topology_optimization.py` does to the child of the round before: `graph.distribute_parameters_from_list` writes the parent's numbers to the
objects and indices it is given, and from the second round on these are the child's (line 324). -/
def designOver (p c : Design) : Design :=
  match extractToList p.1.graph p.2, extractToList c.1.graph c.2 with
  | .ok (ps, _), .ok (_, ms, is, _) =>
    match distribute c.2 ps ms is with
    | .ok h => (c.1, h)
    | .error _ => c
  | _, _ => c

/-- `parameters_optimize_complete` (lines 539-564): update, build the function, optimise, then two more calls at the vector found (`graph.hess`, whose numbers are
kept for viewing, and `graph.func`). -/
def designOpt (W : RunWorld) (n : Nat) (d : Design) : Except Err (ℚ × Design) :=
  match updateDesign W.cls d.1.graph d.2 with
  | .error e => .error e
  | .ok h1 =>
    match extractToList d.1.graph h1 with
    | .error e => .error e
    | .ok (ps, _) =>
      if ps.length = 0 then
        match callF d.1.graph h1 (W.eval d.1.graph) h1 ps with
        | .error e => .error e
        | .ok (h2, v) => .ok (v, (d.1, h2))
      else
        match parametersOptimize (W.env n (d.1, h1)) d.1.graph h1 (W.eval d.1.graph) (some ps) W.method h1 with
        | .error e => .error e
        | .ok (h2, x, s) =>
          match callMany d.1.graph h1 (W.eval d.1.graph) h2 [x, x] with
          | .error e => .error e
          | .ok h3 => .ok (s, (d.1, h3))

/-- The arguments of a run on designs; sizes, rule and speciation as in `base`. `algorithms/topology_optimization.py:23-144`. -/
def RunWorld.cfg (W : RunWorld) (base : TopCfg Design ℚ) : TopCfg Design ℚ :=
  { base with ev := designEv W, chk := designChk, hasParams := designHasParams, over := designOver, opt := designOpt W }

end Verif
