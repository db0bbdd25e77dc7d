import Verif.Model.Graph
/-!
# Model of networkx 2.5 `topological_sort` (Kahn's algorithm with a stack), as called by
`lib/graph.py:91,300,377`, `evolution_operators.py:113`, `evolver.py:97`.
-/

namespace Verif.Graph

/-- Inner loop over the out-edges of the popped node: decrement the child's in-degree, push it on reaching 0.
Part of the model of `lib/graph.py:91,300,377`, `evolution_operators.py:113`. -/
def kahnRelax : List NodeId → (NodeId → Nat) → List NodeId → (NodeId → Nat) × List NodeId
  | [], deg, st => (deg, st)
  | c :: cs, deg, st =>
    let deg' := fun x => if x = c then deg c - 1 else deg x
    kahnRelax cs deg' (if deg' c = 0 then c :: st else st)

/-- Outer `while zero_indegree` loop; the head of the list is the top of the stack (`pop()`); the first
argument is fuel (each node is popped at most once).
Part of the model of `lib/graph.py:91,300,377`, `evolution_operators.py:113`. -/
def kahnLoop (g : Graph) : Nat → (NodeId → Nat) → List NodeId → List NodeId
  | 0, _, _ => []
  | _ + 1, _, [] => []
  | n + 1, deg, v :: st =>
    let r := kahnRelax (g.succs v) deg st
    v :: kahnLoop g n r.1 r.2

/-- `list(nx.topological_sort(g))`: `NetworkXUnfeasible` when nodes are left over (a cycle).
Part of the model of `lib/graph.py:91,300,377`, `evolution_operators.py:113`. -/
def topoSort (g : Graph) : Except Err (List NodeId) :=
  let out := kahnLoop g g.nodes.length g.inDeg (g.ids.filter (fun v => g.inDeg v = 0)).reverse
  if out.length = g.nodes.length then .ok out else .error .unfeasible

end Verif.Graph
