import Verif.Model.Topo
import Mathlib.Data.Finset.Lattice.Fold
import Mathlib.Data.Finset.Union
/-!
# Model of `Graph.optical_system_layout` (`lib/graph.py:375-414`)

Python sets are finite sets.  Only the row of a position is modelled; the column is a random number.
-/

namespace Verif
open Graph

/-- Loop variables: `current_row`, `nodes_remaining`, `row_i` and the rows in `pos`. Part of the model of `lib/graph.py:375-414`. -/
structure LayoutState where
  cur : Finset NodeId
  rem : Finset NodeId
  row : Nat
  pos : NodeId → Option Nat

/-- `self.suc(node)` as a set (`lib/graph.py:146-147`, line 394). -/
def sucSet (g : Graph) (v : NodeId) : Finset NodeId := ((g.outEdges v).map (·.dst)).toFinset

/-- `node_j in nx.algorithms.ancestors(self, node_i)` (lines 400-406; networkx 2.5 `ancestors`: every other node with a
path to `i`). -/
def isAncestor (g : Graph) (j i : NodeId) : Bool := decide (j ≠ i) && g.hasPath j i

/-- Body of the `while` loop after the emptiness test (lines 391-413). -/
def layoutStep (g : Graph) (s : LayoutState) : LayoutState :=
  let pos := fun v => if v ∈ s.cur then some s.row else s.pos v
  let next := s.cur.biUnion (sucSet g)
  let toRemove := next.filter (fun i => ∃ j ∈ next, isAncestor g j i = true)
  { cur := next \ toRemove, rem := s.rem \ s.cur, row := s.row + 1, pos := pos }

/-- The `while` loop, at most `fuel` rounds; `none`: still running. Part of the model of `lib/graph.py:375-414`. -/
def layoutLoop (g : Graph) : Nat → LayoutState → Option (NodeId → Option Nat)
  | 0, s => if s.rem.card = 0 then some s.pos else none
  | fuel + 1, s => if s.rem.card = 0 then some s.pos else layoutLoop g fuel (layoutStep g s)

/-- `optical_system_layout` for a given topological order (lines 376-388); `order[0]` raises `IndexError` on the
empty graph. -/
def layout (g : Graph) (order : List NodeId) (fuel : Nat) : Except Err (Option (NodeId → Option Nat)) :=
  match order with
  | [] => .error .indexError
  | s :: _ => .ok (layoutLoop g fuel { cur := {s}, rem := order.toFinset, row := 0, pos := fun _ => none })

end Verif
