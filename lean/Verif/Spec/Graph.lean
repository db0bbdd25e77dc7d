import Verif.Model.Graph
import Mathlib.Logic.Relation
/-!
# Specification vocabulary for graphs

Everything here speaks only about the node and edge lists of a graph.
-/

namespace Verif.Graph

/-- There is an edge from `u` to `v`. -/
def Adj (g : Graph) (u v : NodeId) : Prop := ∃ e ∈ g.edges, e.src = u ∧ e.dst = v

/-- There is a (possibly empty) directed path from `u` to `v`. -/
def Reach (g : Graph) : NodeId → NodeId → Prop := Relation.ReflTransGen g.Adj

/-- No directed path leads from a node back to itself. -/
def Acyclic (g : Graph) : Prop := ∀ v, ¬ Relation.TransGen g.Adj v v

/-- Distinct node ids, distinct edge handles, no dangling edge. -/
structure WF (g : Graph) : Prop where
  ids_nodup : g.ids.Nodup
  refs_nodup : (g.edges.map Edge.ref).Nodup
  src_mem : ∀ e ∈ g.edges, e.src ∈ g.ids
  dst_mem : ∀ e ∈ g.edges, e.dst ∈ g.ids

/-- A node without incoming edges. -/
def IsSource (g : Graph) (v : NodeId) : Prop := v ∈ g.ids ∧ ∀ e ∈ g.edges, e.dst ≠ v

/-- A node without outgoing edges. -/
def IsSink (g : Graph) (v : NodeId) : Prop := v ∈ g.ids ∧ ∀ e ∈ g.edges, e.src ≠ v

/-- `order` lists every node exactly once and every edge points forward in it. -/
structure IsTopo (g : Graph) (order : List NodeId) : Prop where
  nodup : order.Nodup
  mem_iff : ∀ v, v ∈ order ↔ v ∈ g.ids
  forward : ∀ e ∈ g.edges, order.idxOf e.src < order.idxOf e.dst

end Verif.Graph
