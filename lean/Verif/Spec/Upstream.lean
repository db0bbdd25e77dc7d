import Verif.Model.Ops
import Verif.Spec.Propagate
/-! # Vocabulary: systems that agree upstream of some places (C92) -/

namespace Verif
open Graph

variable {S : Type}

/-- The component on edge `e` under `B` does the same as that on `e'` under `B'`. -/
def SameEdge (B B' : Behav S) (e e' : Edge) : Prop := B'.edge e'.comp = B.edge e.comp ∧ B'.noise e'.comp = B.noise e.comp

/-- Two systems agree on the nodes `U`, which contain with a node everything upstream of it: same components there, same inputs, the same number of
outputs, and the outputs that lead to `U` on the same ports with the same components.  Elsewhere they may differ in any way. -/
structure SameUpstream (g g' : Graph) (B B' : Behav S) (U : NodeId → Prop) : Prop where
  closed : ∀ e ∈ g.edges, U e.dst → U e.src
  nodes : ∀ v ∈ g.nodes, U v.id → ∀ v' ∈ g'.nodes, v'.id = v.id → B'.node v'.comp = B.node v.comp
  ins : ∀ u, U u → (g'.inEdges u).map Edge.ref = (g.inEdges u).map Edge.ref
  ports : ∀ u, U u → (g'.outEdges u).length = (g.outEdges u).length
  outs : ∀ (u : NodeId) (i : Nat) e, U u → (g.outEdges u)[i]? = some e → U e.dst →
    ∃ e', (g'.outEdges u)[i]? = some e' ∧ e'.ref = e.ref ∧ SameEdge B B' e e'

end Verif
