import Verif.Model.Propagate
import Verif.Spec.Graph
/-! # The data-flow equations a propagated system has to satisfy -/

namespace Verif
open Graph

variable {S : Type}

/-- `ins` are the states entering node `v`: the launched state at a node without inputs, otherwise the states of
its in-edges, in edge order. -/
def Inputs (g : Graph) (inp : S) (st : Store S) (v : NodeId) (ins : List S) : Prop :=
  (g.inEdges v = [] ∧ ins = [inp]) ∨
  (g.inEdges v ≠ [] ∧ (g.inEdges v).map (fun e => st (.edge e.ref)) = ins.map some)

/-- `outs` are the states leaving node `n`. -/
def Outputs (g : Graph) (B : Behav S) (inp : S) (st : Store S) (n : Node) (outs : List S) : Prop :=
  ∃ ins, Inputs g inp st n.id ins ∧
    B.node n.comp ins (g.inEdges n.id).length (g.outEdges n.id).length = .ok outs

/-- Edge `e`, on output port `i` of its start node, carries what the edge makes of the state of that port. -/
def EdgeEq (g : Graph) (B : Behav S) (inp : S) (st : Store S) (e : Edge) : Prop :=
  ∃ n ∈ g.nodes, n.id = e.src ∧ ∃ outs, ∃ i : Nat, ∃ s s1 s2, Outputs g B inp st n outs ∧ (g.outEdges e.src)[i]? = some e ∧
    outs[i]? = some s ∧ B.edge e.comp s = .ok s1 ∧
    (B.noise e.comp = none ∧ s2 = s1 ∨ ∃ f, B.noise e.comp = some f ∧ f s1 = .ok s2) ∧
    st (.edge e.ref) = some s2

/-- A node without outputs stores its first output state. -/
def SinkEq (g : Graph) (B : Behav S) (inp : S) (st : Store S) (n : Node) : Prop :=
  ∃ outs s, Outputs g B inp st n outs ∧ outs[0]? = some s ∧ st (.node n.id) = some s

/-- The store solves the data-flow equations and holds nothing else. -/
structure IsFlow (g : Graph) (B : Behav S) (inp : S) (st : Store S) : Prop where
  edges : ∀ e ∈ g.edges, EdgeEq g B inp st e
  sinks : ∀ n ∈ g.nodes, g.IsSink n.id → SinkEq g B inp st n
  only : ∀ k, st k ≠ none → (∃ e ∈ g.edges, k = .edge e.ref) ∨ (∃ n ∈ g.nodes, g.IsSink n.id ∧ k = .node n.id)

/-- Components that do not raise and deliver at least one state per output (one for an output node). -/
structure Enough (g : Graph) (B : Behav S) : Prop where
  node : ∀ n ∈ g.nodes, ∀ ins : List S, ins.length = max 1 (g.inEdges n.id).length →
    ∃ outs, B.node n.comp ins (g.inEdges n.id).length (g.outEdges n.id).length = .ok outs ∧
      max 1 (g.outEdges n.id).length ≤ outs.length
  edge : ∀ e ∈ g.edges, ∀ s, ∃ s', B.edge e.comp s = .ok s'
  noise : ∀ e ∈ g.edges, ∀ f, B.noise e.comp = some f → ∀ s, ∃ s', f s = .ok s'

end Verif
