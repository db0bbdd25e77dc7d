import Verif.Model.Copy
import Verif.Spec.Propagate
/-! # Vocabulary for copies of graphs (C70) -/

namespace Verif
open Graph

/-- Start and end of every edge, in iteration order. -/
def Graph.ends (g : Graph) : List (NodeId × NodeId) := g.edges.map (fun e => (e.src, e.dst))

/-- The order in which networkx enumerates edges: by start node, in the order of the nodes; parallel edges next to each other. -/
structure Graph.Listed (g : Graph) : Prop where
  sorted : g.ends.Pairwise (fun a b => g.ids.idxOf a.1 ≤ g.ids.idxOf b.1)
  grouped : ∀ a m, [a, m, a].Sublist g.ends → m = a

/-- Edge keys number parallel edges from 0. -/
def Graph.KeysCounted (g : Graph) : Prop :=
  ∀ A e C, g.edges = A ++ e :: C → e.key = A.countP (fun x => x.src = e.src ∧ x.dst = e.dst)

/-- Two components of one kind (class, protection, type and limit), different objects allowed. -/
def SameKind (c d : Comp) : Prop := c.cls = d.cls ∧ c.prot = d.prot ∧ c.ntype = d.ntype ∧ c.maxIn = d.maxIn

/-- `g'` is `g` with other objects and edge keys: same nodes and same edges, in the same order, of the same kinds. -/
structure SameLayout (g g' : Graph) : Prop where
  nodes : List.Forall₂ (fun n n' => n'.id = n.id ∧ SameKind n.comp n'.comp) g.nodes g'.nodes
  edges : List.Forall₂ (fun e e' => e'.src = e.src ∧ e'.dst = e.dst ∧ SameKind e.comp e'.comp) g.edges g'.edges

/-- Two stores hold the same states: at every node, and on every edge of `g` and the edge of `g'` in its place. -/
structure SameStates {S : Type} (g g' : Graph) (st st' : Store S) : Prop where
  nodes : ∀ v, st' (.node v) = st (.node v)
  edges : List.Forall₂ (fun e e' => st' (.edge e'.ref) = st (.edge e.ref)) g.edges g'.edges

end Verif
