import Verif.Spec.Evolution
/-! # What it means to undo a change, to take a design down, and to build a chain -/

namespace Verif
open Graph

/-- Ends, component and name of an edge: everything but its key. -/
def Edge.shape (e : Edge) : NodeId × NodeId × Comp × ClassId := (e.src, e.dst, e.comp, e.name)

/-- `g'` is `g` with nodes renamed by `f`, up to the order of nodes and edges and the keys of edges. -/
structure Relabelled (f : NodeId → NodeId) (g g' : Graph) : Prop where
  inj : ∀ a ∈ g.ids, ∀ b ∈ g.ids, f a = f b → a = b
  nodes : g'.nodes.Perm (g.nodes.map fun n => ⟨f n.id, n.comp, n.name⟩)
  edges : (g'.edges.map Edge.shape).Perm (g.edges.map fun e => (f e.src, f e.dst, e.comp, e.name))

/-- Every step of the history is a removal. -/
def OnlyRemoves (rs : List (Graph × StepRec)) : Prop := ∀ p ∈ rs, p.2.op = .remove

/-- Every step of the history is an insertion in series. -/
def OnlyInserts (rs : List (Graph × StepRec)) : Prop := ∀ p ∈ rs, p.2.op = .addSeries

/-- `ns` is the only source and `nt` the only sink, one component `cl` (with its name) hangs on the source and one
component `cd` on the sink, and they are not the same edge. -/
structure TwoEnded (g : Graph) (ns nt : Node) (cl cd : Comp × ClassId) : Prop where
  src_in : ns ∈ g.nodes
  snk_in : nt ∈ g.nodes
  src : ∀ v, g.IsSource v ↔ v = ns.id
  snk : ∀ v, g.IsSink v ↔ v = nt.id
  laser : (g.edges.filter (fun e => e.src = ns.id)).map (fun e => (e.comp, e.name)) = [cl]
  detector : (g.edges.filter (fun e => e.dst = nt.id)).map (fun e => (e.comp, e.name)) = [cd]
  apart : ∀ e ∈ g.edges, ¬ (e.src = ns.id ∧ e.dst = nt.id)

/-- Nothing between the two ends is protected. -/
structure InnerFree (g : Graph) (ns nt : Node) : Prop where
  node : ∀ n ∈ g.nodes, n.id ≠ ns.id → n.id ≠ nt.id → n.comp.prot = false
  edge : ∀ e ∈ g.edges, e.src ≠ ns.id → e.dst ≠ nt.id → e.comp.prot = false

/-- The smallest design with these ends: source, laser, one connector `m`, detector, sink. -/
def Bare (g : Graph) (ns m nt : Node) (cl cd : Comp × ClassId) : Prop :=
  g.nodes.Perm [ns, m, nt] ∧
    (g.edges.map Edge.shape).Perm [(ns.id, m.id, cl.1, cl.2), (m.id, nt.id, cd.1, cd.2)]

/-- The edges of a chain that leaves `a`, passes for each entry an edge component and then a connector, and ends at `t`
with the edge component `last`. -/
def chainShapes (t : NodeId) (last : Comp × ClassId) : NodeId → List (Comp × Node) →
    List (NodeId × NodeId × Comp × ClassId)
  | a, [] => [(a, t, last.1, last.2)]
  | a, (ec, n) :: rest => (a, n.id, ec, ec.cls) :: chainShapes t last n.id rest

/-- What the library can deliver for a chain: components of edge classes and connectors of node classes, under names
the code gives to new ones, on labels that are new and different. -/
structure ChainFrom (lib : Library) (g : Graph) (l : List (Comp × Node)) : Prop where
  edge : ∀ p ∈ l, p.1.cls ∈ lib.edge
  node : ∀ p ∈ l, p.2.comp.cls ∈ lib.node ∧ p.2.name = p.2.comp.cls
  fresh : ∀ p ∈ l, p.2.id ∉ g.ids
  differ : (l.map (fun p => p.2.id)).Nodup

end Verif
