import Verif.Model.Distance
/-! # Vocabulary for the species distances (C44) -/

namespace Verif

/-- How many components (on nodes and edges) of the system have class `c`. -/
def classCount (g : Graph) (c : ClassId) : Nat :=
  (g.nodes.map (·.comp.cls) ++ g.edges.map (·.comp.cls)).count c

/-- The descriptor names the given scheme. -/
def HasScheme (s : SpecName) (a : Tagged) : Prop := ∃ d, a.desc = some d ∧ d.name = s

/-- A way of editing one system into another: which nodes and which edges are kept (possibly with another component). -/
structure EditMap where
  nodes : List (Node × Node)
  edges : List (Edge × Edge)

/-- No node or edge is used twice, and a kept edge joins kept nodes. -/
structure EditMap.Valid (m : EditMap) (g h : Graph) : Prop where
  n1 : (m.nodes.map (·.1)).Nodup
  n2 : (m.nodes.map (·.2)).Nodup
  e1 : (m.edges.map (·.1)).Nodup
  e2 : (m.edges.map (·.2)).Nodup
  sn1 : ∀ p ∈ m.nodes, p.1 ∈ g.nodes
  sn2 : ∀ p ∈ m.nodes, p.2 ∈ h.nodes
  se1 : ∀ q ∈ m.edges, q.1 ∈ g.edges
  se2 : ∀ q ∈ m.edges, q.2 ∈ h.edges
  ends : ∀ q ∈ m.edges, (∃ p ∈ m.nodes, p.1.id = q.1.src ∧ p.2.id = q.2.src) ∧ ∃ p ∈ m.nodes, p.1.id = q.1.dst ∧ p.2.id = q.2.dst

/-- Cost of an edit: the given costs for substitutions, 1 for each node or edge deleted or inserted (the networkx defaults). -/
def EditMap.cost (cn : Node → Node → ℚ) (ce : Edge → Edge → ℚ) (m : EditMap) (g h : Graph) : ℚ :=
  (m.nodes.map (fun p => cn p.1 p.2)).sum + ((g.nodes.length : ℚ) - m.nodes.length) + ((h.nodes.length : ℚ) - m.nodes.length) +
  ((m.edges.map (fun q => ce q.1 q.2)).sum + ((g.edges.length : ℚ) - m.edges.length) + ((h.edges.length : ℚ) - m.edges.length))

/-- The documented answer of networkx' `graph_edit_distance` with an upper bound: the least cost of an edit, or `None` if that
exceeds the bound. -/
def IsGed (cn : Node → Node → ℚ) (ce : Edge → Edge → ℚ) (bound : ℚ) (g h : Graph) : Option ℚ → Prop
  | some c => c ≤ bound ∧ (∃ m : EditMap, m.Valid g h ∧ m.cost cn ce g h = c) ∧ ∀ m : EditMap, m.Valid g h → c ≤ m.cost cn ce g h
  | none => ∀ m : EditMap, m.Valid g h → bound < m.cost cn ce g h

/-- The two systems are the same up to names: nodes and edges correspond one to one, with the same component classes, and corresponding edges
join corresponding nodes. -/
def SameDesign (g h : Graph) : Prop :=
  ∃ m : EditMap, (m.nodes.map (·.1)).Perm g.nodes ∧ (m.nodes.map (·.2)).Perm h.nodes ∧
    (m.edges.map (·.1)).Perm g.edges ∧ (m.edges.map (·.2)).Perm h.edges ∧
    (∀ p ∈ m.nodes, p.1.comp.cls = p.2.comp.cls) ∧ (∀ q ∈ m.edges, q.1.comp.cls = q.2.comp.cls) ∧
    ∀ q ∈ m.edges, (∃ p ∈ m.nodes, p.1.id = q.1.src ∧ p.2.id = q.2.src) ∧ ∃ p ∈ m.nodes, p.1.id = q.1.dst ∧ p.2.id = q.2.dst

end Verif
