import Verif.Spec.Physics
/-! # Vocabulary for energy in whole systems -/

namespace Verif
open Graph

variable {n : Nat}

/-- The energy a component passes on when it delivers `y`; a power meter delivers powers, not fields. -/
noncomputable def Optic.delivered (o : Optic n) (y : Signal n) : ℝ :=
  match o with
  | .measure => ∑ i, ‖y i‖
  | _ => energy y

/-- The energy a source emits. -/
noncomputable def Optic.emitted (o : Optic n) : ℝ :=
  match o with
  | .source x => energy x
  | _ => 0

/-- The component never multiplies the energy of its input by more than `k`. -/
def Optic.GainAtMost (P : Prop_ n) (o : Optic n) (k : ℝ) : Prop := ∀ x y, o.apply P x = .ok y → o.delivered y ≤ k * energy x

/-- The energy leaving edge `e`, read from the stored states. -/
noncomputable def edgeEnergy (optic : Comp → Optic n) (st : Store (Signal n)) (e : Edge) : ℝ :=
  match st (.edge e.ref) with
  | some y => (optic e.comp).delivered y
  | none => 0

/-- Total energy arriving at the nodes without outputs. -/
noncomputable def energyOut (g : Graph) (optic : Comp → Optic n) (st : Store (Signal n)) : ℝ :=
  ((g.edges.filter (fun e => g.outEdges e.dst = [])).map (edgeEnergy optic st)).sum

/-- Total energy emitted by the components at the nodes without inputs. -/
noncomputable def energyIn (g : Graph) (optic : Comp → Optic n) : ℝ :=
  ((g.edges.filter (fun e => g.inEdges e.src = [])).map (fun e => (optic e.comp).emitted)).sum

/-- How a system is laid out: light enters through sources, inner nodes are splitters, power meters stand in front of the outputs. -/
structure Network (g : Graph) (optic : Comp → Optic n) (conn : Comp → Connector) : Prop where
  entry : ∀ e ∈ g.edges, g.inEdges e.src = [] → ∃ x, optic e.comp = .source x
  inner : ∀ m ∈ g.nodes, g.inEdges m.id ≠ [] → g.outEdges m.id ≠ [] → (∃ a, conn m.comp = .splitter a) ∨ ∃ a, conn m.comp = .freqSplitter a
  meters : ∀ e ∈ g.edges, optic e.comp = .measure → g.outEdges e.dst = []

/-- Prices `W` at which energy at a node can be bought, such that no inner node makes a profit: `k e` bounds the gain of edge `e`. -/
structure Prices (P : Prop_ n) (g : Graph) (optic : Comp → Optic n) (conn : Comp → Connector) (k : Edge → ℝ) (W : NodeId → ℝ) : Prop where
  nonneg : ∀ v, 0 ≤ W v
  gain : ∀ e ∈ g.edges, g.inEdges e.src ≠ [] → 0 ≤ k e ∧ (optic e.comp).GainAtMost P (k e)
  split : ∀ m ∈ g.nodes, g.inEdges m.id ≠ [] → ∀ a, conn m.comp = .splitter a → ∀ e ∈ g.outEdges m.id,
    (g.inEdges m.id).length * (k e * W e.dst) ≤ (g.outEdges m.id).length * W m.id
  bands : ∀ m ∈ g.nodes, g.inEdges m.id ≠ [] → ∀ a, conn m.comp = .freqSplitter a →
    (g.inEdges m.id).length * ((g.outEdges m.id).map (fun e => k e * W e.dst)).sum ≤ W m.id

/-- By how much node `v` can raise the energy: the number of inputs over the number of outputs, if that is more than one. -/
noncomputable def fanIn (g : Graph) (v : NodeId) : ℝ :=
  if g.inEdges v = [] ∨ g.outEdges v = [] then 1 else max 1 (((g.inEdges v).length : ℝ) / (g.outEdges v).length)

end Verif
