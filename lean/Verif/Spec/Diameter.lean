import Verif.Spec.Distance
/-! # Vocabulary for members of a species (C107) -/

namespace Verif

/-- Every component is of a registered class, there are nodes, and the descriptor is the right one. -/
structure Countable (classes : List ClassId) (a : Tagged) : Prop where
  scheme : HasScheme .vectorDiff a
  nodes : ∀ n ∈ a.graph.nodes, n.comp.cls ∈ classes
  edges : ∀ e ∈ a.graph.edges, e.comp.cls ∈ classes
  some : a.graph.nodes ≠ []

/-- `√(n₀² + n₁²)` for the numbers of nodes. -/
noncomputable def sizeNorm (a b : Tagged) : ℝ := Real.sqrt ((a.graph.nodes.length : ℝ) ^ 2 + (b.graph.nodes.length : ℝ) ^ 2)

end Verif
