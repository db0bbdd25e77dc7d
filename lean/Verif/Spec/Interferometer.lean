import Verif.Model.Physics
import Verif.Spec.Propagate
/-! # Vocabulary for interferometers inside larger systems -/

namespace Verif
open Graph Complex

/-- Light enters node `a` by one edge, runs to node `b` along `arms` and nowhere else, meets nothing else there, and leaves by one edge. -/
structure Interferometer (g : Graph) (a b : Node) (eIn eOut : Edge) (arms : List Edge) : Prop where
  a_mem : a ∈ g.nodes
  b_mem : b ∈ g.nodes
  into : g.inEdges a.id = [eIn]
  split : g.outEdges a.id = arms
  join : g.inEdges b.id = arms
  out : g.outEdges b.id = [eOut]

/-- A change of phase by `θ`. -/
noncomputable def turn (θ : ℝ) : ℂ := exp (θ * I)

/-- The factor on the field of arm `j` of `N`: the square root of its share of the power, times `1/√N`, and a turn by `-2πj/N`. -/
noncomputable def armFactor (r : List ℝ) (N j : Nat) : ℂ := ((Real.sqrt ((splitWeights r).getD j 0) / Real.sqrt N : ℝ) : ℂ) * turn (-(2 * Real.pi * (j / N)))

/-- The field behind `N` arms that turn the phase by `φ`, for a unit field in front. -/
noncomputable def phaseResponse (r : List ℝ) (N : Nat) (φ : Nat → ℝ) : ℂ :=
  ∑ j ∈ Finset.range N, ((Real.sqrt ((splitWeights r).getD j 0) / Real.sqrt N : ℝ) : ℂ) * turn (φ j - 4 * Real.pi * (j / N))

/-- A component that turns the phase of all light by `θ` and does nothing else. -/
def TurnsPhase {n : Nat} (P : Prop_ n) (o : Optic n) (θ : ℝ) : Prop := ∀ x, o.apply P x = .ok (fun t => turn θ * x t)

/-- A component that turns each spectral line by its frequency times `2πτ`: a delay by `τ`. -/
def DelaysBy {n : Nat} (P : Prop_ n) (o : Optic n) (τ : ℝ) : Prop :=
  ∀ x, ∃ y, o.apply P x = .ok y ∧ ∀ k, npFft y k = turn (2 * Real.pi * (ifftShift P.f k + P.central) * τ) * npFft x k

end Verif
