import Verif.Spec.Fringe
/-!
# One component of a design, turned
-/

namespace Verif
open Graph

variable {n : Nat}

/-- The components of `optic`, with `o` in place of the component `c`. -/
def setOptic (optic : Comp → Optic n) (c : Comp) (o : Optic n) : Comp → Optic n := fun c' => if c' = c then o else optic c'

/-- The edge `e0` has a component of its own, and what lies downstream of it is linear (no saturating amplifiers, and detectors only at outputs). -/
structure KnobAt (g : Graph) (optic : Comp → Optic n) (e0 : Edge) : Prop where
  mem : e0 ∈ g.edges
  own : ∀ e ∈ g.edges, e.comp = e0.comp → e = e0
  linear : ∀ e ∈ g.edges, g.Reach e0.dst e.src → ¬ (optic e.comp).Saturates ∧ ((optic e.comp).IsDetector → g.outEdges e.dst = [])

/-- The power meter on edge `d` is read at the output node `s`. -/
structure MeterAt (g : Graph) (optic : Comp → Optic n) (conn : Comp → Connector) (d : Edge) (s : Node) : Prop where
  meter : optic d.comp = .measure
  out : s ∈ g.nodes
  into : g.inEdges s.id = [d]
  last : g.outEdges s.id = []
  plain : conn s.comp = .terminal

/-- A parameter that turns the phase of a part of the light. -/
def PhaseKnob (P : Prop_ n) (o : ℝ → Optic n) : Prop := ∀ x, ∃ u v : Signal n, ∀ φ, (o φ).apply P x = .ok (fun t => u t + turn φ * v t)

/-- A parameter that sets, by `γ`, the amplitude of a part of the light. -/
def GainKnob (P : Prop_ n) (γ : ℝ → ℝ) (o : ℝ → Optic n) : Prop := ∀ x, ∃ u v : Signal n, ∀ p, (o p).apply P x = .ok (fun t => u t + (γ p : ℂ) * v t)

end Verif
