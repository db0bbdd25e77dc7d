import Verif.Spec.Interferometer
import Verif.Spec.Physics
import Verif.Spec.Propagate
/-!
# Designs with one phase shifter and a power meter
-/

namespace Verif
open Graph

variable {n : Nat}

/-- `s` is the light that the component on edge `e` is given. -/
def Fed {S : Type} (g : Graph) (B : Behav S) (inp : S) (st : Store S) (e : Edge) (s : S) : Prop :=
  ∃ v ∈ g.nodes, v.id = e.src ∧ ∃ outs, ∃ i : Nat, Outputs g B inp st v outs ∧ (g.outEdges e.src)[i]? = some e ∧ outs[i]? = some s

/-- A design with a variable phase at edge `e0` and a power meter on edge `d`, into the output node `s`: the phase is the parameter of that one component, and what lies downstream of it is linear
(no saturating amplifiers, and detectors only at outputs).  Upstream and beside it there may be anything. -/
structure OneShifter (P : Prop_ n) (g : Graph) (optic : ℝ → Comp → Optic n) (conn : Comp → Connector) (e0 d : Edge) (s : Node) : Prop where
  shifter : e0 ∈ g.edges
  turns : ∀ φ, TurnsPhase P (optic φ e0.comp) φ
  fixed : ∀ e ∈ g.edges, e ≠ e0 → ∀ φ, optic φ e.comp = optic 0 e.comp
  linear : ∀ e ∈ g.edges, g.Reach e0.dst e.src → ¬ (optic 0 e.comp).Saturates ∧ ((optic 0 e.comp).IsDetector → g.outEdges e.dst = [])
  meter : optic 0 d.comp = .measure
  apart : d ≠ e0
  out : s ∈ g.nodes
  into : g.inEdges s.id = [d]
  last : g.outEdges s.id = []
  plain : conn s.comp = .terminal

/-- All light on an edge has come through edge `e0`. -/
inductive Behind (g : Graph) (optic : Comp → Optic n) (e0 : Edge) : Edge → Prop
  | self : Behind g optic e0 e0
  | next {e : Edge} (he : e ∈ g.edges) (hs : ∀ x, optic e.comp ≠ .source x) (hin : g.inEdges e.src ≠ []) (hall : ∀ d ∈ g.inEdges e.src, Behind g optic e0 d) :
      Behind g optic e0 e

end Verif
