import Verif.Model.HofFigure
import Verif.Spec.Evaluate
import Verif.Spec.Layout
/-! # Vocabulary for the figure of the hall of fame (C115) -/

namespace Verif
open Graph

variable {n : Nat}

/-- A node stands in the column of the longest path from the source to it, at a height between 0 and 4 from the random number. -/
def StandsAt (g : Graph) (u : NodeId → ℝ) (v : NodeId) (p : ℝ × ℝ) : Prop :=
  ∃ s r, g.IsSource s ∧ g.IsLongest s v r ∧ p = ((r : ℝ), 4 * u v)

/-- The drawing shows the design: every node by the class of its component, every edge as an arrow from its start to its end, labelled with the class of its component. -/
structure DrawnDesign.Depicts (d : DrawnDesign) (g : Graph) (u : NodeId → ℝ) : Prop where
  nodes : List.Forall₂ (fun v x => StandsAt g u v.id x.1 ∧ x.2 = v.comp.cls) g.nodes d.nodes
  arrows : List.Forall₂ (fun e a => StandsAt g u e.src a.start ∧ StandsAt g u e.dst a.stop ∧ a.start.1 < a.stop.1 ∧ a.label = e.comp.cls ∧ a.rad = 2 / 5 * (e.key : ℝ) ∧
    a.labelAt = ((a.start.1 + a.stop.1) / 2 + 7 / 25 * (e.key : ℝ) * (a.stop.2 - a.start.2), (a.start.2 + a.stop.2) / 2 - 7 / 25 * (e.key : ℝ) * (a.stop.1 - a.start.1))) g.edges d.arrows

/-- A design that can be shown: without cycles, with one source, and simulated to the end. -/
structure Showable (B : Sim n) (inp : Signal n) (params : ModelId → List ℝ) (flag : Bool) (sink : NodeId) (fuel : Nat) (x : HofItem n) : Prop where
  wf : x.g.WF
  acyclic : x.g.Acyclic
  single : ∀ u v, x.g.IsSource u → x.g.IsSource v → u = v
  rounds : x.g.nodes.length ≤ fuel
  nonempty : x.g.nodes ≠ []
  delivers : ∃ s, Delivers x.g B inp flag params (.node sink) s

end Verif
