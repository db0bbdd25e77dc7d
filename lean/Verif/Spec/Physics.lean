import Verif.Model.Physics
import Verif.Spec.Propagate
import Verif.Spec.Signal
/-! # Vocabulary for whole optical systems -/

namespace Verif

variable {n : Nat}

/-- Components that turn light into an electrical signal. -/
def Optic.IsDetector : Optic n → Prop
  | .measure => True
  | .photodiode _ => True
  | _ => False

/-- Components driven by a clock of their own. -/
def Optic.IsModulator : Optic n → Prop
  | .phaseMod .. => True
  | .intensityMod .. => True
  | _ => False

/-- Components whose response is not proportional to the input: the saturating amplifier and the saturating detector. -/
def Optic.Saturates : Optic n → Prop
  | .edfa _ => True
  | .photodiode _ => True
  | _ => False

/-- The same component, a source emitting the field changed by `T`. -/
def Optic.mapSource (T : Signal n → Signal n) : Optic n → Optic n
  | .source x => .source (T x)
  | o => o

/-- How systems are laid out: light enters through sources, every node is connected, and what a detector delivers is taken out. -/
structure Plumbed (g : Graph) (optic : Comp → Optic n) (conn : Comp → Connector) : Prop where
  entry : ∀ e ∈ g.edges, (∀ e' ∈ g.edges, e'.dst ≠ e.src) → ∃ x, optic e.comp = .source x
  joined : ∀ v ∈ g.ids, (∃ e ∈ g.edges, e.dst = v) ∨ (∃ e ∈ g.edges, e.src = v)
  exit : ∀ e ∈ g.edges, (optic e.comp).IsDetector → ∀ m ∈ g.nodes, m.id = e.dst → g.IsSink m.id ∧ conn m.comp = .terminal

/-- An output node is read by a detector: its (first) incoming edge carries one. -/
def ReadBy (g : Graph) (optic : Comp → Optic n) (v : NodeId) : Prop :=
  ∃ e, (g.inEdges v).head? = some e ∧ (optic e.comp).IsDetector

end Verif
