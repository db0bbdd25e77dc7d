import Verif.Model.WholeRun
import Verif.Spec.RandomGraph
import Verif.Spec.Optimize
import Verif.Spec.Lineage
/-! # Vocabulary: runs on designs (C103) -/

namespace Verif
open Graph

/-- A design in its life. -/
def Design.Alive (W : RunWorld) (d : Design) : Prop := Lifetime W.S W.cls W.lib d.1.graph d.2

/-- What is assumed of the outside: settings that make sense, a library of the right sorts, matrices with chances for offered mutations only, random numbers that respect
these chances and deliver new objects, optimisers that keep to their bounds. -/
structure RunWorld.Sound (W : RunWorld) : Prop where
  settings : W.S.Sensible
  library : LibraryFits W.cls W.lib
  legal : ∀ n d M order, Design.Alive W d → W.matrix n d.1.graph d.2 = .ok M → d.1.graph.topoSort = .ok order → OnlyLegal W.lib d.1.graph order M
  index : ∀ n d M, Design.Alive W d → W.matrix n d.1.graph d.2 = .ok M → M.CanDraw (W.pick n d).k
  parts : ∀ n d M l o, Design.Alive W d → W.matrix n d.1.graph d.2 = .ok M → M.sample (W.pick n d).k = .ok (l, o) →
    drawOk W.lib d.1.graph o l (W.pick n d).draw ∧ NewObjects d.1.graph (W.pick n d).draw
  sized : ∀ n d ps ms is lo up, Design.Alive W d → extractToList d.1.graph d.2 = .ok (ps, ms, is, lo, up) → (W.env n d).Sized ms.length
  bounded : ∀ n d ps ms is lo up, Design.Alive W d → extractToList d.1.graph d.2 = .ok (ps, ms, is, lo, up) → (W.env n d).Bounded lo up

/-- What the optimisers of this project need in order not to raise: a square root that is not negative, gradients of the right length, two individuals for
the genetic algorithm. -/
structure OptEnv.Working (e : OptEnv) : Prop where
  sqrt : ∀ y, 0 ≤ y → 0 ≤ e.sqrt y
  grad : ∀ i y, (e.grad i y).length = y.length
  pop : 2 ≤ e.popSize

/-- A variable parameter of the design is above its upper bound, going by what `extract_parameters_to_list` reports. -/
def Design.Exceeds (d : Design) : Prop :=
  ∃ ps ms is lo up, extractToList d.1.graph d.2 = .ok (ps, ms, is, lo, up) ∧ ∃ (i : Nat) (x u : ℚ), ps[i]? = some x ∧ up[i]? = some u ∧ u < x

end Verif
