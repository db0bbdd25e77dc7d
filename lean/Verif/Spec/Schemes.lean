import Verif.Model.Topology
import Verif.Model.Distance
/-!
# Vocabulary for schemes of species (C87)
-/

namespace Verif
variable {C K T : Type}

/-- Evolving a graph, writing parameters into it and optimising it keep its mark.  In the code `speciation_descriptor` is assigned in three places
only: when a graph is created (`lib/graph.py:52`), and by the setups (`algorithms/topology_optimization.py:443,456,474,485`). -/
structure Keeps (tag : C → T) (cfg : TopCfg C K) : Prop where
  ev : ∀ n c c', cfg.ev n c = .ok c' → tag c' = tag c
  opt : ∀ n c s c', cfg.opt n c = .ok (s, c') → tag c' = tag c
  over : ∀ p c, tag (cfg.over p c) = tag c

/-- The descriptor belongs to scheme `s` with `target` subpopulations. -/
def BelongsTo (s : SpecName) (target : Nat) (t : Option Descriptor) : Prop :=
  ∃ d, t = some d ∧ d.name = s ∧ if s = .simpleSubpopulation then ∃ l < target, d.label = some l else d.label = none

end Verif
