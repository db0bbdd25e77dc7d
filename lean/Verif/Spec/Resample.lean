import Verif.Model.Resample
/-! # Vocabulary for the renewal of all noise of a graph (C106) -/

namespace Verif

/-- The noise objects `resample_all_noise` comes to, in order: those of nodes, then those of edges if noise on edges counts. -/
def NoisyGraph.held (g : NoisyGraph) : List Nat :=
  g.nodes.filterMap id ++ (if g.onEdges = some true then (g.edges.filterMap id).filterMap id else [])

/-- What an object is asked for: a vector per source, for its propagator. -/
def NoiseObj.asks {P V : Type} (o : NoiseObj P V) : List (NoiseKind × P × Option PropId) := o.srcs.map fun s => (s.kind, s.par, o.prop)

/-- The vectors of an object. -/
def NoiseObj.vecs {P V : Type} (o : NoiseObj P V) : List (Option V) := o.srcs.map (·.vec)

/-- The draws of one random generator, one after the other. -/
def drawStream {P V R S : Type} (N : NoiseRules P V R S) : List (NoiseKind × P × PropId) → R → List V × R
  | [], r => ([], r)
  | (k, q, p) :: l, r => ((N.draw k q p r).1 :: (drawStream N l (N.draw k q p r).2).1, (drawStream N l (N.draw k q p r).2).2)

end Verif
