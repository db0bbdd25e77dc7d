import Verif.Model.Tables
import Verif.Spec.Params
import Verif.Spec.Optimize
import Verif.Spec.Evolution
/-! # Vocabulary for component tables and the life of a design (C75) -/

namespace Verif
open Graph

/-- What a class has to tell about a parameter that may be varied: it is a float; lower bound, upper bound and default value are numbers, the default between
the bounds, the bounds different; a step size is positive and divides both bounds; the imprecision is positive. -/
structure GoodEntry (lower upper default : Option Entry) (dtype : Option DType) (step : Option (Option ℚ)) (imp : Option ℚ) : Prop where
  float : dtype = some .float
  bounds : ∃ l u d : ℚ, lower = some (.num l) ∧ upper = some (.num u) ∧ default = some (.num d) ∧ l < u ∧ l ≤ d ∧ d ≤ u ∧
    ∃ s, step = some s ∧ ∀ q, s = some q → 0 < q ∧ (∃ z : ℤ, l = z * q) ∧ (∃ z : ℤ, u = z * q)
  imprecision : ∃ q, imp = some q ∧ 0 < q

/-- A consistent table: all lists have the announced length, no name occurs twice, and what may be varied is good. -/
structure Sheet.Sound (s : Sheet) : Prop where
  defaults : s.defaults.length = s.number
  lower : s.lower.length = s.number
  upper : s.upper.length = s.number
  dtypes : s.dtypes.length = s.number
  steps : s.steps.length = s.number
  imprecisions : s.imprecisions.length = s.number
  locks : s.locks.length = s.number
  names : s.names.length = s.number
  distinct : s.names.Nodup
  free : ∀ i : Nat, s.locks[i]? = some false →
    GoodEntry s.lower[i]? s.upper[i]? s.defaults[i]? s.dtypes[i]? s.steps[i]? s.imprecisions[i]?

/-- Settings that make sense: π at least 1, an extinction ratio below 1, the default modulation frequency of 12 GHz within the limits of the phase modulator, ten
basis functions of the programmable filter. -/
structure Settings.Sensible (S : Settings) : Prop where
  pi : 1 ≤ S.pi
  extinction : S.extinction < 1
  bases : S.bases = 10
  pmMin : S.pmMin ≤ 12 * 10 ^ 9
  pmMax : 12 * 10 ^ 9 ≤ S.pmMax
  pm : S.pmMin < S.pmMax

/-- The classes whose objects may sit at nodes. -/
def Part.IsNode (p : Part) : Prop := p = .terminalSource ∨ p = .terminalSink ∨ p = .splitter ∨ p = .freqSplitter

/-- The splitters. -/
def Part.IsSplitter (p : Part) : Prop := p = .splitter ∨ p = .freqSplitter

/-- The operators draw node components for nodes and others for edges. -/
structure LibraryFits (cls : ClassId → Part) (lib : Library) : Prop where
  node : ∀ c ∈ lib.node, (cls c).IsNode
  edge : ∀ c ∈ lib.edge, ¬ (cls c).IsNode
  source : ∀ c ∈ lib.source, ¬ (cls c).IsNode
  sink : ∀ c ∈ lib.sink, ¬ (cls c).IsNode

/-- Node components at the nodes, other components on the edges, no object in two places. -/
structure Placed (cls : ClassId → Part) (g : Graph) : Prop where
  nodes : ∀ n ∈ g.nodes, (cls n.comp.cls).IsNode
  edges : ∀ e ∈ g.edges, ¬ (cls e.comp.cls).IsNode
  distinct : (componentsOf g).Nodup

/-- The objects drawn are new. -/
structure NewObjects (g : Graph) (d : Draw) : Prop where
  edge : d.ec.uid ∉ componentsOf g
  node : d.nc.uid ∉ componentsOf g
  differ : d.ec.uid ≠ d.nc.uid

/-- The life of a design: assembled from new components; evolved; its variable parameters set to any values within their bounds (by an optimiser or by hand);
sampled; updated again. -/
inductive Lifetime (S : Settings) (cls : ClassId → Part) (lib : Library) : Graph → Heap → Prop
  | start {g : Graph} {h h' : Heap} (hw : g.WF) (ha : g.Acyclic) (hp : Placed cls g)
      (hn : ∀ n ∈ g.nodes, h n.comp.uid = newModel S (cls n.comp.cls)) (he : ∀ e ∈ g.edges, h e.comp.uid = newModel S (cls e.comp.cls))
      (hu : updateDesign cls g h = .ok h') : Lifetime S cls lib g h'
  | evolve {g g' : Graph} {h h' : Heap} {r : StepRec} (hl : Lifetime S cls lib g h) (hs : LegalStep lib g r g') (hd : NewObjects g r.draw)
      (hv : evolveDesign S cls lib g h r.op r.loc r.draw = .ok (g', h')) : Lifetime S cls lib g' h'
  | tune {g : Graph} {h h' : Heap} (hl : Lifetime S cls lib g h) (hs : SameLocked g h h') (hb : WithinOwnBounds g h') : Lifetime S cls lib g h'
  | sample {g : Graph} {h h' : Heap} {r : Nat → Rnd} (hl : Lifetime S cls lib g h) (hr : ∀ j, 0 ≤ (r j).u ∧ (r j).u < 1)
      (hs : sampleParameters g .uniform r h = .ok h') : Lifetime S cls lib g h'
  | update {g : Graph} {h h' : Heap} (hl : Lifetime S cls lib g h) (hu : updateDesign cls g h = .ok h') : Lifetime S cls lib g h'

end Verif
