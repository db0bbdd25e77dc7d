import Verif.Spec.Grow
import Verif.Spec.Tables
/-! # Vocabulary: designs that run at every setting within bounds (C98) -/

namespace Verif
open Graph

variable {n : Nat}

/-- The settings at which a component raises whatever the light: a square filter of bandwidth 0, a programmable filter on a time window of at most about 0.2 ps,
and a wave shaper whose bins (`m` samples each) exceed the grid by an odd number of samples. -/
def Part.Trapped (P : Prop_ n) (S : Settings) (p : Part) (ps : List ℝ) : Prop :=
  (p = .squareFilter ∧ ps = [0]) ∨
  (p = .programmableFilter ∧ 5 * 10 ^ 12 * P.window * ((n : ℝ) - 1) ≤ n) ∨
  (p = .waveShaper ∧ ∃ m : Nat, (m : ℝ) ≤ n * (P.window / (n - 1)) * (12 * 10 ^ 9) ∧ n * (P.window / (n - 1)) * (12 * 10 ^ 9) < m + 1 ∧
    n < S.bins * m ∧ (S.bins * m - n) % 2 = 1)

/-- The number of edges at a node suits its class: a power splitter has at least one on each side, a frequency splitter may have any number, anything else hands
on what it gets and so has as many outputs as inputs at most (the launched light counts as one input, the stored state as one output). -/
def FitsAt (cls : ClassId → Part) (g : Graph) (v : Node) : Prop :=
  match cls v.comp.cls with
  | .splitter => 1 ≤ (g.inEdges v.id).length ∧ 1 ≤ (g.outEdges v.id).length
  | .freqSplitter => True
  | _ => max 1 (g.outEdges v.id).length ≤ max 1 (g.inEdges v.id).length

/-- Terminals at the ends, with at most one edge going out; power or frequency splitters in between. -/
structure WellEnded (cls : ClassId → Part) (g : Graph) : Prop where
  ends : ∀ v ∈ g.nodes, g.IsSource v.id ∨ g.IsSink v.id → cls v.comp.cls ∈ [Part.terminalSource, .terminalSink] ∧ (g.outEdges v.id).length ≤ 1
  inner : ∀ v ∈ g.nodes, ¬ g.IsSource v.id → ¬ g.IsSink v.id → cls v.comp.cls ∈ [Part.splitter, .freqSplitter]

/-- `ps` has a value for every parameter, and those that may be varied are within their bounds. -/
structure Sheet.Within (s : Sheet) (ps : List ℝ) : Prop where
  length : ps.length = s.number
  free : s.nodeLock = false → ∀ (k : Nat) (x : ℝ) (lo up : ℚ), ps[k]? = some x → s.locks[k]? = some false → s.lower[k]? = some (Entry.num lo) → s.upper[k]? = some (Entry.num up) →
    (lo : ℝ) ≤ x ∧ x ≤ (up : ℝ)

/-- `θ` gives every component of the design values within bounds. -/
structure InRange (S : Settings) (cls : ClassId → Part) (g : Graph) (θ : Comp → List ℝ) : Prop where
  edges : ∀ e ∈ g.edges, (sheet S (cls e.comp.cls) 1).Within (θ e.comp)
  nodes : ∀ v ∈ g.nodes, (sheet S (cls v.comp.cls) (g.outEdges v.id).length).Within (θ v.comp)

/-- The values the component objects hold. -/
def held (h : Heap) (c : Comp) : List ℝ := (h c.uid).params.map (fun q : ℚ => (q : ℝ))

end Verif
