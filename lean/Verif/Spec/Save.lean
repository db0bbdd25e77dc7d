import Verif.Model.Save
import Verif.Spec.Graph
/-! # Vocabulary for saving and loading (C41) -/

namespace Verif

section
variable {L P : Type} [DecidableEq L]

/-- A consistent graph, listed the way networkx iterates it: distinct labels, distinct edge handles, no dangling edges; edges
sorted by the position of their source, parallel edges next to each other; no cycle. -/
structure SGraph.OK (g : SGraph L P) : Prop where
  labels : (g.nodes.map (·.label)).Nodup
  refs : (g.edges.map (fun e => (e.src, e.dst, e.key))).Nodup
  src_mem : ∀ e ∈ g.edges, e.src ∈ g.nodes.map (·.label)
  dst_mem : ∀ e ∈ g.edges, e.dst ∈ g.nodes.map (·.label)
  sorted : g.edges.Pairwise (fun e f => g.idx e.src ≤ g.idx f.src)
  grouped : ∀ A B C x y, g.edges = A ++ x :: (B ++ y :: C) → x.src = y.src → x.dst = y.dst → ∀ z ∈ B, z.src = x.src ∧ z.dst = x.dst

/-- There is a directed edge. -/
def SGraph.Adj (g : SGraph L P) (u v : L) : Prop := ∃ e ∈ g.edges, e.src = u ∧ e.dst = v

/-- No directed cycle. -/
def SGraph.Acyclic (g : SGraph L P) : Prop := ∀ v, ¬ Relation.TransGen g.Adj v v

/-- The same system up to renaming of nodes and edge keys: node `i` has class and parameters of node `i`, edge `j` has class and parameters
of edge `j` and joins the images of its end nodes. -/
def SameSystem {L' : Type} (g : SGraph L P) (g' : SGraph L' P) : Prop :=
  ∃ σ : L → L', (∀ a ∈ g.nodes.map (·.label), ∀ b ∈ g.nodes.map (·.label), σ a = σ b → a = b) ∧
    g'.nodes = g.nodes.map (fun n => ⟨σ n.label, n.cls, n.params⟩) ∧
    g'.edges.map (fun e => (e.src, e.dst, e.cls, e.params)) = g.edges.map (fun e => (σ e.src, σ e.dst, e.cls, e.params))

/-- Edge keys count parallel edges from 0. -/
def SGraph.Counted (g : SGraph L P) : Prop :=
  ∀ A x C, g.edges = A ++ x :: C → x.key = (A.filter (fun e => e.src = x.src ∧ e.dst = x.dst)).length

end

/-- A class that the registry finds under its name, which has no dot in it. -/
def Registry.Known {P : Type} (R : Registry P) (c : ClassId) : Prop := R.lookup (R.name c) = some c ∧ '.' ∉ R.name c

end Verif
