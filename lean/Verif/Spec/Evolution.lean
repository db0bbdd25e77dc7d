import Verif.Model.Ops
import Verif.Spec.Graph
/-! # What a legal evolution step and an evolution history are -/

namespace Verif
open Graph

/-- One application of an operator at a location with the random values drawn. -/
structure StepRec where
  op : Op
  loc : Loc
  draw : Draw

/-- Operator `r.op`, applied at a location it offers on `g` (for any topological order the library may have
used), with any values the random draws can deliver, turns `g` into `g'` without raising. -/
def LegalStep (lib : Library) (g : Graph) (r : StepRec) (g' : Graph) : Prop :=
  (∃ order, g.IsTopo order ∧ r.loc ∈ locs lib g order r.op) ∧ drawOk lib g r.op r.loc r.draw ∧
    applyOp lib g r.op r.loc r.draw = .ok g'

/-- A finite evolution history from `g0`: the graph before each step and the step (most recent first), ending
in the last graph. -/
inductive History (lib : Library) (g0 : Graph) : List (Graph × StepRec) → Graph → Prop
  | nil : History lib g0 [] g0
  | step {rs g r g'} : History lib g0 rs g → LegalStep lib g r g' → History lib g0 ((g, r) :: rs) g'

/-- The graph with one edge taken out. -/
def Graph.without (g : Graph) (e : Edge) : Graph := { g with edges := g.edges.filter (· ≠ e) }

/-- There is a path between the ends of `e` that does not use `e`. -/
def Graph.Bypassed (g : Graph) (e : Edge) : Prop := (g.without e).Reach e.src e.dst

/-- The step is a removal that has to merge the two ends of the removed edge. -/
def Merges (g : Graph) (r : StepRec) : Prop :=
  r.op = .remove ∧ ∃ i, r.loc = .iface i ∧ ∃ e ∈ g.edges, i.edge = e.ref ∧ ¬ g.Bypassed e

/-- Number of edges carrying component `c`. -/
def edgeCount (g : Graph) (c : Comp) : Nat := g.edges.countP (fun e => e.comp = c)

end Verif
