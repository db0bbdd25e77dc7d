import Verif.Model.Viewer
import Verif.Spec.Copy
import Verif.Spec.Save
import Verif.Spec.Files
/-! # Vocabulary for the viewer (C78) -/

namespace Verif
open Graph

section
variable {V S O D B : Type}

/-- The viewer shows the design `g` (objects holding `h`) with the states `st`: component by component, in the same order, with the positions of
the nodes as their labels. -/
structure Shows (g : Graph) (h : ModelId → List V) (st : Store S) (o : Opened S V) : Prop where
  labels : o.graph.ids = List.range g.nodes.length
  nodes : List.Forall₂ (fun n n' => n'.comp.cls = n.comp.cls ∧ o.heap n'.comp.uid = h n.comp.uid ∧ o.saves (.node n'.id) = st (.node n.id))
    g.nodes o.graph.nodes
  edges : List.Forall₂ (fun e e' => e'.src = g.ids.idxOf e.src ∧ e'.dst = g.ids.idxOf e.dst ∧ e'.comp.cls = e.comp.cls ∧
      o.heap e'.comp.uid = h e.comp.uid ∧ o.saves (.edge e'.ref) = st (.edge e.ref)) g.edges o.graph.edges

/-- A design which can be saved and loaded (C41): consistent, without feedback, not empty, every class registered, every node with as many
parameters as its class wants. -/
structure Savable (R : Registry (List V)) (g : Graph) (h : ModelId → List V) : Prop where
  wf : g.WF
  acyclic : g.Acyclic
  listed : g.Listed
  nonempty : g.nodes ≠ []
  known : ∀ n ∈ g.nodes, R.Known n.comp.cls
  knownE : ∀ e ∈ g.edges, R.Known e.comp.cls
  count : ∀ n ∈ g.nodes, R.arity n.comp.cls (g.inEdges n.id).length (g.outEdges n.id).length = R.len (h n.comp.uid)

/-- Acronyms from which the class can be read even when a number follows: different classes have different acronyms, and none ends in a digit. -/
def ClearAcronyms (L : ViewLib) (cs : List ClassId) : Prop :=
  (∀ c ∈ cs, ∀ d ∈ cs, L.acronym c = L.acronym d → c = d) ∧ ∀ c ∈ cs, ∀ x, (L.acronym c).getLast? = some x → x.isDigit = false

/-- Reading JSON back. -/
def ReadsBack (C : Coding O D B) (d : D) : Prop := C.loadJson (C.dumpJson d).1 = some d

end

end Verif
