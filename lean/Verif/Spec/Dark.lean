import Verif.Spec.Physics
/-! # Vocabulary: parts of a system that get no light (C95) -/

namespace Verif
open Graph

variable {n : Nat}

/-- Components that make light of their own. -/
def Optic.IsSource : Optic n → Prop
  | .source _ => True
  | _ => False

/-- Output `j` of a power splitter with these ratios gets nothing: its own ratio passes nothing on to it, or one before it keeps everything back. -/
def Shut (a : List ℝ) (j : Nat) : Prop := a[j]? = some 1 ∨ ∃ k, k < j ∧ a[k]? = some 0

/-- Edges that get no light because of how splitters are set: one that starts at a shut output, and those behind a node all inputs of which are in the dark. -/
inductive InTheDark (g : Graph) (optic : Comp → Optic n) (conn : Comp → Connector) : Edge → Prop
  | shut {e : Edge} {v : Node} {a : List ℝ} {j : Nat} : v ∈ g.nodes → (g.outEdges v.id)[j]? = some e → conn v.comp = .splitter a → Shut a j →
      ¬ (optic e.comp).IsSource → InTheDark g optic conn e
  | behind {e : Edge} : e ∈ g.edges → (∃ d ∈ g.edges, d.dst = e.src) → (∀ d ∈ g.edges, d.dst = e.src → InTheDark g optic conn d) →
      ¬ (optic e.comp).IsSource → InTheDark g optic conn e

/-- In a propagated system, no light enters edge `e`. -/
def Unlit (g : Graph) (B : Behav (Signal n)) (inp : Signal n) (st : Store (Signal n)) (e : Edge) : Prop :=
  ∃ v ∈ g.nodes, ∃ outs, ∃ j : Nat, Outputs g B inp st v outs ∧ (g.outEdges v.id)[j]? = some e ∧ outs[j]? = some (fun _ => 0)

/-- In a propagated system, no light enters node `v`. -/
def UnlitNode (g : Graph) (inp : Signal n) (st : Store (Signal n)) (v : Node) : Prop := ∃ ins, Inputs g inp st v.id ins ∧ ∀ x ∈ ins, x = fun _ => 0

/-- A component that may stand in the dark: it makes no light of its own, and does not raise on darkness. -/
def Optic.Idle (P : Prop_ n) (o : Optic n) : Prop := ¬ o.IsSource ∧ ∃ y, o.apply P (fun _ => 0) = .ok y

/-- The same for a node with `nIn` inputs and `nOut` outputs. -/
def Connector.Idle (P : Prop_ n) (c : Connector) (nIn nOut : Nat) : Prop :=
  ∃ outs, c.apply P (List.replicate (max 1 nIn) (fun _ => 0)) nIn nOut = .ok outs ∧ max 1 nOut ≤ outs.length

end Verif
