import Verif.Model.RandomGraph
import Verif.Spec.Evolution
import Verif.Spec.Evolver
import Verif.Spec.Tables
/-! # Vocabulary: designs made by `random_graph` (C100) -/

namespace Verif
open Graph

/-- Picks the random number generators can deliver in the successive calls: an index the matrix gives a positive chance, components of classes in the
library as new objects, an unused node id. -/
inductive PossiblePicks (S : Settings) (cls : ClassId → Part) (lib : Library) (matrix : Nat → Graph → Heap → Except Err PMat) : Nat → List Pick → Ind → Heap → Prop
  | nil {n x h} : PossiblePicks S cls lib matrix n [] x h
  | cons {n c cs x h} : (∀ M, matrix n x.graph h = .ok M → M.CanDraw c.k) →
      (∀ M l o, matrix n x.graph h = .ok M → M.sample c.k = .ok (l, o) → drawOk lib x.graph o l c.draw ∧ NewObjects x.graph c.draw) →
      PossiblePicks S cls lib matrix (n + 1) cs (evolveCall S cls lib (matrix n) x h c).1.1 (evolveCall S cls lib (matrix n) x h c).1.2 →
      PossiblePicks S cls lib matrix n (c :: cs) x h

/-- A node between the ends: light enters and leaves. -/
def InnerNode (g : Graph) (v : NodeId) : Prop := (∃ e ∈ g.edges, e.dst = v) ∧ ∃ e ∈ g.edges, e.src = v

/-- `y` is `x` after successive mutations with these new uuids: it carries the last one, its parent the one before. -/
def LineageAfter (x y : Ind) (uuids : List Nat) : Prop :=
  match uuids.reverse with
  | [] => y = x
  | [u] => y.current = u ∧ y.parent = x.current
  | u :: w :: _ => y.current = u ∧ y.parent = w

end Verif
