import Verif.Spec.Graph
/-! # Walks and longest paths -/

namespace Verif.Graph

/-- A directed walk with `n` edges from `u` to `v`. -/
inductive Walk (g : Graph) (u : NodeId) : NodeId → Nat → Prop
  | nil : Walk g u u 0
  | snoc {v w n} : Walk g u v n → g.Adj v w → Walk g u w (n + 1)

/-- The longest walk from `u` to `v` has `n` edges. -/
def IsLongest (g : Graph) (u v : NodeId) (n : Nat) : Prop :=
  g.Walk u v n ∧ ∀ m, g.Walk u v m → m ≤ n

end Verif.Graph
