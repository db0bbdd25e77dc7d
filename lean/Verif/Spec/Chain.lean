import Verif.Spec.Evolution
import Verif.Spec.Fringe
/-!
# Designs with a single way for the light
-/

namespace Verif
open Graph

/-- Nowhere is light split or brought together. -/
def Unbranched (g : Graph) : Prop := ∀ v, (g.inEdges v).length ≤ 1 ∧ (g.outEdges v).length ≤ 1

/-- No component was added in parallel. -/
def NoParallel (rs : List (Graph × StepRec)) : Prop := ∀ p ∈ rs, p.2.op ≠ .addParallel

/-- What the second component makes of any light differs by a constant phase from what the first makes of it. -/
def UpToPhase {n : Nat} (P : Prop_ n) (a b : Optic n) : Prop := ∀ x y, a.apply P x = .ok y → ∃ c : ℂ, ‖c‖ = 1 ∧ b.apply P x = .ok (fun i => c * y i)

end Verif
