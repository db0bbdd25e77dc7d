import Verif.Model.Ga
/-! # Vocabulary for the parameter genetic algorithm (C35, C36) -/

namespace Verif
variable {K : Type}

/-- A vector of length `n` whose entry at position `i` satisfies `P i`: for instance being within the bounds of parameter `i`. -/
def Fits (P : Nat → K → Prop) (n : Nat) (v : List K) : Prop := v.length = n ∧ ∀ (i : Nat) (x : K), v[i]? = some x → P i x

end Verif
