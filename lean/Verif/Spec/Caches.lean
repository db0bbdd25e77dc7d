import Verif.Model.Caches
/-! # Vocabulary for caches (C39, C40) -/

namespace Verif

/-- The propagator of the last call in a history (given in reverse). -/
def lastUsed {G : Type} : List (FOp G) → Option PropId
  | [] => none
  | .apply p :: _ => some p
  | .change _ _ :: ops => lastUsed ops

/-- No propagator is changed while it is the one last used (history in reverse). -/
def NotInUse {G : Type} : List (FOp G) → Prop
  | [] => True
  | .apply _ :: ops => NotInUse ops
  | .change p _ :: ops => lastUsed ops ≠ some p ∧ NotInUse ops

/-- Events that do not ask for new noise as long as `p` is the propagator. -/
def NoiseOp.Quiet {P R S : Type} (p : PropId) : NoiseOp P R S → Prop
  | .source _ _ => False
  | .noise _ q => q = p
  | .phase q => q = p
  | .resample _ => False
  | .switch _ => True
  | .simulate _ => True
  | .random _ => True

/-- What an event sets the switch of the object to. -/
def NoiseOp.switches {P R S : Type} : NoiseOp P R S → Option Bool
  | .switch b => some b
  | _ => none

/-- What an event sets the switch for all noise to. -/
def NoiseOp.simulates {P R S : Type} : NoiseOp P R S → Option Bool
  | .simulate b => some b
  | _ => none

end Verif
