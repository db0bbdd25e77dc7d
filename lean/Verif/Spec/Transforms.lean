import Verif.Model.Transforms
import Verif.Spec.Signal
/-!
# Vocabulary for recorded transforms (C89)
-/

namespace Verif

variable {n : Nat}

/-- Position `j` of the frequency axis belongs to bin `k` of the transform: the axis runs from the lowest signed bin to the highest. -/
def AxisOf (n : Nat) (j k : Fin n) : Prop := (j.val : ℤ) = signedBin n k + (n / 2 : ℕ)

/-- The sample nearest to time `s`, the first one of two that are equally near. -/
structure Nearest (P : Prop_ n) (s : ℝ) (i : Fin n) : Prop where
  closest : ∀ j, |P.t i - s| ≤ |P.t j - s|
  first : ∀ j, j < i → |P.t i - s| < |P.t j - s|

/-- Components whose recording is broken. -/
def Optic.CannotRecord : Optic n → Prop
  | .fiber _ => True
  | .phaseShifter _ => True
  | _ => False

/-- Components that forget what they recorded when they are next used without recording. -/
def Optic.Forgets : Optic n → Prop
  | .waveguide => False
  | .edfa _ => False
  | .source _ => False
  | .measure => False
  | .photodiode _ => False
  | _ => True

/-- A unit impulse at sample `i`. -/
noncomputable def impulseAt (i : Fin n) : Signal n := fun j => if j = i then 1 else 0

end Verif
