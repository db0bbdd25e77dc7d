import Verif.Model.PropObject
/-!
# Vocabulary for the propagator as an object

What a reader expects of the axes, and what a series of assignments asked for, without the functions of the model.
-/

namespace Verif

/-- The value is a number that can be the number of samples. -/
def GoodCount (v : SetArg) (n : Nat) : Prop := v = .int (n : ℤ)

/-- The axes of `n` samples over a window of length `w`. -/
structure AxesOf (n : Nat) (w : ℝ) (a : PropAxes) : Prop where
  times : a.t.length = n
  freqs : a.f.length = n
  time : ∀ j < n, a.t[j]? = some (-w / 2 + j * (w / ((n : ℝ) - 1)))
  freq : ∀ j < n, a.f[j]? = some (-(n / w) / 2 + j * ((n / w) / ((n : ℝ) - 1)))
  dt : a.dt = if 2 ≤ n then some (w / ((n : ℝ) - 1)) else none
  df : a.df = if 2 ≤ n then some ((n / w) / ((n : ℝ) - 1)) else none

/-- The last number of samples that was accepted: `n` at first. -/
def lastAccepted (n : Nat) : List PropSet → Nat
  | [] => n
  | .samples (.int z) :: ss => lastAccepted (if 0 ≤ z then z.toNat else n) ss
  | _ :: ss => lastAccepted n ss

/-- The last value that was assigned to `n_samples`, accepted or not. -/
def lastAssigned (v : SetArg) : List PropSet → SetArg
  | [] => v
  | .samples u :: ss => lastAssigned u ss
  | _ :: ss => lastAssigned v ss

/-- The last array that was assigned to `state`. -/
def lastState (a : NdArr) : List PropSet → NdArr
  | [] => a
  | .state (.array b) :: ss => lastState b ss
  | _ :: ss => lastState a ss

/-- What Python answers to an assignment. -/
def answerTo : PropSet → Option Err
  | .samples (.int z) => if 0 ≤ z then none else some .valueError
  | .samples _ => some .typeError
  | .window _ => some .valueError
  | .state (.array _) => none
  | .state _ => some .typeError
  | .fixed _ _ => some .attributeError

end Verif
