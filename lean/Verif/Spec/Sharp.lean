import Verif.Spec.DelayNet
/-!
# How sharp and how exact the filters of delay networks are
-/

namespace Verif

variable {n : Nat}

/-- The delay on a way. -/
noncomputable def wayDelay (optic : Comp → Optic n) (w : List Edge) : ℝ := (w.map fun d => (optic d.comp).lineDelay).sum

/-- The optical frequency of spectral line `k`. -/
noncomputable def lineFreq (P : Prop_ n) (k : Fin n) : ℝ := ifftShift P.f k + P.central

/-- The same design with another setting of the delay line `c`. -/
noncomputable def redelayed (optic : Comp → Optic n) (c : Comp) (τ : ℝ) : Comp → Optic n := fun c' => if c' = c then .delayLine τ else optic c'

end Verif
