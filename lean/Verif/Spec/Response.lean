import Verif.Spec.Physics
/-!
# Designs as filters
-/

namespace Verif

variable {n : Nat}

/-- Components that treat each frequency by itself, in proportion to the light: all but detectors, modulators and saturating amplifiers. -/
def Optic.Linear (o : Optic n) : Prop := ¬ o.IsDetector ∧ ¬ o.IsModulator ∧ ¬ o.Saturates

/-- The same components, all sources emitting `x`. -/
def fedWith (optic : Comp → Optic n) (x : Signal n) : Comp → Optic n := fun c => (optic c).mapSource (fun _ => x)

/-- `H` is the response of the design: it runs on every light, and each line of the spectrum at a place is that line of the source times the response of the place. -/
def IsResponse (P : Prop_ n) (g : Graph) (optic : Comp → Optic n) (conn : Comp → Connector) (hasNoise : Comp → Bool) (inp : Signal n) (H : Key → Signal n) : Prop :=
  ∀ (x : Signal n) (old : Store (Signal n)), ∃ st, propagate g (physics P (fedWith optic x) conn hasNoise) inp old = .ok st ∧
    ∀ k s, st k = some s → ∀ m, npFft s m = H k m * npFft x m

/-- Components that treat all frequencies alike: attenuators, phase shifters, waveguides. -/
def Optic.Flat : Optic n → Prop
  | .voa _ | .phaseShifter _ | .waveguide | .source _ => True
  | _ => False

/-- Components that treat all frequencies alike, and delay lines whose delay is a multiple of `d` steps of the grid (`(1 - 1/n)² dt` each, as the frequencies of the propagator have it). -/
def Optic.Stepped (P : Prop_ n) (d : ℕ) : Optic n → Prop
  | .voa _ | .phaseShifter _ | .waveguide | .source _ => True
  | .delayLine τ => ∃ j : ℤ, τ = ((j * d : ℤ) : ℝ) * P.dt * (((n : ℝ) - 1) / n) ^ 2
  | .intDelayLine τ => ∃ j : ℤ, τ * (1 / 10 ^ 12) = ((j * d : ℤ) : ℝ) * P.dt * (((n : ℝ) - 1) / n) ^ 2
  | _ => False

end Verif
