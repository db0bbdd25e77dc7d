import Verif.Spec.Physics
/-!
# Components that keep time
-/

namespace Verif

variable {n : Nat}

/-- The component repeats itself after `d` samples, around the end of the window: a source whose field does; a modulator whose clock runs through whole periods both in `d` samples and in
all `n` samples; everything else, having no clock. -/
def Optic.Repeats (P : Prop_ n) (d : ℤ) : Optic n → Prop
  | .source x => ∀ i, delayed d x i = x i
  | .phaseMod _ f _ => (∃ k : ℤ, f * (d * P.dt) = k) ∧ ∃ l : ℤ, f * (n * P.dt) = l
  | .intensityMod _ f _ => (∃ k : ℤ, f * (d * P.dt) = k) ∧ ∃ l : ℤ, f * (n * P.dt) = l
  | _ => True

/-- Light that is the same at all times. -/
def Steady (x : Signal n) : Prop := ∀ i j, x i = x j

/-- Light whose power is the same at all times. -/
def EvenPower (x : Signal n) : Prop := ∀ i j, ‖x i‖ = ‖x j‖

/-- Components that treat each moment by itself and turn phases at most: attenuators, phase shifters, phase modulators, waveguides; and detectors. -/
def Optic.PhaseOnly : Optic n → Prop
  | .voa _ | .phaseShifter _ | .phaseMod .. | .waveguide | .measure | .photodiode _ => True
  | _ => False

/-- Mean of the squared distances from the mean. -/
noncomputable def unevenness (x : Fin n → ℝ) : ℝ := (∑ i, (x i - (∑ j, x j) / n) ^ 2) / n

end Verif
