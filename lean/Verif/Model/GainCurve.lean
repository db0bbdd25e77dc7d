import Verif.Model.Components
import Verif.Model.Graph
/-!
# Model of the gain curve of an amplifier (`simulator/fiber/node_types_subclasses/single_path.py:549-580`)

What `display_small_signal_gain` draws; labels and title are left out.
-/

namespace Verif

/-- `_calculate_small_signal_gain` (lines 549-560).  With a flatness of zero numpy divides by zero: `beta` is infinite and the exponent zero, which is what the
division by zero of the model gives as well. -/
noncomputable def edfaGainAt (peakWl signalFreq bandUpper bandLower flatness peakGainDb : ℝ) : ℝ :=
  let c := lightSpeed / peakWl
  let lowerFreq := lightSpeed / bandUpper
  let upperFreq := lightSpeed / bandLower
  let d := max (c - lowerFreq) (upperFreq - c)
  let beta := d ^ 2 / Real.log ((10 : ℝ) ^ (flatness / 10))
  let f := signalFreq - c
  let g := (10 : ℝ) ^ (peakGainDb / 10)
  g * Real.exp (-1 * f ^ 2 / beta)

/-- A number as an argument of `range`. Part of the model of `simulator/fiber/node_types_subclasses/single_path.py:549-580`. -/
inductive RangeArg where
  | int (k : ℤ)
  | float (x : ℝ)

/-- The number. Part of the model of `simulator/fiber/node_types_subclasses/single_path.py:549-580`. -/
noncomputable def RangeArg.val : RangeArg → ℝ
  | .int k => k
  | .float x => x

/-- `range(a, b)`: `TypeError` unless both are integers.
Part of the model of `simulator/fiber/node_types_subclasses/single_path.py:549-580`. -/
noncomputable def rangeOf (a b : RangeArg) : Except Err (List ℤ) :=
  match a, b with
  | .int i, .int j => .ok ((List.range (j - i).toNat).map (fun (k : Nat) => i + (k : ℤ)))
  | _, _ => .error .typeError

/-- `display_small_signal_gain` (lines 563-571): the points of the curve, wavelengths in nm. -/
noncomputable def displayGain (gainDb peakWl flatness : ℝ) (bandLower bandUpper : RangeArg) : Except Err (List (ℝ × ℝ)) :=
  match rangeOf bandLower bandUpper with
  | .error e => .error e
  | .ok is =>
    .ok (is.map (fun i =>
      let w : ℝ := i * (1 / 10 ^ 9)
      (w * 10 ^ 9, edfaGainAt peakWl (lightSpeed / w) bandUpper.val bandLower.val flatness gainDb)))

/-- The amplifier object: its parameters are floats (lines 432-442). -/
noncomputable def Edfa.display (E : Edfa) : Except Err (List (ℝ × ℝ)) :=
  displayGain E.gainDb E.peakWl E.flatnessDb (.float E.bandLower) (.float E.bandUpper)

end Verif
