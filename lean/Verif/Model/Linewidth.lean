import Verif.Model.Noise
/-!
# Linewidths from measured phase noise (`simulator/fiber/assets/additive_noise.py:19-20, 270-307`)

`scipy.optimize.curve_fit` is an argument (`fit`), given the function to fit and the data.  Floats are reals.
-/

namespace Verif

/-- `inverse_x_squared` (lines 19-20). -/
noncomputable def inverseXSquared (x c : ℝ) : ℝ := c / x ^ 2

/-- `dBc_per_Hz_to_rad2_per_Hz` (lines 305-307). -/
noncomputable def dBcToRad2 (d : ℝ) : ℝ := 2 * (10 : ℝ) ^ (d / 10)

/-- The data given to `curve_fit` (lines 293-297): the points at the opposite offsets in reverse order, then the points themselves, with `phase_psd` as ordinates. -/
noncomputable def fitData (points : List (ℝ × ℝ)) : List (ℝ × ℝ) :=
  let offsets := (points.map (·.1)).reverse.map (-1 * ·) ++ points.map (·.1)
  let dBc := (points.map (·.2)).reverse ++ points.map (·.2)
  offsets.zip (dBc.map dBcToRad2)

/-- Type of `curve_fit` restricted to functions of one coefficient.
Part of the model of `simulator/fiber/assets/additive_noise.py:19-20, 270-307`. -/
abbrev CurveFit := (ℝ → ℝ → ℝ) → List (ℝ × ℝ) → Except Err ℝ

/-- `_fit_phase_psd_from_points(phase_psd_points)` (lines 283-303), its only coefficient.  `curve_fit` raises `ValueError` for no data.  With an offset of zero
the function to fit is infinite for all coefficients; the model raises `zeroDivision`. -/
noncomputable def fitPhasePsd (fit : CurveFit) (points : List (ℝ × ℝ)) : Except Err ℝ :=
  if (fitData points).isEmpty then .error .valueError
  else if ∃ p ∈ fitData points, p.1 = 0 then .error .zeroDivision
  else fit inverseXSquared (fitData points)

/-- `get_estimated_FWHM_linewidth_from_points` (lines 270-281). -/
noncomputable def estimatedLinewidth (fit : CurveFit) (points : List (ℝ × ℝ)) : Except Err ℝ :=
  match fitPhasePsd fit points with
  | .error e => .error e
  | .ok c => .ok (c * 2 * Real.pi)

end Verif
