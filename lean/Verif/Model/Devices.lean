import Verif.Model.Components
import Mathlib.Analysis.SpecialFunctions.Trigonometric.Inverse
/-!
# Filters, detectors and sources

`simulator/fiber/assets/filter.py:113-175`, `simulator/fiber/node_types_subclasses/outputs.py`,
`simulator/fiber/node_types_subclasses/inputs.py`.  Floats are reals; the cache of filter objects is in `Model/Caches`.
-/

namespace Verif
open Complex

variable {n : Nat}

/-! ### Filter shapes -/

/-- The loop of `_butterworth_polynomial` (lines 171-172), `k = 1, …, m`. -/
noncomputable def butterLoop (s : ℂ) (order : ℕ) : ℕ → ℂ → ℂ
  | 0, p => p
  | m + 1, p => butterLoop s order m p *
      (s ^ 2 - 2 * s * ((Real.cos ((2 * ((m : ℝ) + 1) + order - 1) / (2 * order) * Real.pi) : ℝ) : ℂ) + 1)

/-- `_butterworth_polynomial` (lines 161-174). -/
noncomputable def butterPoly (s : ℂ) (order : ℤ) : Except Err ℂ :=
  if order < 0 then .error .valueError
  else if order % 2 ≠ 0 then .ok (butterLoop s order.toNat ((order - 1) / 2).toNat (s + 1))
  else .ok (butterLoop s order.toNat (order / 2).toNat 1)

/-- `dc_gain / _butterworth_polynomial(s, order)` (line 158), for an order that is not negative. -/
noncomputable def butterGain (dc : ℝ) (s : ℂ) (order : ℤ) : ℂ :=
  match butterPoly s order with
  | .ok p => (dc : ℂ) / p
  | .error _ => 0

/-- Parameters of a filter, by shape (`get_filter`, lines 113-128). -/
inductive Shape
  | expSquare (centralWl fwhm : ℝ)
  | butterworth (transition dcGain : ℝ) (order : ℤ)
  | gaussian | longpass | shortpass | bandpass
  | other (name : String)

/-- `_exp_of_square` (lines 130-138). -/
noncomputable def expSquare (P : Prop_ n) (wl fwhm : ℝ) : Fin n → ℝ :=
  let deltaF := lightSpeed * (1 / (wl - fwhm / 2) - 1 / (wl + fwhm / 2))
  let beta := deltaF ^ 2 / 4 / Real.log 2
  ifftShift (fun j => Real.exp (-1 * (P.f j + P.central - lightSpeed / wl) ^ 2 / beta))

/-- `get_filter` (lines 113-158). -/
noncomputable def getFilter (P : Prop_ n) : Shape → Except Err (Signal n)
  | .expSquare wl fwhm => .ok (fun k => (expSquare P wl fwhm k : ℂ))
  | .butterworth tf dc order =>
    if order < 0 then .error .valueError
    else .ok (ifftShift (fun j => butterGain dc (I * (P.f j : ℂ) / (tf : ℂ)) order))
  | .gaussian => .error .valueError
  | .longpass => .error .valueError
  | .shortpass => .error .valueError
  | .bandpass => .error .valueError
  | .other _ => .error .valueError

/-- `get_filtered_time` (lines 52-55, and 107-111). -/
noncomputable def filteredTime (P : Prop_ n) (sh : Shape) (x : Signal n) : Except Err (Signal n) :=
  match getFilter P sh with
  | .error e => .error e
  | .ok H => .ok (ifft_ (fun k => fft_ x P.dt k * H k) P.dt)

/-! ### Sinks -/

/-- `MeasurementDevice.propagate` (`outputs.py:40-41`). -/
noncomputable def measure (x : Signal n) : Fin n → ℝ := fun i => ‖x i‖ ^ 2

/-- The parameters of a photodiode used in `propagate` (`outputs.py:105`). -/
structure Photodiode where
  responsivity : ℝ
  bandwidth : ℝ
  order : ℤ
  maxCurrent : ℝ
  load : ℝ

/-- `get_photocurrent` (`outputs.py:128-134`). -/
noncomputable def Photodiode.current (D : Photodiode) (p : ℝ) : ℝ :=
  let a := D.responsivity / D.maxCurrent
  D.maxCurrent * a * p / (1 + |a * p| ^ 15) ^ ((1 : ℝ) / 15)

/-- `Photodiode.propagate` (`outputs.py:118-126`). -/
noncomputable def Photodiode.propagate (D : Photodiode) (P : Prop_ n) (x : Signal n) : Except Err (Signal n) :=
  filteredTime P (.butterworth D.bandwidth 1 D.order) (fun i => ((D.current (power_ x i) * D.load : ℝ) : ℂ))

/-! ### Sources -/

/-- `ContinuousWaveLaser.propagate` (`inputs.py:110-113`). -/
noncomputable def cwLaser (peak : ℝ) (_x : Signal n) : Signal n := fun _ => (Real.sqrt peak : ℂ) * 1

/-- `gaussian` (`inputs.py:66-68`, 186-188). -/
noncomputable def gaussPulse (t width : ℝ) : ℝ := Real.exp (-(1 / 2) * (t / width) ^ 2)

/-- `sech` (`inputs.py:62-64`, 182-184). -/
noncomputable def sechPulse (t width : ℝ) : ℝ := 1 / Real.cosh (t / width)

/-- `np.sinc(t / width)` (`inputs.py:178-180`). -/
noncomputable def sincPulse (t width : ℝ) : ℝ :=
  if t / width = 0 then 1 else Real.sin (Real.pi * (t / width)) / (Real.pi * (t / width))

/-- `unwrapped_t` (`inputs.py:48-49`). -/
noncomputable def unwrapT (rep t : ℝ) : ℝ := Real.arcsin (Real.sin (Real.pi * t / rep)) * rep / Real.pi

/-- The scaled width (`inputs.py:50`, 164). -/
noncomputable def scaledWidth (width : ℝ) : ℝ := width / (2 * Real.sqrt (Real.log 2))

/-- `PulsedLaser.get_pulse_train` (`inputs.py:47-60`) at one time; `first` says whether it is the first sample, where
`scipy.signal.unit_impulse` has its one. -/
noncomputable def pulseAt (t width rep peak : ℝ) (shape : String) (first : Bool) : Except Err ℂ :=
  if shape = "gaussian" then .ok ((gaussPulse (unwrapT rep t) (scaledWidth width) : ℂ) * (Real.sqrt peak : ℂ))
  else if shape = "sech" then .ok ((sechPulse (unwrapT rep t) (scaledWidth width) : ℂ) * (Real.sqrt peak : ℂ))
  else if shape = "delta" then .ok ((if first then 1 else 0) * (Real.sqrt peak : ℂ))
  else .error .runtimeError

/-- `PulsedLaser.propagate` (`inputs.py:74-78`). -/
noncomputable def pulsedLaser (P : Prop_ n) (width rep peak : ℝ) (shape : String) (_x : Signal n) : Except Err (Signal n) :=
  match pulseAt 0 width rep peak shape false with
  | .error e => .error e
  | .ok _ => .ok (fun i => match pulseAt (P.t i) width rep peak shape (i.val = 0) with
    | .ok z => z
    | .error _ => 0)

/-- `NoisySignal.get_pulse_train` (`inputs.py:160-176`) at one time: no wrapping. -/
noncomputable def noisyAt (t width peak : ℝ) (shape : String) : Except Err ℂ :=
  if shape = "gaussian" then .ok ((gaussPulse t (scaledWidth width) : ℂ) * (Real.sqrt peak : ℂ))
  else if shape = "sech" then .ok ((sechPulse t (scaledWidth width) : ℂ) * (Real.sqrt peak : ℂ))
  else if shape = "sinc" then .ok ((sincPulse t (scaledWidth width) : ℂ) * (Real.sqrt peak : ℂ))
  else if shape = "sinc-chirped" then
    .ok ((sincPulse t (scaledWidth width) : ℂ) * exp (I * 2 * Real.pi * 1 * ((t / scaledWidth width) ^ 2 : ℝ)) * (Real.sqrt peak : ℂ))
  else .error .runtimeError

/-- `Impulse.propagate` (`inputs.py:230-232`). -/
noncomputable def impulse (P : Prop_ n) (_x : Signal n) : Signal n := ifftShift (ifft_ (fun _ => 1) P.dt)

end Verif
