import Verif.Model.Devices
import Mathlib.Analysis.SpecialFunctions.Log.Base
/-!
# The formulas of additive noise (`simulator/fiber/assets/additive_noise.py:109-247`)

The life cycle of the noise objects (caching, seeding, switching) is in `Model/Caches`; here are the formulas for the noise vectors and for
their combination with a signal.  The values of `np.random.normal` are arguments.  Floats are reals; where numpy divides by zero and
returns `inf`/`nan` (with a warning) the model raises `zeroDivision`.
-/

namespace Verif
open Complex

variable {n : Nat}

/-- Noise type and parameter of an entry of `noise_sources`.  The parameter of `osnr` is the ratio, not dB (line 95); the one of `shot` is
the pair (slope, intercept); the one of `edfa ASE` is an amplifier, of which only `get_ASE_filter(propagator)` is used (line 142), here its value. -/
inductive NoiseForm (n : Nat)
  | osnr (ratio : ℝ)
  | absolutePower (watts : ℝ)
  | edfaAse (filter : Fin n → ℝ)
  | rms (value : ℝ)
  | shot (slope intercept : ℝ)
  | fwhm (linewidth : ℝ)
  | phase (linewidth : ℝ)

/-- An entry of `noise_sources` after sampling: type, transfer function of its filter, `noise_vector`, `mean_noise_power`.
Part of the model of `simulator/fiber/assets/additive_noise.py:109-247`. -/
structure Sampled (n : Nat) where
  form : NoiseForm n
  mask : Option (Signal n)
  vec : Signal n
  meanPower : ℝ

/-- Conversion of the parameter of `osnr` (lines 94-95). -/
noncomputable def osnrRatio (dB : ℝ) : ℝ := (10 : ℝ) ^ (dB / 10)

/-- `np.real(ifft_(expected_phase_noise_amplitude * freq_noise, dt))` (lines 230-232 and 237-239, 258-259): `r` is the real noise drawn.  Division by the zero
frequency makes the whole vector `nan`. -/
noncomputable def linewidthPhase (P : Prop_ n) (w : ℝ) (r : Fin n → ℝ) : Except Err (Fin n → ℝ) :=
  if ∃ k, P.f k = 0 then .error .zeroDivision
  else
    let amp : Fin n → ℝ := fun k => Real.sqrt (w / Real.pi / 2) / ifftShift (fun j => |P.f j|) k * Real.sqrt P.dt
    .ok (fun i => (ifft_ (fun k => (amp k : ℂ) * npFft (fun j => ((r j : ℝ) : ℂ)) k) P.dt i).re)

/-- The drawn noise after the filter of the source, if any (lines 217-219). -/
noncomputable def filteredDraw (P : Prop_ n) (mask : Option (Signal n)) (g : Signal n) : Signal n :=
  match mask with
  | none => g
  | some H => ifft_ (fun k => fft_ g P.dt k * H k) P.dt

/-- `_get_noise_vector` (lines 207-241): `g` is the complex noise drawn first, `r` the real noise drawn in `_get_real_noise_signal_freq`.
Dividing by the mean power of a vector of zeros gives `nan`. -/
noncomputable def noiseVector (P : Prop_ n) (mask : Option (Signal n)) (form : NoiseForm n) (g : Signal n) (r : Fin n → ℝ) : Except Err (Signal n) :=
  let noise := filteredDraw P mask g
  match form with
  | .absolutePower w =>
    if npMean (power_ noise) = 0 then .error .zeroDivision
    else .ok (fun i => noise i * (Real.sqrt (w / npMean (power_ noise)) : ℂ))
  | .rms v =>
    if npMean (power_ noise) = 0 then .error .zeroDivision
    else .ok (fun i => noise i * ((v / Real.sqrt (npMean (power_ noise)) : ℝ) : ℂ))
  | .fwhm w =>
    if w = 0 then .ok (fun _ => 1)
    else match linewidthPhase P w r with
      | .error e => .error e
      | .ok p => .ok (fun i => exp (I * (p i : ℂ)))
  | .phase w =>
    if w = 0 then .ok (fun _ => 0)
    else match linewidthPhase P w r with
      | .error e => .error e
      | .ok p => .ok (fun i => (p i : ℂ))
  | _ => .ok noise

/-- Sampling of a source (lines 203-205). -/
noncomputable def sampleNoise (P : Prop_ n) (mask : Option (Signal n)) (form : NoiseForm n) (g : Signal n) (r : Fin n → ℝ) : Except Err (Sampled n) :=
  match noiseVector P mask form g r with
  | .error e => .error e
  | .ok v => .ok ⟨form, mask, v, npMean (power_ v)⟩

/-- The bandwidth in the formula of shot noise (line 137). -/
noncomputable def noiseBandwidth (P : Prop_ n) (mask : Option (Signal n)) : ℝ :=
  match mask with
  | some H => (∑ k, ‖H k‖) * P.df
  | none => n * P.df

/-- One pass of the loop of `add_noise_to_propagation` (lines 125-152) on signal and total noise; `m` is `mean_signal_power`. -/
noncomputable def noiseStep (P : Prop_ n) (m : ℝ) (st : Signal n × Signal n) (s : Sampled n) : Except Err (Signal n × Signal n) :=
  match s.form with
  | .osnr ratio =>
    if s.meanPower = 0 ∨ ratio = 0 then .error .zeroDivision
    else .ok (st.1, fun i => st.2 i + s.vec i * (Real.sqrt (m / s.meanPower / ratio) : ℂ))
  | .absolutePower _ => .ok (st.1, fun i => st.2 i + s.vec i)
  | .rms _ => .ok (st.1, fun i => st.2 i + s.vec i)
  | .shot slope intercept =>
    let bandwidth := noiseBandwidth P s.mask
    let target := (slope * npMean (fun i => ‖st.1 i‖) + intercept) * bandwidth
    if npMean (power_ s.vec) = 0 then .error .zeroDivision
    else .ok (st.1, fun i => st.2 i + (Real.sqrt (target / npMean (power_ s.vec)) : ℂ) * s.vec i)
  | .edfaAse filter =>
    .ok (st.1, fun i => st.2 i +
      ifft_ (fun k => s.vec k / (Real.sqrt 2 : ℂ) * ((filter k * Real.sqrt (P.dt / P.df) : ℝ) : ℂ)) P.dt i)
  | .fwhm _ => .ok (fun i => st.1 i * s.vec i, st.2)
  | .phase _ => .ok st

/-- The loop. Part of the model of `simulator/fiber/assets/additive_noise.py:109-247`. -/
noncomputable def noiseLoop (P : Prop_ n) (m : ℝ) : List (Sampled n) → Signal n × Signal n → Except Err (Signal n × Signal n)
  | [], st => .ok st
  | s :: ss, st =>
    match noiseStep P m st s with
    | .error e => .error e
    | .ok st' => noiseLoop P m ss st'

/-- `add_noise_to_propagation` (lines 109-154), noise being on and the sources being sampled for the propagator. -/
noncomputable def mixNoise (P : Prop_ n) (srcs : List (Sampled n)) (x : Signal n) : Except Err (Signal n) :=
  match noiseLoop P (npMean (power_ x)) srcs (x, fun _ => 0) with
  | .error e => .error e
  | .ok st => .ok (fun i => st.1 i + st.2 i)

/-- `get_OSNR(signal, noise)` in dB (lines 243-256). -/
noncomputable def getOsnr (signal noise : Signal n) : ℝ :=
  10 * Real.logb 10 (npMean (power_ signal) / npMean (power_ noise))

end Verif
