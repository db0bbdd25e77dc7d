import Verif.Model.Signal
import Mathlib.Analysis.SpecialFunctions.Log.Basic
import Mathlib.Analysis.Real.Sqrt
import Mathlib.Algebra.Order.Floor.Ring
/-!
# The single-path components

`simulator/fiber/node_types_subclasses/single_path.py`, branch by branch of each `propagate`.  Floats are reals; numpy's
`inf`/`nan` results are raised as errors where a division by zero would produce them.  `save_transforms=True` only stores an array
for plotting, except where computing that array raises.
-/

namespace Verif
open Complex

variable {n : Nat}

/-- `state * dB_to_amplitude_ratio(db)`, the last line of most components. `simulator/fiber/assets/functions.py:61-62`. -/
noncomputable def dbScale (db : ℝ) (x : Signal n) : Signal n := fun i => x i * (dbAmp db : ℂ)

/-- `ifft_(mask * fft_(state, dt), dt)`, the pattern of all frequency-domain components.
`simulator/fiber/node_types_subclasses/single_path.py:23-924`. -/
noncomputable def freqMul (mask : Signal n) (dt : ℝ) (x : Signal n) : Signal n :=
  ifft_ (fun k => mask k * fft_ x dt k) dt

/-- `_beta2_experimental` (line 55). -/
noncomputable def beta2 : ℝ := -22 * (1 / 10 ^ 12) * (1 / 10 ^ 12) / 1000

/-- `DispersiveFiber.propagate` (lines 60-79), `_alpha = 0` (line 47).  With `save_transforms` the name `D_lambda` is read, which
only occurs in comments (line 73). -/
noncomputable def fiber (P : Prop_ n) (length : ℝ) (save : Bool) (x : Signal n) : Except Err (Signal n) :=
  if save then .error .nameError
  else
    let pc : Fin n → ℝ := fun j => length * beta2 * (2 * Real.pi * P.f j) ^ 2
    .ok (dbScale (0 * length / 1000) (freqMul (ifftShift (fun j => exp (I * (pc j : ℂ)))) P.dt x))

/-- `VariableOpticalAttenuator.propagate` (lines 108-117). -/
noncomputable def voa (att : ℝ) (x : Signal n) : Signal n := dbScale att x

/-- `PhaseModulator.propagate` (lines 175-187); `noise` is `get_phase_noise` (zero with noise off), `_loss_dB = -0.0`. -/
noncomputable def phaseMod (P : Prop_ n) (depth freq shift : ℝ) (noise : Fin n → ℝ) (x : Signal n) : Signal n :=
  dbScale 0 (fun j => x j * exp (I * ((depth * Real.cos (2 * Real.pi * freq * P.t j + shift + noise j) : ℝ) : ℂ)))

/-- `IntensityModulator.propagate` (lines 224-240), `_loss_dB = -4`. -/
noncomputable def intensityMod (P : Prop_ n) (depth freq bias : ℝ) (x : Signal n) : Signal n :=
  dbScale (-4) (fun j => x j / 2 + x j / 2 * exp (I * ((depth * Real.cos (2 * Real.pi * freq * P.t j) + bias : ℝ) : ℂ)))

/-! ### WaveShaper (lines 244-321) -/

/-- `frequency_bin_width` (line 250). -/
noncomputable def wsBinWidth : ℝ := 12 * 10 ^ 9

/-- `extinction_ratio = 10 ** (-35 / 10)` (line 251). -/
noncomputable def extinction : ℝ := (10 : ℝ) ^ ((-35 : ℝ) / 10)

/-- Samples per bin (line 287): `floor(n_samples / ((1 / dt) / frequency_bin_width))`. -/
noncomputable def wsBinLen (P : Prop_ n) : Nat := ⌊(n : ℝ) / (1 / P.dt / wsBinWidth)⌋₊

/-- `np.concatenate([i * ones(m, 1) for i in vals])` (lines 290-294). -/
def wsRepeat (m : Nat) (vals : List ℝ) : List ℝ := vals.flatMap (List.replicate m)

/-- The mask on the grid (lines 297-311) for a repeated list: cut when it is longer than the grid, padded with the extinction ratio
when it is not.  `left = floor((n - len) / 2)`, `right = n - ceil((n - len) / 2)`. -/
noncomputable def wsMask (n : Nat) (l : List ℝ) : List ℝ :=
  let left : ℤ := ((n : ℤ) - l.length) / 2
  let right : ℤ := n - (-((-((n : ℤ) - l.length)) / 2))
  if left < 0 then (l.take right.toNat).drop (-left).toNat
  else List.replicate left.toNat extinction ++ l ++ List.replicate ((n : ℤ) - right).toNat extinction

/-- Numpy broadcasting of a column of `l.length` rows against a column of `n` rows.
`simulator/fiber/node_types_subclasses/single_path.py:280-321`. -/
noncomputable def broadcast (n : Nat) (l : List ℝ) : Except Err (Fin n → ℝ) :=
  if h : l.length = n then .ok (fun i => l[i.val]'(by rw [h]; exact i.isLt))
  else match l with
    | [a] => .ok (fun _ => a)
    | _ => .error .valueError

/-- `WaveShaper.propagate` (lines 280-321) with the two parameter halves. -/
noncomputable def waveShaper (P : Prop_ n) (amps phases : List ℝ) (x : Signal n) : Except Err (Signal n) :=
  match broadcast n (wsMask n (wsRepeat (wsBinLen P) amps)), broadcast n (wsMask n (wsRepeat (wsBinLen P) phases)) with
  | .ok a, .ok p => .ok (dbScale (-4.5) (freqMul (ifftShift (fun j => (a j : ℂ) * exp (I * (p j : ℂ)))) P.dt x))
  | .error e, _ => .error e
  | _, .error e => .error e

/-! ### Delay lines -/

/-- `_n` (lines 346, 760, 818). -/
noncomputable def refIndex : ℝ := 1444 / 1000

/-- `beta * length` for a delay (lines 366-367, 768-769, 826-827): `n * 2π (f + f0) / c * (c / n) * delay`. -/
noncomputable def delayPhase (P : Prop_ n) (delay : ℝ) (j : Fin n) : ℝ :=
  refIndex * (2 * Real.pi * (P.f j + P.central)) / lightSpeed * (lightSpeed / refIndex * delay)

/-- One stage of `IntegratedSplitAndDelayLine.propagate` (lines 366-376) in the spectral domain: (short, long). -/
noncomputable def sdlStage (P : Prop_ n) (ratio delay : ℝ) (s : Signal n × Signal n) : Signal n × Signal n :=
  let sc := Real.cos (Real.pi / 2 * ratio)
  let lc := Real.sin (Real.pi / 2 * ratio)
  (fun k => (sc : ℂ) * s.1 k + I * (lc : ℂ) * s.2 k,
   fun k => exp (I * ((ifftShift (delayPhase P delay) k : ℝ) : ℂ)) * (I * (lc : ℂ) * s.1 k + (sc : ℂ) * s.2 k))

/-- The loop over `zip(coupling_ratios, self._delays)`. `simulator/fiber/node_types_subclasses/single_path.py:325-394`. -/
noncomputable def sdlLoop (P : Prop_ n) : List (ℝ × ℝ) → Signal n × Signal n → Signal n × Signal n
  | [], s => s
  | (r, d) :: rest, s => sdlLoop P rest (sdlStage P r d s)

/-- `_delays` (line 347). -/
noncomputable def sdlDelays : List ℝ := (List.range 8).map (fun k => 2 ^ k * (1 / 10 ^ 12))

/-- `IntegratedSplitAndDelayLine.propagate` (lines 356-391), `_loss_dB = 1.0` (line 349). -/
noncomputable def splitDelay (P : Prop_ n) (ratios : List ℝ) (x : Signal n) : Signal n :=
  dbScale 1 (ifft_ (sdlLoop P (ratios.zip sdlDelays) (fft_ x P.dt, fun _ => 0)).1 P.dt)

/-- `DelayLine.propagate` (lines 765-781), `_loss_dB = -0.0`. -/
noncomputable def delayLine (P : Prop_ n) (delay : ℝ) (x : Signal n) : Signal n :=
  dbScale 0 (freqMul (fun k => exp (I * ((ifftShift (delayPhase P delay) k : ℝ) : ℂ))) P.dt x)

/-- `IntegratedDelayLine.propagate` (lines 823-839): the parameter is in picoseconds. -/
noncomputable def intDelayLine (P : Prop_ n) (delay : ℝ) (x : Signal n) : Signal n :=
  delayLine P (delay * (1 / 10 ^ 12)) x

/-- `Waveguide.propagate` (lines 865-866). -/
def waveguide (x : Signal n) : Signal n := x

/-- `PhaseShifter.propagate` (lines 908-925).  With `save_transforms` the name `delay` is read, which is not defined. -/
noncomputable def phaseShifter (P : Prop_ n) (phase : ℝ) (save : Bool) (x : Signal n) : Except Err (Signal n) :=
  if save then .error .nameError else .ok (freqMul (fun _ => exp (I * (phase : ℂ))) P.dt x)

/-! ### OpticalAmplifier (lines 395-545) -/

/-- The nine parameters (line 439). -/
structure Edfa where
  gainDb : ℝ
  peakWl : ℝ
  bandLower : ℝ
  bandUpper : ℝ
  pInMax : ℝ
  pOutMax : ℝ
  flatnessDb : ℝ
  alpha : ℝ
  noiseFigDb : ℝ

/-- `_get_small_signal_gain` (lines 519-545).  `np.isclose(x, 0, atol=1e-12)` is `|x| <= 1e-12`. -/
noncomputable def Edfa.smallSignal (E : Edfa) (P : Prop_ n) (k : Fin n) : ℝ :=
  let g := (10 : ℝ) ^ (E.gainDb / 10)
  if |E.flatnessDb| ≤ 1 / 10 ^ 12 then 1 * g
  else
    let c := lightSpeed / E.peakWl
    let d := max (c - lightSpeed / E.bandUpper) (lightSpeed / E.bandLower - c)
    let beta := d ^ 2 / Real.log ((10 : ℝ) ^ (E.flatnessDb / 10))
    let f := (ifftShift P.f k + P.central) - c
    g * Real.exp (-1 * f ^ 2 / beta)

/-- `_gain` (lines 492-504). -/
noncomputable def Edfa.gain (E : Edfa) (P : Prop_ n) (x : Signal n) (k : Fin n) : ℝ :=
  E.smallSignal P k / (1 + (E.smallSignal P k * npMean (power_ x) / E.pOutMax) ^ E.alpha)

/-- `OpticalAmplifier.propagate` (lines 454-468). -/
noncomputable def Edfa.propagate (E : Edfa) (P : Prop_ n) (x : Signal n) : Signal n :=
  ifft_ (fun k => (Real.sqrt (E.gain P x k) : ℂ) * fft_ x P.dt k) P.dt

/-! ### ProgrammableFilter (lines 602-672) -/

/-- `bernstein` (lines 635-638): `n! / (i! (n-i)!) t^i (1-t)^(n-i)`. -/
noncomputable def bernstein_ (t : ℝ) (i m : Nat) : ℝ :=
  ((m.factorial : ℝ) / (i.factorial * (m - i).factorial)) * t ^ i * (1 - t) ^ (m - i)

/-- `get_waveform` (lines 640-644). -/
noncomputable def getWaveform (coeffs : List ℝ) (t : ℝ) : ℝ :=
  (coeffs.zipIdx.map (fun p => p.1 * bernstein_ t p.2 (coeffs.length - 1))).sum

/-- `band_width` (line 607). -/
noncomputable def pfBand : ℝ := 5 * 10 ^ 12

/-- Python's `round` on a real. `simulator/fiber/node_types_subclasses/single_path.py:652`. -/
noncomputable def roundEven (x : ℝ) : ℤ :=
  if x - ⌊x⌋ < 1 / 2 then ⌊x⌋ else if 1 / 2 < x - ⌊x⌋ then ⌊x⌋ + 1 else if ⌊x⌋ % 2 = 0 then ⌊x⌋ else ⌊x⌋ + 1

/-- `bw_int` (line 652). -/
noncomputable def pfBwInt (P : Prop_ n) : ℤ := roundEven (pfBand / 2 / P.df)

/-- `f_shifted` (lines 657-659). -/
noncomputable def pfT (P : Prop_ n) (j : Fin n) : ℝ :=
  Prop_.linspace (-(n : ℝ) / 2 - pfBwInt P) ((n : ℝ) / 2 - pfBwInt P) n j / (2 * pfBwInt P) + 1

/-- `mask` (lines 654-655). -/
noncomputable def pfMask (P : Prop_ n) (j : Fin n) : ℝ := if |P.f j| ≤ pfBand / 2 then 1 else 0

/-- `ProgrammableFilter.propagate` (lines 646-672), `_loss_dB = -4.5`.  For `bw_int = 0` numpy divides by zero. -/
noncomputable def progFilter (P : Prop_ n) (amps phases : List ℝ) (x : Signal n) : Except Err (Signal n) :=
  if pfBwInt P = 0 then .error .runtimeWarning
  else
    let a : Fin n → ℝ := fun j => getWaveform amps (pfT P j) * pfMask P j
    let p : Fin n → ℝ := fun j => getWaveform phases (pfT P j) * pfMask P j
    .ok (dbScale (-4.5) (freqMul (ifftShift (fun j => (a j : ℂ) * exp (I * (p j : ℂ)))) P.dt x))

/-! ### SquareFilter (lines 676-723) -/

/-- `_logistic` (lines 721-723). -/
noncomputable def logistic (x : ℝ) : ℝ := 1 / (1 + Real.exp (-x))

/-- `amplitude_mask` (lines 705-708), `sharpness = 60`. -/
noncomputable def sfMask (P : Prop_ n) (bw : ℝ) (j : Fin n) : ℝ :=
  logistic ((P.f j + bw / 2) * (60 / bw)) * logistic ((-P.f j + bw / 2) * (60 / bw))

/-- `SquareFilter.propagate` (lines 703-719), `_loss_dB = 0`.  A zero bandwidth divides by zero. -/
noncomputable def squareFilter (P : Prop_ n) (bw : ℝ) (x : Signal n) : Except Err (Signal n) :=
  if bw = 0 then .error .zeroDivision
  else .ok (dbScale 0 (freqMul (ifftShift (fun j => (sfMask P bw j : ℂ))) P.dt x))

end Verif
