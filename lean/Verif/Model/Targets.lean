import Verif.Model.Evaluate
/-!
# The constructors of the evaluators (`simulator/fiber/evaluator_subclasses/`)

What a target is made from.  Floats are reals, decimal literals are taken at their decimal value; `scipy.signal.sawtooth` and `scipy.signal.square` are
written out (for a width and a duty cycle between 0 and 1, the only ones used).
-/

namespace Verif

variable {n : Nat}

/-- `np.mod(x, m)` for a positive modulus.
`simulator/fiber/evaluator_subclasses/evaluator_pulserep.py:11-38`, `simulator/fiber/evaluator_subclasses/evaluator_rfawg.py:14-54`. -/
noncomputable def npMod (x m : ℝ) : ℝ := x - m * ⌊x / m⌋

/-- `scipy.signal.sawtooth(x, width)`, called in `evaluator_rfawg.py:29-33`. -/
noncomputable def sawtooth (x width : ℝ) : ℝ :=
  let r := npMod x (2 * Real.pi)
  if r < width * 2 * Real.pi then r / (Real.pi * width) - 1 else (Real.pi * (width + 1) - r) / (Real.pi * (1 - width))

/-- `scipy.signal.square(x, duty)`, called in `evaluator_rfawg.py:35` and `evaluator_filter_design.py:21`. -/
noncomputable def squareWave (x duty : ℝ) : ℝ := if npMod x (2 * Real.pi) < duty * 2 * Real.pi then 1 else -1

/-- The argument `target_waveform`: a string, an array, or an object of another type.
`simulator/fiber/evaluator_subclasses/evaluator_rfawg.py:14-54`. -/
inductive WaveArg (n : Nat) where
  | name (s : String)
  | array (x : Fin n → ℝ)
  | other

/-- `self.target` (`evaluator_rfawg.py:27-43`).  With neither a string nor an array the attribute is not set, and line 45 raises `AttributeError`. -/
noncomputable def rfTarget (P : Prop_ n) (harmonic amplitude : ℝ) : WaveArg n → Except Err (Fin n → ℝ)
  | .name s =>
    if s = "saw" then .ok (fun i => amplitude * (1 / 2 * (sawtooth (2 * Real.pi * harmonic * P.t i) 0 + 1)))
    else if s = "other-saw" then .ok (fun i => amplitude * (1 / 2 * (sawtooth (2 * Real.pi * harmonic * P.t i) 1 + 1)))
    else if s = "tri" then .ok (fun i => amplitude * (1 / 2 * (sawtooth (2 * Real.pi * harmonic * P.t i) (1 / 2) + 1)))
    else if s = "square" then .ok (fun i => amplitude * (1 / 2 * (squareWave (2 * Real.pi * harmonic * P.t i) (1 / 2) + 1)))
    else .error .notImplemented
  | .array x => .ok x
  | .other => .error .attributeError

/-- `RadioFrequencyWaveformGeneration(…)` (`evaluator_rfawg.py:16-53`). -/
noncomputable def rfNew (P : Prop_ n) (harmonic amplitude : ℝ) (wave : WaveArg n) (sink : NodeId) : Except Err (Evaluator n) :=
  match rfTarget P harmonic amplitude wave with
  | .error e => .error e
  | .ok target => .ok (rfWaveform P target amplitude harmonic sink)

/-- `self.fsr`, `self.width` (`evaluator_filter_design.py:18-19`). -/
noncomputable def designFsr : ℝ := 2 / 10 * 10 ^ 12
/-- See `designFsr`. `simulator/fiber/evaluator_subclasses/evaluator_filter_design.py:18-19`. -/
noncomputable def designWidth : ℝ := 2 / 100 * 10 ^ 12

/-- `self.target_transfer` (`evaluator_filter_design.py:20-21`), as a function of the frequency. -/
noncomputable def designTransfer (f : ℝ) : ℝ :=
  1 / 2 * (squareWave (f / designFsr + designWidth / designFsr * Real.pi) (designWidth / designFsr) + 1)

/-- `FilterDesign(…)` (`evaluator_filter_design.py:15-22`). -/
noncomputable def filterNew (P : Prop_ n) (sink : NodeId) : Evaluator n := filterDesign P (fun i => designTransfer (P.f i)) sink

/-- `self.fsr` (`evaluator_discrete_time_lens.py:18`). -/
noncomputable def lensFsr : ℝ := 1235 / 10000 * 10 ^ 11

/-- `self.target_psd_osc` (`evaluator_discrete_time_lens.py:18-20`), as a function of the frequency. -/
noncomputable def lensFringes (f : ℝ) : ℝ := 2 * Real.cos (f / lensFsr + 19 / 10) ^ 2

/-- `DiscreteTimeLens(…)` (`evaluator_discrete_time_lens.py:15-21`). -/
noncomputable def lensNew (P : Prop_ n) (sink : NodeId) : Evaluator n := timeLens P (fun i => lensFringes (P.f i)) sink

/-- `PulseRepetition(…)` (`evaluator_pulserep.py:14-36`); `pulse_width` and `peak_power` are stored and not used.  `1.0 / rep_t` of a zero raises. -/
noncomputable def pulseNew (P : Prop_ n) (target : Signal n) (_pulseWidth repT _peakPower : ℝ) (sink : NodeId) : Except Err (Evaluator n) :=
  if repT = 0 then .error .zeroDivision else .ok (pulseRepetition P (fun i => ‖target i‖) (1 / repT) sink)

/-- `NoiseSuppression(…)` (`evaluator_noise_suppression.py:14-21`). -/
noncomputable def noiseNew (trueSignal : Option (Signal n)) (sink : NodeId) : Except Err (Evaluator n) :=
  match trueSignal with
  | none => .error .runtimeError
  | some s => .ok (noiseSuppression s sink)

end Verif
