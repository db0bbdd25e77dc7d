import Verif.Model.Settings
/-!
# Vocabulary for C81
-/

namespace Verif
variable {V : Type}

/-- What the user reads in `part.parameters[i]`. -/
def Bench.shows (w : Bench V) (p i : Nat) : Option V := (w.parts[p]?).bind fun q => (w.deref q.list)[i]?

/-- The values at some positions of a list that has all of them. -/
def ValuesAt (vs : List V) (l : List V) (is : List Nat) : Prop := vs.map some = is.map (fun i => l[i]?)

/-- Reachable by any history from nothing. -/
def Bench.Reachable (D : Defaults V) (w : Bench V) : Prop := ∃ ops, w = Bench.run D ⟨[], [], 0⟩ ops

/-- No event of the history assigns `parameters` of component `p`. -/
def NoAssign (p : Nat) (ops : List (BenchOp V)) : Prop := ∀ r, BenchOp.assign p r ∉ ops

/-- The history hands list `r` to no component. -/
def NotHanded (r : Nat) (ops : List (BenchOp V)) : Prop :=
  (∀ p, BenchOp.assign p r ∉ ops) ∧ (∀ k, BenchOp.make k (.list r) ∉ ops) ∧ (∀ x, BenchOp.makePoints (.list r) x ∉ ops)

/-- `node_lock` and `parameter_locks` of the classes as constructed (`inputs.py:25,36,89,99,128,138`, `single_path.py:139,151,430,438`,
`outputs.py:97,108`): whether the tuner may change parameter `i`.  In the plain classes every parameter is free. -/
def PartKind.free : PartKind → Nat → Bool
  | .pulsed, i => i == 1 || i == 2 || i == 3
  | .cw, i => i == 0
  | .noisySignal, _ => false
  | .phaseMod, i => i == 0 || i == 1 || i == 2
  | .amplifier, i => i == 0
  | .photodiode, _ => false
  | .plain ns, i => decide (i < ns.length)

/-- The parameters whose values a component works with when light passes, by name, in the order of `Uses.signal`: pulsed sources and noisy
signals the width, the period, the power and the shape of the pulses, a laser its power, a phase modulator depth, frequency and shift, an
amplifier all but the maximal input power, a photodiode responsivity, maximal current and load; the other classes all they have. -/
def signalNames : PartKind → List String
  | .pulsed | .noisySignal => ["pulse_width", "t_rep", "peak_power", "pulse_shape"]
  | .cw => ["peak_power"]
  | .phaseMod => ["depth", "frequency", "shift"]
  | .amplifier => ["max_small_signal_gain_dB", "gain_flatness_dB", "peak_wl", "band_upper", "band_lower", "P_out_max", "alpha", "max_noise_fig_dB"]
  | .photodiode => ["responsivity", "max_photocurrent", "load_resistance"]
  | .plain ns => ns

/-- The parameters that set the strength of the noise of a component, by name: the linewidth, in a laser also the signal to noise ratio; in a
photodiode temperature, bandwidth, load and dark current. -/
def noiseNames : PartKind → List String
  | .pulsed | .phaseMod => ["FWHM_linewidth"]
  | .cw => ["FWHM_linewidth", "osnr_dB"]
  | .photodiode => ["temp_K", "bandwidth", "load_resistance", "dark_current"]
  | _ => []

end Verif
