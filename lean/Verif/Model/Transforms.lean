import Verif.Model.Physics
import Mathlib.Analysis.SpecialFunctions.Log.Base
/-!
# What components record of themselves (`self.transform`, `propagate(…, save_transforms=True)`)

`simulator/fiber/node_types_subclasses/single_path.py`, `lib/base_classes.py:33`.  The recorded arrays have the shape `(n_samples, 1)`; here they
are functions on `Fin n`.  Noise is switched off.
-/

namespace Verif
open Complex

variable {n : Nat}

/-- The first entry of an element of `transform`: `'t'` or `'f'`. Part of the model of `lib/base_classes.py:33`. -/
inductive Dof | time | freq
  deriving DecidableEq, Repr

/-- An element `(dof, array, label)` of `transform`. Part of the model of `lib/base_classes.py:33`. -/
structure Trace (n : Nat) where
  dof : Dof
  values : Fin n → ℝ
  label : String

/-- The attribute `transform`; `None` at construction (`lib/base_classes.py:33`). -/
abbrev Recorded (n : Nat) := Option (List (Trace n))

open Classical in
/-- `v.argmin()`: the first position of the least value; `ValueError` (here `none`) for an empty array.
Part of the model of `lib/base_classes.py:33`. -/
noncomputable def argmin (v : Fin n → ℝ) : Option (Fin n) := (List.finRange n).find? (fun i => decide (∀ j, v i ≤ v j))

/-- `(np.abs(propagator.t - (-delay))).argmin()` (lines 382, 776, 834). -/
noncomputable def markOf (P : Prop_ n) (delay : ℝ) : Option (Fin n) := argmin (fun j => |P.t j - -delay|)

/-- The loop of lines 380-382: `transform[… .argmin()] = coupling_ratio`, a later stage overwrites an earlier one. -/
noncomputable def sdlMarks (P : Prop_ n) : List (ℝ × ℝ) → (Fin n → ℝ) → Except Err (Fin n → ℝ)
  | [], v => .ok v
  | (r, d) :: rest, v =>
    match markOf P d with
    | none => .error .valueError
    | some i => sdlMarks P rest (fun j => if j = i then r else v j)

/-- The record of a delay line (lines 774-777, 832-835): zeros with a one. -/
noncomputable def delayRecord (P : Prop_ n) (delay : ℝ) : Except Err (Trace n) :=
  match markOf P delay with
  | none => .error .valueError
  | some i => .ok ⟨.time, fun j => if j = i then 1 else 0, "delay"⟩

/-- Lines 774-781 after the light has been computed: record or forget. -/
noncomputable def withDelay (P : Prop_ n) (delay : ℝ) (save : Bool) (y : Signal n) (old : Recorded n) : Recorded n × Except Err (Signal n) :=
  if save then
    match delayRecord P delay with
    | .error e => (old, .error e)
    | .ok tr => (some [tr], .ok y)
  else (none, .ok y)

/-- `model.propagate(state, propagator, save_transforms=save)` of an edge model whose attribute `transform` is `old`: the attribute afterwards and
the light, or the exception.  `DispersiveFiber` 60-79, `VariableOpticalAttenuator` 108-117, `PhaseModulator` 175-187, `IntensityModulator` 224-240,
`WaveShaper` 280-321, `IntegratedSplitAndDelayLine` 356-391, `OpticalAmplifier` 454-468 (there is no `else`: the attribute stays), `ProgrammableFilter`
646-672, `SquareFilter` 703-719, `DelayLine` 765-781, `IntegratedDelayLine` 823-839, `PhaseShifter` 908-925; `Waveguide` (865-866), the sources
(`inputs.py`) and the detectors (`outputs.py`) never touch the attribute.  A mask of a single row on a grid of two samples is recorded by Python
as that row; here it is repeated. -/
noncomputable def Optic.run (P : Prop_ n) (save : Bool) (o : Optic n) (x : Signal n) (old : Recorded n) : Recorded n × Except Err (Signal n) :=
  match o with
  | .fiber l =>
    match Verif.fiber P l save x with
    | .error e => (old, .error e)
    | .ok y => (none, .ok y)
  | .voa a => (none, .ok (Verif.voa a x))
  | .phaseMod d f s =>
    (if save then some [⟨.time, fun j => d * Real.cos (2 * Real.pi * f * P.t j + s + 0), "modulation"⟩] else none,
      .ok (Verif.phaseMod P d f s (fun _ => 0) x))
  | .intensityMod d f b =>
    (if save then some [⟨.time, power_ (fun j => 1 / 2 + 1 / 2 * exp (I * ((d * Real.cos (2 * Real.pi * f * P.t j) + b : ℝ) : ℂ))), "modulation"⟩]
      else none, .ok (Verif.intensityMod P d f b x))
  | .waveShaper a p =>
    match Verif.waveShaper P a p x, broadcast n (wsMask n (wsRepeat (wsBinLen P) a)), broadcast n (wsMask n (wsRepeat (wsBinLen P) p)) with
    | .ok y, .ok am, .ok pm => (if save then some [⟨.freq, am, "amplitude"⟩, ⟨.freq, pm, "phase"⟩] else none, .ok y)
    | .error e, _, _ => (old, .error e)
    | _, .error e, _ => (old, .error e)
    | _, _, .error e => (old, .error e)
  | .splitDelay r =>
    if save then
      match sdlMarks P (r.zip sdlDelays) (fun _ => 0) with
      | .error e => (old, .error e)
      | .ok v => (some [⟨.time, v, "delay coupling ratios"⟩], .ok (Verif.splitDelay P r x))
    else (none, .ok (Verif.splitDelay P r x))
  | .delayLine d => withDelay P d save (Verif.delayLine P d x) old
  | .intDelayLine d => withDelay P (d * (1 / 10 ^ 12)) save (Verif.intDelayLine P d x) old
  | .waveguide => (old, .ok (Verif.waveguide x))
  | .phaseShifter p =>
    match Verif.phaseShifter P p save x with
    | .error e => (old, .error e)
    | .ok y => (none, .ok y)
  | .edfa E =>
    (if save then some [⟨.freq, fun i => 10 * Real.logb 10 (ifftShift (fun k => Real.sqrt (E.gain P x k)) i), "gain (dB)"⟩] else old,
      .ok (E.propagate P x))
  | .progFilter a p =>
    match Verif.progFilter P a p x with
    | .error e => (old, .error e)
    | .ok y =>
      (if save then some [⟨.freq, fun j => getWaveform a (pfT P j) * pfMask P j, "amplitude"⟩,
        ⟨.freq, fun j => getWaveform p (pfT P j) * pfMask P j, "phase"⟩] else none, .ok y)
  | .squareFilter b =>
    match Verif.squareFilter P b x with
    | .error e => (old, .error e)
    | .ok y => (if save then some [⟨.freq, sfMask P b, "amplitude"⟩] else none, .ok y)
  | .source e => (old, .ok e)
  | .measure => (old, .ok (fun i => ((Verif.measure x i : ℝ) : ℂ)))
  | .photodiode D => (old, D.propagate P x)

/-- The attribute `transform` after a history of calls of `propagate` on one object: its parameters, `save_transforms` and the input of each call.
A call that raises changes nothing, the history goes on. Part of the model of `lib/base_classes.py:33`. -/
noncomputable def recordedAfter (P : Prop_ n) : List (Optic n × Bool × Signal n) → Recorded n → Recorded n
  | [], old => old
  | c :: cs, old => recordedAfter P cs (c.1.run P c.2.1 c.2.2 old).1

/-- Behaviour of all components of a graph in `graph.propagate(propagator, save_transforms=save)` (`lib/graph.py:312,318`), noise off.  Node models accept
the argument and ignore it. -/
noncomputable def physicsSave (P : Prop_ n) (optic : Comp → Optic n) (conn : Comp → Connector) (hasNoise : Comp → Bool) (save : Bool) : Behav (Signal n) where
  node := fun c s nIn nOut => (conn c).apply P s nIn nOut
  edge := fun c x => ((optic c).run P save x none).2
  noise := fun c => if hasNoise c then some .ok else none

end Verif
