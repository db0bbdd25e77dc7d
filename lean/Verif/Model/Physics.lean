import Verif.Model.Propagate
import Verif.Model.Splitter
import Verif.Model.Devices
/-!
# Whole systems: signals through a graph of components

The abstract behaviour of `Model/Propagate` filled in with the components of `Model/Components`, `Model/Devices` and `Model/Splitter`.
Noise is switched off (`add_noise_to_propagation` then returns the signal, `additive_noise.py:119-120`), and so is `save_transforms`.
-/

namespace Verif
open Complex

variable {n : Nat}

/-- What can be on an edge.  A source model is represented by the field it emits (`Model/Devices`: it ignores its input).
`simulator/fiber/node_types_subclasses/single_path.py:23-924`, `simulator/fiber/node_types_subclasses/inputs.py:18-283`. -/
inductive Optic (n : Nat)
  | fiber (length : ℝ)
  | voa (att : ℝ)
  | phaseMod (depth freq shift : ℝ)
  | intensityMod (depth freq bias : ℝ)
  | waveShaper (amps phases : List ℝ)
  | splitDelay (ratios : List ℝ)
  | delayLine (delay : ℝ)
  | intDelayLine (delay : ℝ)
  | waveguide
  | phaseShifter (phase : ℝ)
  | edfa (E : Edfa)
  | progFilter (amps phases : List ℝ)
  | squareFilter (bw : ℝ)
  | source (field : Signal n)
  | measure
  | photodiode (D : Photodiode)

/-- `model.propagate(state, propagator)` of an edge model.
`simulator/fiber/node_types_subclasses/single_path.py:23-924`, `simulator/fiber/node_types_subclasses/inputs.py:18-283`. -/
noncomputable def Optic.apply (P : Prop_ n) : Optic n → Signal n → Except Err (Signal n)
  | .fiber l, x => Verif.fiber P l false x
  | .voa a, x => .ok (Verif.voa a x)
  | .phaseMod d f s, x => .ok (Verif.phaseMod P d f s (fun _ => 0) x)
  | .intensityMod d f b, x => .ok (Verif.intensityMod P d f b x)
  | .waveShaper a p, x => Verif.waveShaper P a p x
  | .splitDelay r, x => .ok (Verif.splitDelay P r x)
  | .delayLine d, x => .ok (Verif.delayLine P d x)
  | .intDelayLine d, x => .ok (Verif.intDelayLine P d x)
  | .waveguide, x => .ok (Verif.waveguide x)
  | .phaseShifter p, x => Verif.phaseShifter P p false x
  | .edfa E, x => .ok (E.propagate P x)
  | .progFilter a p, x => Verif.progFilter P a p x
  | .squareFilter b, x => Verif.squareFilter P b x
  | .source e, _ => .ok e
  | .measure, x => .ok (fun i => ((Verif.measure x i : ℝ) : ℂ))
  | .photodiode D, x => D.propagate P x

/-- What can be on a node.
`simulator/fiber/node_types_subclasses/multi_path.py:16-133`, `simulator/fiber/node_types_subclasses/terminals.py:6-81`. -/
inductive Connector
  | terminal
  | splitter (ratios : List ℝ)
  | freqSplitter (ratios : List ℝ)

open Classical in
/-- `PowerSplitter.propagate` (`multi_path.py:54-76`) on whole signals: `splitPropagate` at every sample. -/
noncomputable def splitSignals (a : List ℝ) (nIn nOut : Nat) (s : List (Signal n)) : Except Err (List (Signal n)) :=
  let w := splitWeights a
  if s.length ≠ nIn ∨ w.length ≠ nOut then .error .valueError
  else if ∃ x ∈ w, x < 0 then .error .runtimeWarning
  else .ok (w.zipIdx.map (fun p => fun t => splitRow nIn nOut p.1 p.2 (s.map (· t))))

/-- The mask of one band of `FrequencySplitter.propagate` (lines 125-131), `k = 500`. -/
noncomputable def bandMask (n : Nat) (left right : ℝ) (j : Fin n) : ℝ :=
  1 / (1 + Real.exp (-500 * (Prop_.linspace 0 1 n j - left))) * (1 / (1 + Real.exp (500 * (Prop_.linspace 0 1 n j - right))))

/-- `np.sum(np.stack(states, 1), axis=1)`.
`simulator/fiber/node_types_subclasses/multi_path.py:16-133`, `simulator/fiber/node_types_subclasses/terminals.py:6-81`. -/
noncomputable def sumSignals (s : List (Signal n)) : Signal n := fun t => (s.map (· t)).sum

/-- `FrequencySplitter.propagate` (lines 113-133). -/
noncomputable def freqSplit (P : Prop_ n) (a : List ℝ) (s : List (Signal n)) : List (Signal n) :=
  let w := freqCutoffs a
  (w.dropLast.zip w.tail).map (fun c => freqMul (ifftShift (fun j => ((bandMask n c.1 c.2 j : ℝ) : ℂ))) P.dt (sumSignals s))

/-- `model.propagate(states, propagator, num_inputs, num_outputs)` of a node model; terminals return what they are given
(`terminals.py:41-42`, 80-81). -/
noncomputable def Connector.apply (P : Prop_ n) : Connector → List (Signal n) → Nat → Nat → Except Err (List (Signal n))
  | .terminal, s, _, _ => .ok s
  | .splitter a, s, nIn, nOut => splitSignals a nIn nOut s
  | .freqSplitter a, s, _, _ => .ok (freqSplit P a s)

/-- Behaviour of all components of a graph, noise off. `lib/graph.py:291-326`. -/
noncomputable def physics (P : Prop_ n) (optic : Comp → Optic n) (conn : Comp → Connector) (hasNoise : Comp → Bool) : Behav (Signal n) where
  node := fun c s nIn nOut => (conn c).apply P s nIn nOut
  edge := fun c x => (optic c).apply P x
  noise := fun c => if hasNoise c then some .ok else none

end Verif
