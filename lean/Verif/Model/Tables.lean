import Verif.Model.Optimize
import Verif.Model.Ops
import Verif.Model.Splitter
/-!
# Model of the component classes' parameter tables (`simulator/fiber/node_types_subclasses/`) and of what evolution does to objects

Decimal literals are taken at their decimal value.  Values computed in floating point (`np.pi`, `10 ** (-35 / 10)`) and class attributes that scripts
change before constructing components are settings.
-/

namespace Verif
open Graph

/-- `np.pi` and the class attributes read by the constructors: `WaveShaper.extinction_ratio`, `WaveShaper.number_of_bins`
(`single_path.py:249-251`), `ProgrammableFilter.number_of_bases` (line 605), `PhaseModulator.min_frequency` and `max_frequency` (lines 125-126), the same of
`IntensityModulator` (lines 198-199). -/
structure Settings where
  pi : ℚ
  extinction : ℚ
  bins : Nat
  bases : Nat
  pmMin : ℚ
  pmMax : ℚ
  imMin : ℚ
  imMax : ℚ

/-- The settings as they are in the files; `np.pi` is the double closest to π, the extinction ratio is rounded to 20 digits. -/
def stdSettings : Settings :=
  ⟨884279719003555 / 281474976710656, 31622776601683794 / 10 ^ 20, 15, 10, 10 ^ 9, 50 * 10 ^ 9, 10 ^ 9, 50 * 10 ^ 9⟩

/-- An entry of `default_parameters`, `upper_bounds` or `lower_bounds`. `lib/base_classes.py:15-33`. -/
inductive Entry where
  | num (x : ℚ)
  | text (s : String)
  | flag (b : Bool)
  | none
deriving DecidableEq, Repr

/-- The lists a component object has: `number_of_parameters`, `default_parameters`, `lower_bounds`, `upper_bounds`, `data_types`, `step_sizes`,
`parameter_imprecisions`, `parameter_locks`, `parameter_names` and the flag `node_lock`.  Units and symbols are not modelled.
`lib/base_classes.py:15-33`. -/
structure Sheet where
  number : Nat
  defaults : List Entry
  lower : List Entry
  upper : List Entry
  dtypes : List DType
  steps : List (Option ℚ)
  imprecisions : List ℚ
  locks : List Bool
  names : List String
  nodeLock : Bool

/-- The component classes.
`simulator/fiber/node_types_subclasses/inputs.py:1-283`, `simulator/fiber/node_types_subclasses/outputs.py:1-158`, `simulator/fiber/node_types_subclasses/single_path.py:1-924`, `simulator/fiber/node_types_subclasses/multi_path.py:1-133`, `simulator/fiber/node_types_subclasses/terminals.py:1-81`. -/
inductive Part where
  | terminalSource | terminalSink | splitter | freqSplitter
  | pulsedLaser | cwLaser | noisySignal | impulse
  | meter | fieldMeter | photodiode
  | dispersiveFiber | attenuator | phaseModulator | intensityModulator | waveShaper | splitDelay | amplifier | programmableFilter | squareFilter
  | delayLine | integratedDelay | waveguide | phaseShifter
deriving DecidableEq, Repr

/-- Numbers as entries. `lib/base_classes.py:15-33`. -/
def entries (xs : List ℚ) : List Entry := xs.map .num

/-- `['…{}'.format(ind) for ind in range(n)]`.
`simulator/fiber/node_types_subclasses/single_path.py:244-323`, `simulator/fiber/node_types_subclasses/single_path.py:602-675`. -/
def numbered (s : String) (n : Nat) : List String := (List.range n).map (fun i => s ++ Nat.repr i)

/-- A class without parameters. `lib/base_classes.py:15-33`. -/
def emptySheet (nodeLock : Bool) : Sheet := ⟨0, [], [], [], [], [], [], [], [], nodeLock⟩

/-- `update_attributes(num_inputs, num_outputs)` of the splitters (`multi_path.py:35-52`, 97-114). -/
def splitSheet (nOut : Nat) : Sheet :=
  { number := nOut - 1
    defaults := entries (defaultRatios ℚ nOut)
    lower := entries (List.replicate (nOut - 1) 0)
    upper := entries (List.replicate (nOut - 1) 1)
    dtypes := List.replicate (nOut - 1) .float
    steps := List.replicate (nOut - 1) none
    imprecisions := List.replicate (nOut - 1) (5 / 100)
    locks := List.replicate (nOut - 1) false
    names := numbered "ratio-" (nOut - 1)
    nodeLock := false }

/-- `PulsedLaser` (`inputs.py:18-44`) and `NoisySignal` (`inputs.py:121-147`) differ in `node_lock` only. -/
def pulseSheet (nodeLock : Bool) : Sheet :=
  { number := 7
    defaults := [.text "gaussian", .num (100 / 10 ^ 12), .num 1, .num (10 / 10 ^ 9), .num (156 / 10 ^ 8), .flag true, .num (10 ^ 3)]
    upper := [.none, .num (1 / 10 ^ 9), .num 1, .num (1 / (10 * 10 ^ 6)), .num (156 / 10 ^ 8), .none, .num (5 * 10 ^ 9)]
    lower := [.none, .num (3 / 10 ^ 11), .num (1 / 10000), .num (1 / 10 ^ 9), .num (154 / 10 ^ 8), .none, .num 0]
    dtypes := [.other, .float, .float, .float, .float, .other, .float]
    steps := [none, none, none, none, none, none, none]
    imprecisions := [1, 10 / 10 ^ 12, 1 / 10, 1 / 10 ^ 10, 1 / 10 ^ 10, 1, 1]
    locks := [true, false, false, false, true, true, true]
    names := ["pulse_shape", "pulse_width", "peak_power", "t_rep", "central_wl", "train", "FWHM_linewidth"]
    nodeLock := nodeLock }

/-- The lists of an object of each class; for the splitters after being told the number of outputs (as constructed, their lists are empty, which is the
case of one output).
`simulator/fiber/node_types_subclasses/inputs.py:1-283`, `simulator/fiber/node_types_subclasses/outputs.py:1-158`, `simulator/fiber/node_types_subclasses/single_path.py:1-924`, `simulator/fiber/node_types_subclasses/multi_path.py:1-133`, `simulator/fiber/node_types_subclasses/terminals.py:1-81`. -/
def sheet (S : Settings) : Part → Nat → Sheet
  /- `terminals.py:6-42` -/
  | .terminalSource, _ => emptySheet true
  /- `terminals.py:46-81` -/
  | .terminalSink, _ => emptySheet true
  /- `multi_path.py:16-52` -/
  | .splitter, k => splitSheet k
  /- `multi_path.py:79-114` -/
  | .freqSplitter, k => splitSheet k
  | .pulsedLaser, _ => pulseSheet false
  /- `inputs.py:82-107` -/
  | .cwLaser, _ =>
    { number := 4
      defaults := entries [4 / 100, 155 / 10 ^ 8, 55, 10 ^ 2]
      upper := entries [4 / 100, 156 / 10 ^ 8, 200, 10 ^ 6]
      lower := entries [1 / 10 ^ 8, 154 / 10 ^ 8, 1, 0]
      dtypes := [.float, .float, .float, .float]
      steps := [none, none, none, none]
      imprecisions := [1 / 10 ^ 6, 1 / 10 ^ 8, 0, 0]
      locks := [false, true, true, true]
      names := ["peak_power", "central_wl", "osnr_dB", "FWHM_linewidth"]
      nodeLock := false }
  | .noisySignal, _ => pulseSheet true
  /- `inputs.py:204-228` -/
  | .impulse, _ => emptySheet true
  /- `outputs.py:19-38` -/
  | .meter, _ => emptySheet true
  /- `outputs.py:45-64` -/
  | .fieldMeter, _ => emptySheet true
  /- `outputs.py:72-114` -/
  | .photodiode, _ =>
    { number := 7
      defaults := entries [1 / 2, 100 * 10 ^ 9, 2, 3 / 10 ^ 3, 50, 293, 5 / 10 ^ 9]
      lower := entries [1 / 100, 10 ^ 9, 1, 1 / 10 ^ 5, 1, 273, 0]
      upper := entries [1, 200 * 10 ^ 9, 20, 1 / 10, 10 ^ 3, 320, 1 / 10 ^ 6]
      dtypes := List.replicate 7 .float
      steps := [none, none, some 1, none, none, none, none]
      imprecisions := List.replicate 7 1
      locks := List.replicate 7 true
      names := ["responsivity", "bandwidth", "filter_order", "max_photocurrent", "load_resistance", "temp_K", "dark_current"]
      nodeLock := true }
  /- `single_path.py:23-46` -/
  | .dispersiveFiber, _ =>
    { number := 1
      defaults := entries [1]
      upper := entries [1000 * 10 ^ 3]
      lower := entries [0]
      dtypes := [.float]
      steps := [some 1]
      imprecisions := [1]
      locks := [false]
      names := ["length"]
      nodeLock := false }
  /- `single_path.py:83-105` -/
  | .attenuator, _ =>
    { number := 1
      defaults := entries [0]
      upper := entries [0]
      lower := entries [-60]
      dtypes := [.float]
      steps := [none]
      imprecisions := [1]
      locks := [false]
      names := ["attenuation"]
      nodeLock := false }
  /- `single_path.py:120-158` -/
  | .phaseModulator, _ =>
    { number := 4
      defaults := entries [1, 12 * 10 ^ 9, 2 / 100, 0]
      upper := entries [1 * S.pi, S.pmMax, 2 * S.pi, 10 ^ 9]
      lower := entries [1 / 1000, S.pmMin, 1 / 100, 0]
      dtypes := [.float, .float, .float, .float]
      steps := [none, none, none, none]
      imprecisions := [2 / 1000, 10 ^ 5, 1 / 100, 1 / 10]
      locks := [false, false, false, true]
      names := ["depth", "frequency", "shift", "FWHM_linewidth"]
      nodeLock := false }
  /- `single_path.py:193-221`: the bounds of the frequency are literals -/
  | .intensityModulator, _ =>
    { number := 4
      defaults := entries [1, 10 ^ 9, 0, 0]
      upper := entries [2 * S.pi, 50 * 10 ^ 9, 2 * S.pi, 2 * S.pi]
      lower := entries [0, 10 ^ 9, 0, 0]
      dtypes := [.float, .float, .float, .float]
      steps := [none, some (10 ^ 9), none, none]
      imprecisions := [1, 10 * 10 ^ 6, 1 / 10, 1 / 10]
      locks := [false, false, false, false]
      names := ["depth", "frequency", "bias", "shift"]
      nodeLock := false }
  /- `single_path.py:244-279` -/
  | .waveShaper, _ =>
    { number := 2 * S.bins
      defaults := entries (List.replicate S.bins 1 ++ List.replicate S.bins (1 / 10))
      upper := entries (List.replicate S.bins 1 ++ List.replicate S.bins (2 * S.pi))
      lower := entries (List.replicate S.bins S.extinction ++ List.replicate S.bins 0)
      dtypes := List.replicate (2 * S.bins) .float
      steps := List.replicate S.bins none ++ List.replicate S.bins none
      imprecisions := List.replicate S.bins (1 / 10) ++ List.replicate S.bins (1 / 10 * 2 * S.pi)
      locks := List.replicate (2 * S.bins) false
      names := numbered "amplitude" S.bins ++ numbered "phase" S.bins
      nodeLock := false }
  /- `single_path.py:325-349` -/
  | .splitDelay, _ =>
    { number := 8
      defaults := entries (List.replicate 8 (1 / 10))
      upper := entries (List.replicate 8 1)
      lower := entries (List.replicate 8 0)
      dtypes := List.replicate 8 .float
      steps := List.replicate 8 none
      imprecisions := List.replicate 8 (1 / 100)
      locks := List.replicate 8 false
      names := numbered "coupling_ratio" 8
      nodeLock := false }
  /- `single_path.py:395-453` -/
  | .amplifier, _ =>
    { number := 9
      defaults := entries [30, 1550 / 10 ^ 9, 1520 / 10 ^ 9, 1565 / 10 ^ 9, 1 / 100, 1 / 10, 3 / 2, 1, 5]
      upper := entries [50, 1612 / 10 ^ 9, 1600 / 10 ^ 9, 1625 / 10 ^ 9, 10, 10, 15, 3 / 2, 10]
      lower := entries [1, 1535 / 10 ^ 9, 1530 / 10 ^ 9, 1540 / 10 ^ 9, 1 / 10 ^ 4, 1 / 10 ^ 7, 0, 0, 3]
      dtypes := List.replicate 9 .float
      steps := List.replicate 9 none
      imprecisions := [1, 1 / 10 ^ 9, 1 / 10 ^ 9, 1 / 10 ^ 9, 1 / 10 ^ 3, 1 / 10 ^ 3, 1, 1 / 10, 1]
      locks := false :: List.replicate 8 true
      names := ["max_small_signal_gain_dB", "peak_wl", "band_lower", "band_upper", "P_in_max", "P_out_max", "gain_flatness_dB", "alpha", "max_noise_fig_dB"]
      nodeLock := false }
  /- `single_path.py:602-634`: `number_of_parameters` is computed once, when the class is defined -/
  | .programmableFilter, _ =>
    { number := 2 * 10
      defaults := entries (List.replicate S.bases 1 ++ List.replicate S.bases 0)
      upper := entries (List.replicate S.bases 1 ++ List.replicate S.bases (2 * S.pi))
      lower := entries (List.replicate S.bases 0 ++ List.replicate S.bases 0)
      dtypes := List.replicate (2 * S.bases) .float
      steps := List.replicate S.bases none ++ List.replicate S.bases none
      imprecisions := List.replicate S.bases (1 / 10) ++ List.replicate S.bases (1 / 10 * 2 * S.pi)
      locks := List.replicate (2 * 10) false
      names := numbered "amplitude" S.bases ++ numbered "phase" S.bases
      nodeLock := false }
  /- `single_path.py:676-700` -/
  | .squareFilter, _ =>
    { number := 1
      defaults := entries [5 * 10 ^ 12]
      upper := entries [10 * 10 ^ 12]
      lower := entries [0]
      dtypes := [.float]
      steps := [none]
      imprecisions := [1 / 10]
      locks := [false]
      names := ["bandwidth"]
      nodeLock := false }
  /- `single_path.py:727-760` -/
  | .delayLine, _ =>
    { number := 1
      defaults := entries [1 / 10 ^ 9]
      upper := entries [2 / 10 ^ 9]
      lower := entries [0]
      dtypes := [.float]
      steps := [none]
      imprecisions := [10 / 10 ^ 12]
      locks := [false]
      names := ["delay"]
      nodeLock := false }
  /- `single_path.py:785-818` -/
  | .integratedDelay, _ =>
    { number := 1
      defaults := entries [1]
      upper := entries [10]
      lower := entries [0]
      dtypes := [.float]
      steps := [some 1]
      imprecisions := [1]
      locks := [false]
      names := ["delay"]
      nodeLock := false }
  /- `single_path.py:843-865` -/
  | .waveguide, _ => emptySheet false
  /- `single_path.py:873-906` -/
  | .phaseShifter, _ =>
    { number := 1
      defaults := entries [1 / 2 * S.pi]
      upper := entries [1 * S.pi]
      lower := entries [-1 * S.pi]
      dtypes := [.float]
      steps := [none]
      imprecisions := [1 / 10 * S.pi]
      locks := [false]
      names := ["phase"]
      nodeLock := false }

/-- The number in an entry; what is not a number (only in locked places, see C75) is read as 0. -/
def Entry.toNum : Entry → ℚ
  | .num x => x
  | _ => 0

/-- The object in the vocabulary of `Model/Params.lean`. `lib/base_classes.py:15-33`. -/
def Sheet.model (s : Sheet) : PModel :=
  ⟨s.defaults.map Entry.toNum, s.lower.map Entry.toNum, s.upper.map Entry.toNum, s.dtypes, s.steps, s.locks, s.nodeLock⟩

/-- A newly constructed component, without arguments. `lib/base_classes.py:15-33`. -/
def newModel (S : Settings) (p : Part) : PModel := (sheet S p 1).model

/-- `model.update_attributes(num_inputs, num_outputs)`: only the terminals and the splitters have this method.
`simulator/fiber/node_types_subclasses/multi_path.py:35-53`, `simulator/fiber/node_types_subclasses/terminals.py:38-43`. -/
def updateModel (p : Part) (nOut : Nat) (m : PModel) : Except Err PModel :=
  match p with
  | .terminalSource | .terminalSink => .ok m
  | .splitter | .freqSplitter => .ok (splitSheet nOut).model
  | _ => .error .attributeError

/-- The loop of `update_graph` (`lib/graph.py:95-96`); `cls` tells the class of an object. -/
def updateNodes (cls : ClassId → Part) (g : Graph) : List Node → Heap → Except Err Heap
  | [], h => .ok h
  | n :: ns, h =>
    match updateModel (cls n.comp.cls) (g.outDeg n.id) (h n.comp.uid) with
    | .error e => .error e
    | .ok m => updateNodes cls g ns (fun k => if k = n.comp.uid then m else h k)

/-- `update_graph` (`lib/graph.py:90-97`): its effect on the component objects. -/
def updateDesign (cls : ClassId → Part) (g : Graph) (h : Heap) : Except Err Heap :=
  match g.topoSort with
  | .error e => .error e
  | .ok _ => updateNodes cls g g.nodes h

/-- Python's `<=` on two lists of numbers: the first difference decides. `simulator/fiber/evolver.py:78-80`. -/
def pyListLe : List ℚ → List ℚ → Bool
  | [], _ => true
  | _ :: _, [] => false
  | a :: as, b :: bs => if a = b then pyListLe as bs else decide (a < b)

/-- The assertion at the end of `evolve_graph` (`simulator/fiber/evolver.py:78-80`): `np.logical_and(lower_bounds <= x, x <= upper_bounds).all()`; all three are
Python lists, so each comparison gives one truth value. -/
def boundsGuard (x lo up : List ℚ) : Bool := pyListLe lo x && pyListLe x up

/-- The objects constructed for an operator application (`evolution_operators.py:36-38`, 96, 217-220). -/
def construct (S : Settings) (cls : ClassId → Part) (d : Draw) (h : Heap) : Heap := fun m =>
  if m = d.ec.uid then newModel S (cls d.ec.cls) else if m = d.nc.uid then newModel S (cls d.nc.cls) else h m

/-- `evolve_graph` (`simulator/fiber/evolver.py:63-80`) after the draw: apply the operator, update, check bounds. -/
def evolveDesign (S : Settings) (cls : ClassId → Part) (lib : Library) (g : Graph) (h : Heap) (op : Op) (l : Loc) (d : Draw) :
    Except Err (Graph × Heap) :=
  match applyOp lib g op l d with
  | .error e => .error e
  | .ok g' =>
    match updateDesign cls g' (construct S cls d h) with
    | .error e => .error e
    | .ok h' =>
      match extractToList g' h' with
      | .error e => .error e
      | .ok (x, _, _, lo, up) => if boundsGuard x lo up then .ok (g', h') else .error .assertion

end Verif
