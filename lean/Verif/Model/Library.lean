import Verif.Model.Save
import Verif.Model.Ops
import Verif.Model.Tables
/-!
# Model of the component library
(`config/config.py:16-17`, `simulator/fiber/assets/decorators.py`, `lib/functions.py:17-30`, `lib/base_classes.py:122-128`,
`simulator/fiber/evolver.py:41`, `lib/minimal_save.py:18-26,57`, `algorithms/speciation.py:291-299`)

A dictionary is the list of its entries in insertion order.  `print` has no effect here.
-/

namespace Verif

/-- A class object: its identity, `cls.__name__`, and `cls.__base__.__name__` (the name of the first direct base class).
Part of the model of `config/config.py:16-17`, `lib/functions.py:17-30`. -/
structure PyClass where
  cid : ClassId
  name : String
  base : String
deriving DecidableEq, Repr

/-- `NODE_TYPES_ALL`, `NODE_TYPES_ALL_WITH_TERMINALS` (`config/config.py:16-17`): category ↦ class name ↦ class. -/
abbrev Catalogue := List (String × List (String × PyClass))

/-- `if base not in d: d[base] = dict()` and `d[base][name] = cls` (`decorators.py:16-18`, 27-29). -/
def Catalogue.register (d : Catalogue) (c : PyClass) : Except Err Catalogue := do
  let d := if c.base ∈ d.map (·.1) then d else dictSet d c.base []
  let inner ← dictGet d c.base
  return dictSet d c.base (dictSet inner c.name c)

/-- The module `config.config` as far as components are concerned.
Part of the model of `config/config.py:16-17`, `lib/functions.py:17-30`. -/
structure Config where
  all : Catalogue
  withTerminals : Catalogue
deriving DecidableEq, Repr

/-- What stands above a class statement: `@register_node_types_all`, `@register_node_types_including_terminals`, or neither.
Part of the model of `config/config.py:16-17`, `lib/functions.py:17-30`. -/
inductive Deco where
  | all | terminals | none
deriving DecidableEq, Repr

/-- Executing a decorated class statement (`decorators.py:10-19`, 22-30). -/
def Config.declare (k : Config) (c : PyClass) (d : Deco) : Except Err Config :=
  match d with
  | .all => do
    let t ← k.withTerminals.register c
    let a ← k.all.register c
    return ⟨a, t⟩
  | .terminals => do
    let t ← k.withTerminals.register c
    return ⟨k.all, t⟩
  | .none => .ok k

/-- `custom_library(*list_of_components)` (`lib/functions.py:17-30`): `tmp = {cls: {} for cls in NODE_TYPES_ALL.keys()}`, then
`tmp[component.__base__.__name__][component.__name__] = component` for each component. -/
def customFill : Catalogue → List PyClass → Except Err Catalogue
  | tmp, [] => .ok tmp
  | tmp, c :: cs => do
    let inner ← dictGet tmp c.base
    customFill (dictSet tmp c.base (dictSet inner c.name c)) cs

/-- See `customFill`; `configuration.NODE_TYPES_ALL = tmp` is reached only when nothing was raised.
Part of the model of `config/config.py:16-17`, `lib/functions.py:17-30`. -/
def Config.custom (k : Config) (cs : List PyClass) : Except Err Config := do
  let tmp ← customFill (k.all.map (fun x => (x.1, []))) cs
  return { k with all := tmp }

/-- `EvolutionOperators.__init__` (`lib/base_classes.py:122-128`): the four sets of classes, taken when the operator is made. -/
def Config.operators (k : Config) : Except Err Library := do
  let so ← dictGet k.all "SourceModel"
  let si ← dictGet k.all "SinkModel"
  let ed ← dictGet k.all "SinglePath"
  let no ← dictGet k.all "MultiPath"
  return ⟨so.map (·.2.cid), si.map (·.2.cid), ed.map (·.2.cid), no.map (·.2.cid)⟩

/-- `flatten(configuration.NODE_TYPES_ALL_WITH_TERMINALS)` (`lib/minimal_save.py:18-26`, 57): `dict(items)` of the entries of all categories; the entries
of one category are themselves `dict(items)` of its entries. -/
def Catalogue.flatten (d : Catalogue) : List (String × PyClass) :=
  (d.flatMap (fun x => x.2.foldl (fun acc y => dictSet acc y.1 y.2) [])).foldl (fun acc y => dictSet acc y.1 y.2) []

/-- `lookup[name]` (`lib/minimal_save.py:59`, 66). -/
def Config.byName (k : Config) (name : String) : Except Err PyClass := dictGet k.withTerminals.flatten name

/-- `vectorDIFF.__init__` (`algorithms/speciation.py:291-299`): the classes in the order of their indices. -/
def Config.vectorBasis (k : Config) : List ClassId := (k.all.flatMap (·.2)).map (·.2.cid)

/-- A python module with component classes, in the order of the class statements.
Part of the model of `config/config.py:16-17`, `lib/functions.py:17-30`. -/
structure CompModule where
  name : String
  classes : List (PyClass × Deco)
deriving DecidableEq, Repr

/-- The interpreter: `sys.modules` (names of the modules imported), the configuration, and the operators (four per evolver, all with the same library,
`evolver.py:41`) made so far. -/
structure LibSession where
  loaded : List String
  config : Config
  evolvers : List Library
deriving Repr

/-- What a script does with the library: import a module (executed at most once), call `custom_library`, construct an evolver.
`lib/functions.py:17-30`. -/
inductive Cmd where
  | load (m : CompModule)
  | custom (cs : List PyClass)
  | evolver
deriving Repr

/-- The class statements of a module, one after the other.
Part of the model of `config/config.py:16-17`, `lib/functions.py:17-30`. -/
def Config.execAll (k : Config) : List (PyClass × Deco) → Except Err Config
  | [] => .ok k
  | x :: xs => do
    let k ← k.declare x.1 x.2
    k.execAll xs

/-- One command. Part of the model of `config/config.py:16-17`, `lib/functions.py:17-30`. -/
def LibSession.exec (s : LibSession) : Cmd → Except Err LibSession
  | .load m =>
    if m.name ∈ s.loaded then .ok s
    else do
      let k ← s.config.execAll m.classes
      return { s with loaded := s.loaded ++ [m.name], config := k }
  | .custom cs => do
    let k ← s.config.custom cs
    return { s with config := k }
  | .evolver => do
    let l ← s.config.operators
    return { s with evolvers := s.evolvers ++ [l] }

/-- A script. Part of the model of `config/config.py:16-17`, `lib/functions.py:17-30`. -/
def LibSession.run (s : LibSession) : List Cmd → Except Err LibSession
  | [] => .ok s
  | c :: cs => do
    let s ← s.exec c
    s.run cs

/-- Nothing imported (`config/config.py:16-17`). -/
def LibSession.start : LibSession := ⟨[], ⟨[], []⟩, []⟩

/-! ### The classes that exist -/

/-- `simulator/fiber/node_types_subclasses/inputs.py`: classes 4-7. -/
def modInputs : CompModule := ⟨"inputs",
  [(⟨4, "PulsedLaser", "SourceModel"⟩, .all), (⟨5, "ContinuousWaveLaser", "SourceModel"⟩, .all), (⟨6, "NoisySignal", "SourceModel"⟩, .all),
   (⟨7, "Impulse", "SourceModel"⟩, .all)]⟩

/-- `simulator/fiber/node_types_subclasses/outputs.py`: classes 8-10. -/
def modOutputs : CompModule := ⟨"outputs",
  [(⟨8, "MeasurementDevice", "SinkModel"⟩, .all), (⟨9, "ElectricFieldMeasurementDevice", "SinkModel"⟩, .all), (⟨10, "Photodiode", "SinkModel"⟩, .all)]⟩

/-- `simulator/fiber/node_types_subclasses/single_path.py`: classes 11-23. -/
def modSingle : CompModule := ⟨"single_path",
  [(⟨11, "DispersiveFiber", "SinglePath"⟩, .all), (⟨12, "VariableOpticalAttenuator", "SinglePath"⟩, .all), (⟨13, "PhaseModulator", "SinglePath"⟩, .all),
   (⟨14, "IntensityModulator", "SinglePath"⟩, .all), (⟨15, "WaveShaper", "SinglePath"⟩, .all), (⟨16, "IntegratedSplitAndDelayLine", "SinglePath"⟩, .none),
   (⟨17, "OpticalAmplifier", "SinglePath"⟩, .all), (⟨18, "ProgrammableFilter", "SinglePath"⟩, .all), (⟨19, "SquareFilter", "SinglePath"⟩, .all),
   (⟨20, "DelayLine", "SinglePath"⟩, .all), (⟨21, "IntegratedDelayLine", "SinglePath"⟩, .terminals), (⟨22, "Waveguide", "SinglePath"⟩, .terminals),
   (⟨23, "PhaseShifter", "SinglePath"⟩, .terminals)]⟩

/-- `simulator/fiber/node_types_subclasses/multi_path.py`: classes 2-3. -/
def modMulti : CompModule := ⟨"multi_path",
  [(⟨2, "VariablePowerSplitter", "MultiPath"⟩, .all), (⟨3, "FrequencySplitter", "MultiPath"⟩, .none)]⟩

/-- `simulator/fiber/node_types_subclasses/terminals.py`: classes 0-1.  `NodeTypeParent` is `lib.base_classes.NodeType`. -/
def modTerminals : CompModule := ⟨"terminals",
  [(⟨0, "TerminalSource", "NodeType"⟩, .terminals), (⟨1, "TerminalSink", "NodeType"⟩, .terminals)]⟩

/-- The table of a class, by its number (the tables are those of `Model/Tables.lean`); numbers from 24 on are not used. -/
def shippedPart : ClassId → Part
  | 0 => .terminalSource | 1 => .terminalSink | 2 => .splitter | 3 => .freqSplitter
  | 4 => .pulsedLaser | 5 => .cwLaser | 6 => .noisySignal | 7 => .impulse
  | 8 => .meter | 9 => .fieldMeter | 10 => .photodiode
  | 11 => .dispersiveFiber | 12 => .attenuator | 13 => .phaseModulator | 14 => .intensityModulator | 15 => .waveShaper | 16 => .splitDelay
  | 17 => .amplifier | 18 => .programmableFilter | 19 => .squareFilter | 20 => .delayLine | 21 => .integratedDelay | 22 => .waveguide
  | _ => .phaseShifter

end Verif
