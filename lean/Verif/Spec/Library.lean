import Verif.Model.Library
/-! # Vocabulary for the component library (C76) -/

namespace Verif

/-- The catalogue has the class `c` in category `b`, under its name. -/
def Catalogue.Lists (d : Catalogue) (b : String) (c : PyClass) : Prop := ∃ inner, (b, inner) ∈ d ∧ (c.name, c) ∈ inner

/-- The class occurs in the script. -/
def Mentions (cmds : List Cmd) (c : PyClass) : Prop :=
  (∃ m d, Cmd.load m ∈ cmds ∧ (c, d) ∈ m.classes) ∨ ∃ cs, Cmd.custom cs ∈ cmds ∧ c ∈ cs

/-- Names are unambiguous: no two classes and no two modules with the same name.  (And `cid` is the identity of a class.) -/
structure UniqueNames (cmds : List Cmd) : Prop where
  ids : ∀ c c', Mentions cmds c → Mentions cmds c' → c.cid = c'.cid → c = c'
  classes : ∀ c c', Mentions cmds c → Mentions cmds c' → c.name = c'.name → c = c'
  modules : ∀ m m', Cmd.load m ∈ cmds → Cmd.load m' ∈ cmds → m.name = m'.name → m = m'

/-- The class is on offer at the end of the script: the last call of `custom_library` lists it, or it is decorated with `@register_node_types_all` in a
module imported for the first time, and no call of `custom_library` follows. -/
def Offered (cmds : List Cmd) (c : PyClass) : Prop :=
  ∃ pre x post, cmds = pre ++ x :: post ∧ (∀ cs, Cmd.custom cs ∉ post) ∧
    ((∃ cs, x = .custom cs ∧ c ∈ cs) ∨ ∃ m, x = .load m ∧ Cmd.load m ∉ pre ∧ (c, Deco.all) ∈ m.classes)

/-- Some module imported has a class of this category decorated with `@register_node_types_all`. -/
def HasCategory (cmds : List Cmd) (b : String) : Prop := ∃ m c, Cmd.load m ∈ cmds ∧ (c, Deco.all) ∈ m.classes ∧ c.base = b

/-- Some module imported decorates the class with one of the two decorators. -/
def Registered (cmds : List Cmd) (c : PyClass) : Prop := ∃ m d, Cmd.load m ∈ cmds ∧ (c, d) ∈ m.classes ∧ d ≠ Deco.none

/-- The four categories from which evolution draws. -/
def fourCategories : List String := ["SourceModel", "SinkModel", "SinglePath", "MultiPath"]

/-- A command that can be carried out after a script. -/
def Feasible (cmds : List Cmd) : Cmd → Prop
  | .load _ => True
  | .custom cs => ∀ c ∈ cs, HasCategory cmds c.base
  | .evolver => ∀ b ∈ fourCategories, HasCategory cmds b

/-- The operators draw exactly the classes on offer, source models for sources and so on, each class once. -/
structure Draws (lib : Library) (cmds : List Cmd) : Prop where
  source : ∀ x, x ∈ lib.source ↔ ∃ c, Offered cmds c ∧ c.base = "SourceModel" ∧ c.cid = x
  sink : ∀ x, x ∈ lib.sink ↔ ∃ c, Offered cmds c ∧ c.base = "SinkModel" ∧ c.cid = x
  edge : ∀ x, x ∈ lib.edge ↔ ∃ c, Offered cmds c ∧ c.base = "SinglePath" ∧ c.cid = x
  node : ∀ x, x ∈ lib.node ↔ ∃ c, Offered cmds c ∧ c.base = "MultiPath" ∧ c.cid = x
  once : lib.source.Nodup ∧ lib.sink.Nodup ∧ lib.edge.Nodup ∧ lib.node.Nodup

/-- The five modules that exist. -/
def shippedModules : List CompModule := [modInputs, modOutputs, modSingle, modMulti, modTerminals]

/-- The script is about the classes and modules that exist only. -/
def ShippedOnly (cmds : List Cmd) : Prop :=
  (∀ m, Cmd.load m ∈ cmds → m ∈ shippedModules) ∧ ∀ c, Mentions cmds c → ∃ m ∈ shippedModules, ∃ d, (c, d) ∈ m.classes

/-- A save registry that goes by the configuration: names are class names, and the loader finds what `byName` finds. -/
structure Registry.Uses {P : Type} (R : Registry P) (cmds : List Cmd) (k : Config) : Prop where
  name : ∀ c, Mentions cmds c → R.name c.cid = c.name.toList
  lookup : ∀ n : String, R.lookup n.toList = (match k.byName n with | .ok c => some c.cid | .error _ => none)

/-- The name under which the class of a parameter table is written in the code (`inputs.py`, `outputs.py`, `single_path.py`, `multi_path.py`,
`terminals.py`). -/
def Part.className : Part → String
  | .terminalSource => "TerminalSource" | .terminalSink => "TerminalSink" | .splitter => "VariablePowerSplitter" | .freqSplitter => "FrequencySplitter"
  | .pulsedLaser => "PulsedLaser" | .cwLaser => "ContinuousWaveLaser" | .noisySignal => "NoisySignal" | .impulse => "Impulse"
  | .meter => "MeasurementDevice" | .fieldMeter => "ElectricFieldMeasurementDevice" | .photodiode => "Photodiode"
  | .dispersiveFiber => "DispersiveFiber" | .attenuator => "VariableOpticalAttenuator" | .phaseModulator => "PhaseModulator"
  | .intensityModulator => "IntensityModulator" | .waveShaper => "WaveShaper" | .splitDelay => "IntegratedSplitAndDelayLine" | .amplifier => "OpticalAmplifier"
  | .programmableFilter => "ProgrammableFilter" | .squareFilter => "SquareFilter" | .delayLine => "DelayLine" | .integratedDelay => "IntegratedDelayLine"
  | .waveguide => "Waveguide" | .phaseShifter => "PhaseShifter"

end Verif
