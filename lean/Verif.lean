import Verif.Lemmas.Best
import Verif.Lemmas.Coherence
import Verif.Lemmas.Components
import Verif.Lemmas.Contin
import Verif.Lemmas.Copy
import Verif.Lemmas.Dark
import Verif.Lemmas.Drawing
import Verif.Lemmas.EditCompose
import Verif.Lemmas.Energy
import Verif.Lemmas.Evolver
import Verif.Lemmas.Family
import Verif.Lemmas.Files
import Verif.Lemmas.Fourier
import Verif.Lemmas.Ga
import Verif.Lemmas.Graph
import Verif.Lemmas.Grow
import Verif.Lemmas.Hof
import Verif.Lemmas.Interferometer
import Verif.Lemmas.Layout
import Verif.Lemmas.Library
import Verif.Lemmas.Lineage
import Verif.Lemmas.Ops
import Verif.Lemmas.OpsMore
import Verif.Lemmas.Params
import Verif.Lemmas.Physics
import Verif.Lemmas.Propagate
import Verif.Lemmas.Registry
import Verif.Lemmas.Rename
import Verif.Lemmas.Rewrite
import Verif.Lemmas.Roulette
import Verif.Lemmas.Run
import Verif.Lemmas.Save
import Verif.Lemmas.ScheduledRun
import Verif.Lemmas.Schemes
import Verif.Lemmas.Settings
import Verif.Lemmas.Smooth
import Verif.Lemmas.Speciation
import Verif.Lemmas.Symmetry
import Verif.Lemmas.Tables
import Verif.Lemmas.Topo
import Verif.Lemmas.Topology
import Verif.Lemmas.Transfer
import Verif.Lemmas.Tuning
import Verif.Lemmas.Undo
import Verif.Lemmas.Upstream
import Verif.Lemmas.Viewer
import Verif.Model.Adam
import Verif.Model.Ase
import Verif.Model.Benchmarks
import Verif.Model.Caches
import Verif.Model.Closure
import Verif.Model.CommandLine
import Verif.Model.Components
import Verif.Model.Condense
import Verif.Model.Copy
import Verif.Model.Devices
import Verif.Model.Distance
import Verif.Model.Drawing
import Verif.Model.Evaluate
import Verif.Model.Evaluators
import Verif.Model.Evolver
import Verif.Model.Farm
import Verif.Model.Files
import Verif.Model.Ga
import Verif.Model.GainCurve
import Verif.Model.Graph
import Verif.Model.Harness
import Verif.Model.Hessian
import Verif.Model.Hof
import Verif.Model.HofFigure
import Verif.Model.Layout
import Verif.Model.Library
import Verif.Model.Linewidth
import Verif.Model.LogAnalysis
import Verif.Model.Logger
import Verif.Model.Logging
import Verif.Model.Noise
import Verif.Model.NoiseDisplay
import Verif.Model.Objective
import Verif.Model.Ops
import Verif.Model.Optimize
import Verif.Model.Params
import Verif.Model.Physics
import Verif.Model.Plots
import Verif.Model.PropObject
import Verif.Model.Propagate
import Verif.Model.RandomGraph
import Verif.Model.RandomSearch
import Verif.Model.Reading
import Verif.Model.Registry
import Verif.Model.Repeats
import Verif.Model.Resample
import Verif.Model.RunSnr
import Verif.Model.Save
import Verif.Model.Scaled
import Verif.Model.ScheduledRun
import Verif.Model.Schemes
import Verif.Model.Settings
import Verif.Model.Signal
import Verif.Model.Speciation
import Verif.Model.Splitter
import Verif.Model.Switches
import Verif.Model.Tables
import Verif.Model.Targets
import Verif.Model.Topo
import Verif.Model.Topology
import Verif.Model.Tracers
import Verif.Model.Transforms
import Verif.Model.Triangle
import Verif.Model.Tuning
import Verif.Model.Viewer
import Verif.Model.WholeRun
import Verif.Props.Adam
import Verif.Props.AdamReach
import Verif.Props.Alignment
import Verif.Props.Amplifier
import Verif.Props.Ase
import Verif.Props.Benchmarks
import Verif.Props.Best
import Verif.Props.Caches
import Verif.Props.Chain
import Verif.Props.Chances
import Verif.Props.Closure
import Verif.Props.Coherence
import Verif.Props.CommandLine
import Verif.Props.Components
import Verif.Props.Condense
import Verif.Props.Copy
import Verif.Props.Dark
import Verif.Props.DelayNet
import Verif.Props.Diameter
import Verif.Props.Dispersion
import Verif.Props.Distance
import Verif.Props.Drawing
import Verif.Props.Energy
import Verif.Props.Evaluate
import Verif.Props.Evolution
import Verif.Props.Evolver
import Verif.Props.Farm
import Verif.Props.Files
import Verif.Props.Filter
import Verif.Props.Fixture
import Verif.Props.FreqSplitter
import Verif.Props.Fringe
import Verif.Props.Ga
import Verif.Props.GaReach
import Verif.Props.GainCurve
import Verif.Props.Grow
import Verif.Props.Harness
import Verif.Props.Hessian
import Verif.Props.Hof
import Verif.Props.HofFigure
import Verif.Props.Interferometer
import Verif.Props.Knob
import Verif.Props.Layout
import Verif.Props.Library
import Verif.Props.Lineage
import Verif.Props.Linewidth
import Verif.Props.LogAnalysis
import Verif.Props.Logger
import Verif.Props.Logging
import Verif.Props.Means
import Verif.Props.Metrics
import Verif.Props.Noise
import Verif.Props.NoiseDisplay
import Verif.Props.NoiseSpectra
import Verif.Props.Objective
import Verif.Props.Operators
import Verif.Props.Optimize
import Verif.Props.Params
import Verif.Props.Plots
import Verif.Props.Preferential
import Verif.Props.PropObject
import Verif.Props.Propagate
import Verif.Props.RandomGraph
import Verif.Props.RandomSearch
import Verif.Props.Registry
import Verif.Props.Repeats
import Verif.Props.Resample
import Verif.Props.Response
import Verif.Props.Rewrite
import Verif.Props.Rhythm
import Verif.Props.Run
import Verif.Props.RunSnr
import Verif.Props.Save
import Verif.Props.Scaled
import Verif.Props.ScheduledRun
import Verif.Props.Schemes
import Verif.Props.Selection
import Verif.Props.Settings
import Verif.Props.Shaping
import Verif.Props.ShapingMore
import Verif.Props.Sharp
import Verif.Props.Signal
import Verif.Props.Sources
import Verif.Props.Speciation
import Verif.Props.SpeciesRun
import Verif.Props.Splitter
import Verif.Props.Switches
import Verif.Props.Symmetry
import Verif.Props.Tables
import Verif.Props.Talbot
import Verif.Props.Targets
import Verif.Props.Total
import Verif.Props.Tracers
import Verif.Props.Transforms
import Verif.Props.Triangle
import Verif.Props.Tuning
import Verif.Props.TuningMore
import Verif.Props.Undo
import Verif.Props.Upstream
import Verif.Props.Viewer
import Verif.Props.Ways
import Verif.Props.WholeRun
import Verif.Props.Window
import Verif.Spec.Adam
import Verif.Spec.Benchmarks
import Verif.Spec.Best
import Verif.Spec.Caches
import Verif.Spec.Chain
import Verif.Spec.Chances
import Verif.Spec.Closure
import Verif.Spec.CommandLine
import Verif.Spec.Condense
import Verif.Spec.Copy
import Verif.Spec.Dark
import Verif.Spec.DelayNet
import Verif.Spec.Diameter
import Verif.Spec.Distance
import Verif.Spec.Energy
import Verif.Spec.Evaluate
import Verif.Spec.Evolution
import Verif.Spec.Evolver
import Verif.Spec.Farm
import Verif.Spec.Files
import Verif.Spec.FreqSplitter
import Verif.Spec.Fringe
import Verif.Spec.Ga
import Verif.Spec.GaReach
import Verif.Spec.Graph
import Verif.Spec.Grow
import Verif.Spec.Harness
import Verif.Spec.Hessian
import Verif.Spec.Hof
import Verif.Spec.HofFigure
import Verif.Spec.Interferometer
import Verif.Spec.Knob
import Verif.Spec.Layout
import Verif.Spec.Library
import Verif.Spec.Lineage
import Verif.Spec.Linewidth
import Verif.Spec.LogAnalysis
import Verif.Spec.Logger
import Verif.Spec.Logging
import Verif.Spec.NoiseDisplay
import Verif.Spec.Objective
import Verif.Spec.Optimize
import Verif.Spec.Params
import Verif.Spec.Physics
import Verif.Spec.Plots
import Verif.Spec.PropObject
import Verif.Spec.Propagate
import Verif.Spec.RandomGraph
import Verif.Spec.Registry
import Verif.Spec.Repeats
import Verif.Spec.Resample
import Verif.Spec.Response
import Verif.Spec.Rewrite
import Verif.Spec.Rhythm
import Verif.Spec.Save
import Verif.Spec.Scaled
import Verif.Spec.ScheduledRun
import Verif.Spec.Schemes
import Verif.Spec.Settings
import Verif.Spec.Sharp
import Verif.Spec.Signal
import Verif.Spec.Speciation
import Verif.Spec.Switches
import Verif.Spec.Tables
import Verif.Spec.Topology
import Verif.Spec.Total
import Verif.Spec.Tracers
import Verif.Spec.Transforms
import Verif.Spec.Triangle
import Verif.Spec.Undo
import Verif.Spec.Upstream
import Verif.Spec.Viewer
import Verif.Spec.Ways
import Verif.Spec.WholeRun
