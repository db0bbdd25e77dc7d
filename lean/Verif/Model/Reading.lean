import Verif.Model.Tables
import Verif.Model.Physics
/-!
# How the components read their parameters

The first lines of each `propagate` in `simulator/fiber/node_types_subclasses/single_path.py` and `multi_path.py`.
-/

namespace Verif

variable {n : Nat}

/-- The component a class is with the list `self.parameters`, on an edge: `DispersiveFiber` (`single_path.py:61`), `VariableOpticalAttenuator` (109),
`PhaseModulator` (176-178), `IntensityModulator` (226-228, the fourth parameter is not read), `WaveShaper` (283-284), `IntegratedSplitAndDelayLine` (357),
`OpticalAmplifier` (the order of line 439), `ProgrammableFilter` (649-650; `_number_of_bases` is the 10 of line 606, whatever `number_of_bases` is later), `SquareFilter` (704), `DelayLine` (766), `IntegratedDelayLine` (824; the factor
`1e-12` is in `intDelayLine`), `Waveguide`, `PhaseShifter` (910).  The sources and the detectors are `rest`.  An entry missing from the list, which raises
`IndexError` in Python, is read as 0: the lists have the length of the class (C75). -/
def Part.optic (S : Settings) (rest : Part → List ℝ → Optic n) : Part → List ℝ → Optic n
  | .dispersiveFiber, ps => .fiber (ps.getD 0 0)
  | .attenuator, ps => .voa (ps.getD 0 0)
  | .phaseModulator, ps => .phaseMod (ps.getD 0 0) (ps.getD 1 0) (ps.getD 2 0)
  | .intensityModulator, ps => .intensityMod (ps.getD 0 0) (ps.getD 1 0) (ps.getD 2 0)
  | .waveShaper, ps => .waveShaper (ps.take S.bins) (ps.drop S.bins)
  | .splitDelay, ps => .splitDelay ps
  | .amplifier, ps => .edfa ⟨ps.getD 0 0, ps.getD 1 0, ps.getD 2 0, ps.getD 3 0, ps.getD 4 0, ps.getD 5 0, ps.getD 6 0, ps.getD 7 0, ps.getD 8 0⟩
  | .programmableFilter, ps => .progFilter (ps.take 10) (ps.drop 10)
  | .squareFilter, ps => .squareFilter (ps.getD 0 0)
  | .delayLine, ps => .delayLine (ps.getD 0 0)
  | .integratedDelay, ps => .intDelayLine (ps.getD 0 0)
  | .waveguide, _ => .waveguide
  | .phaseShifter, ps => .phaseShifter (ps.getD 0 0)
  | p, ps => rest p ps

/-- The component a class is on a node: `PowerSplitter` (`multi_path.py:57`), `FrequencySplitter` (121), the terminals. -/
def Part.connector : Part → List ℝ → Connector
  | .splitter, ps => .splitter ps
  | .freqSplitter, ps => .freqSplitter ps
  | _, _ => .terminal

end Verif
