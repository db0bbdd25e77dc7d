import Verif.Model.Graph
import Mathlib.Algebra.Order.Field.Basic
import Mathlib.Analysis.SpecialFunctions.Complex.Circle
/-!
# Model of the power splitter (`simulator/fiber/node_types_subclasses/multi_path.py:17-133`)

Ratios and weights are taken from any ordered field, the transformation of signals is over the complex numbers, for one sample
of the signal (all samples are treated alike).
-/

namespace Verif

section
variable {K : Type} [Field K]

/-- Attributes set by `update_attributes` (lines 35-52); the other lists have the same length and constant entries. -/
structure SplitAttrs (K : Type) where
  params : List K
  lower : List K
  upper : List K
  locks : List Bool
  names : List String

/-- `[1 - 1 / i for i in range(n, 1, -1)]`. Part of the model of `simulator/fiber/node_types_subclasses/multi_path.py:17-133`. -/
def defaultRatios (K : Type) [Field K] : Nat → List K
  | 0 => []
  | 1 => []
  | n + 2 => (1 - 1 / ((n + 2 : Nat) : K)) :: defaultRatios K (n + 1)

/-- `update_attributes` (lines 35-52) by the number of outputs; `[x] * k` is empty for negative `k`. -/
def splitUpdate (K : Type) [Field K] (nOut : Nat) : SplitAttrs K :=
  { params := defaultRatios K nOut
    lower := List.replicate (nOut - 1) 0
    upper := List.replicate (nOut - 1) 1
    locks := List.replicate (nOut - 1) false
    names := (List.range (nOut - 1)).map (fun i => "ratio-" ++ toString i) }

/-- The weights in line 59. -/
def splitWeights (a : List K) : List K :=
  a.zipIdx.map (fun p => (1 - p.1) * (a.take p.2).prod) ++ [a.prod]

/-- The cut-offs of the frequency splitter (lines 121-123). -/
def freqCutoffs (a : List K) : List K :=
  let g := 0 :: splitWeights a
  (List.range (g.length - 1)).map (fun n => (g.take (n + 1)).sum) ++ [1]

end

/-- The phase factor `exp(-1j * 2 * pi * (i / num_inputs + j / num_outputs))` in line 70. -/
noncomputable def splitPhase (nIn nOut i j : Nat) : ℂ :=
  Complex.exp (-(2 * Real.pi * ((i : ℝ) / nIn + (j : ℝ) / nOut) : ℝ) * Complex.I)

/-- One row of the matrix product in line 74. -/
noncomputable def splitRow (nIn nOut : Nat) (w : ℝ) (j : Nat) (s : List ℂ) : ℂ :=
  (s.zipIdx.map (fun p => ((Real.sqrt w / Real.sqrt nOut : ℝ) : ℂ) * splitPhase nIn nOut p.2 j * p.1)).sum

open Classical in
/-- `propagate` (lines 54-76).  Matrices whose sizes do not fit raise `ValueError` (numpy still broadcasts when there is one weight
or one output), a negative weight has no square root (`nan` and a warning in numpy). -/
noncomputable def splitPropagate (a : List ℝ) (nIn nOut : Nat) (s : List ℂ) : Except Err (List ℂ) :=
  let w := splitWeights a
  if s.length ≠ nIn ∨ w.length ≠ nOut then .error .valueError
  else if ∃ x ∈ w, x < 0 then .error .runtimeWarning
  else .ok (w.zipIdx.map (fun p => splitRow nIn nOut p.1 p.2 s))

end Verif
