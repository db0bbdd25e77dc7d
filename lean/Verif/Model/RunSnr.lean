import Verif.Model.Evaluate
/-!
# Model of `scripts/run_snr.py`
-/

namespace Verif
open Graph

variable {n : Nat}

open Classical in
/-- One cell of the script (`scripts/run_snr.py:53-64` and 77-88): simulate without noise, simulate with noise, print
`np.mean(state_noise / state_noise)`.  `none` is `nan`: numpy divides zero by zero with a warning, and one `nan` makes the mean `nan`.
The difference `noise` is only plotted; the plots are left out. -/
noncomputable def snrCell (g : Graph) (B : Sim n) (inp : Signal n) (k : Key) (w : Session n) : Session n × Except Err (Option ℝ) :=
  match ({ w with flag := false } : Session n).run g B inp k with
  | (w1, .error e) => (w1, .error e)
  | (w1, .ok _) =>
    match ({ w1 with flag := true } : Session n).run g B inp k with
    | (w2, .error e) => (w2, .error e)
    | (w2, .ok stateNoise) =>
      if ∃ i, ‖stateNoise i‖ = 0 then (w2, .ok none) else (w2, .ok (some (npMean (fun i => ‖stateNoise i‖ / ‖stateNoise i‖))))

/-- The script from line 53 on: a cell, `sample_parameters` and `parameters_optimize` (lines 72-74, here any function on sessions), the cell again.
The result is what was printed, the session and the exception that ended the script if there was one. -/
noncomputable def runSnr (g : Graph) (B : Sim n) (inp : Signal n) (k : Key) (optimize : Session n → Session n × Except Err Unit) (w : Session n) :
    List (Option ℝ) × Session n × Option Err :=
  match snrCell g B inp k w with
  | (w1, .error e) => ([], w1, some e)
  | (w1, .ok a) =>
    match optimize w1 with
    | (w2, .error e) => ([a], w2, some e)
    | (w2, .ok _) =>
      match snrCell g B inp k w2 with
      | (w3, .error e) => ([a], w3, some e)
      | (w3, .ok b) => ([a, b], w3, none)

end Verif
