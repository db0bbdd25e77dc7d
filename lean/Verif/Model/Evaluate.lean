import Verif.Model.Evaluators
import Verif.Model.Propagate
import Verif.Model.Params
import Mathlib.Analysis.Calculus.Deriv.Basic
/-!
# Model of `evaluate_graph` (`simulator/fiber/evaluator_subclasses/`)

What an evaluator does to the process besides computing a score: it propagates, moves the noise switch, and sets parameters of components.
-/

namespace Verif
open Graph

variable {n : Nat}

/-- What evaluations read and write: the parameters of all component objects, the class variable `AdditiveNoise.simulate_with_noise`, and the
stored states of the design at hand.  After an exception in `propagate` the stored states are a partial result in Python; the model keeps the old ones.
Read and written in `lib/graph.py:291-326` and by the `evaluate_graph` of each evaluator. -/
structure Session (n : Nat) where
  params : ModelId → List ℝ
  flag : Bool
  saves : Store (Signal n)

/-- The components' behaviour for each value of the noise switch and of all parameters.
Read and written in `lib/graph.py:291-326` and by the `evaluate_graph` of each evaluator. -/
abbrev Sim (n : Nat) := Bool → (ModelId → List ℝ) → Behav (Signal n)

/-- `model.parameters = ps`. `simulator/fiber/evaluator_subclasses/evaluator_phase_sensitivity.py:22-112`. -/
def Session.setParams (w : Session n) (m : ModelId) (ps : List ℝ) : Session n := { w with params := fun x => if x = m then ps else w.params x }

/-- `graph.propagate(propagator)` (`lib/graph.py:291-326`), `inp` being the state of the propagator. -/
def Session.propagate (g : Graph) (B : Sim n) (inp : Signal n) (w : Session n) : Session n × Except Err Unit :=
  match Verif.propagate g (B w.flag w.params) inp w.saves with
  | .error e => (w, .error e)
  | .ok st => ({ w with saves := st }, .ok ())

/-- `graph.measure_propagator(key)` (`lib/graph.py:328-329`). -/
def Session.measure (w : Session n) (k : Key) : Except Err (Signal n) :=
  match w.saves k with
  | none => .error .keyError
  | some s => .ok s

/-- The evaluators, by what their `evaluate_graph` does around the score. `lib/base_classes.py:99-105`. -/
inductive Evaluator (n : Nat) where
  /-- `FilterDesign`, `NoiseSuppression`, `PulseRepetition`: propagate, measure at a node, score. -/
  | plain (k : Key) (score : Signal n → Except Err ℝ)
  /-- `OpticalNotGate`: the same at `get_output_node()`. -/
  | atOutput (score : Signal n → Except Err ℝ)
  /-- `DiscreteTimeLens`: reads the edge `(0, 1, 0)` as well. -/
  | timeLens (k : Key) (score : Signal n → Signal n → Except Err ℝ)
  /-- `RadioFrequencyWaveformGeneration`: does not propagate. -/
  | stored (k : Key) (score : Signal n → Except Err ℝ)
  /-- `SignalNoiseRatio`. -/
  | snr (k : Key)
  /-- `PhaseSensitivity` with the class of its `phase_model`. -/
  | phase (cls : ClassId) (k : Key)
  /-- `SecondOrderDifferentialSensitivity` with its two `phase_model` objects and the class of the first. -/
  | second (cls : ClassId) (m1 m2 : ModelId) (k : Key)

/-- Propagate, then measure. `lib/graph.py:291-330`. -/
def Session.run (g : Graph) (B : Sim n) (inp : Signal n) (k : Key) (w : Session n) : Session n × Except Err (Signal n) :=
  match w.propagate g B inp with
  | (w1, .error e) => (w1, .error e)
  | (w1, .ok _) => (w1, w1.measure k)

/-- `_function` of `PhaseSensitivity` (`evaluator_phase_sensitivity.py:24-29`): set the phase, propagate, mean of the measured state (real, behind
a power meter; the model takes the real part). -/
noncomputable def phaseMean (g : Graph) (B : Sim n) (inp : Signal n) (k : Key) (m : ModelId) (w : Session n) (x : ℝ) : Session n × Except Err ℝ :=
  match (w.setParams m [x]).run g B inp k with
  | (w1, .error e) => (w1, .error e)
  | (w1, .ok s) => (w1, .ok (npMean (fun i => (s i).re)))

/-- `_function_phase_both` (`evaluator_phase_sensitivity.py:70-76`): both phases, mean of the squares. -/
noncomputable def phaseMeanBoth (g : Graph) (B : Sim n) (inp : Signal n) (k : Key) (m1 m2 : ModelId) (w : Session n) (x y : ℝ) : Session n × Except Err ℝ :=
  match ((w.setParams m1 [x]).setParams m2 [y]).run g B inp k with
  | (w1, .error e) => (w1, .error e)
  | (w1, .ok s) => (w1, .ok (npMean (fun i => (s i ^ 2).re)))

/-- A score, `0` where there is none: the function that is differentiated.
`simulator/fiber/evaluator_subclasses/evaluator_phase_sensitivity.py:22-112`. -/
noncomputable def valueOf (r : Except Err ℝ) : ℝ :=
  match r with
  | .ok x => x
  | .error _ => 0

/-- The edges whose model has class `c`, in the order of `graph.edges`.
`simulator/fiber/evaluator_subclasses/evaluator_phase_sensitivity.py:22-112`. -/
def edgesOfClass (g : Graph) (c : ClassId) : List Edge := g.edges.filter (fun e => e.comp.cls = c)

/-- `evaluator.evaluate_graph(graph, propagator)`: `evaluator_filter_design.py:24-39`, `evaluator_noise_suppression.py:43-50`,
`evaluator_pulserep.py:39-44`, `evaluator_notgate.py:33-41`, `evaluator_discrete_time_lens.py:23-50`, `evaluator_rfawg.py:55-60`,
`evaluator_snr.py:24-38`, `evaluator_phase_sensitivity.py:22-46`, 69-111.  `grad` is the derivative; it calls the function once, at the point of
differentiation, which is why parameters and stored states are those of one call. Division by zero (a warning and `nan` in numpy) is an error here. -/
noncomputable def evaluate (g : Graph) (B : Sim n) (inp : Signal n) (E : Evaluator n) (w : Session n) : Session n × Except Err ℝ :=
  match E with
  | .plain k score =>
    match w.run g B inp k with
    | (w1, .error e) => (w1, .error e)
    | (w1, .ok s) => (w1, score s)
  | .atOutput score =>
    match outputNode g with
    | .error e => (w, .error e)
    | .ok v =>
      match w.run g B inp (.node v) with
      | (w1, .error e) => (w1, .error e)
      | (w1, .ok s) => (w1, score s)
  | .timeLens k score =>
    match w.run g B inp (.edge ⟨0, 1, 0⟩) with
    | (w1, .error e) => (w1, .error e)
    | (w1, .ok s0) =>
      match w1.measure k with
      | .error e => (w1, .error e)
      | .ok s => (w1, score s0 s)
  | .stored k score =>
    match w.measure k with
    | .error e => (w, .error e)
    | .ok s => (w, score s)
  | .snr k =>
    match ({ w with flag := false } : Session n).run g B inp k with
    | (w1, .error e) => (w1, .error e)
    | (w1, .ok s1) =>
      match ({ w1 with flag := true } : Session n).run g B inp k with
      | (w2, .error e) => (w2, .error e)
      | (w2, .ok s2) =>
        open Classical in
        if ∃ i, ‖s1 i‖ = 0 then (w2, .error .zeroDivision)
        else (w2, .ok (npMean (fun i => (‖s1 i‖ - ‖s2 i‖) / ‖s1 i‖)))
  | .phase cls k =>
    match edgesOfClass g cls with
    | [e] =>
      match w.params e.comp.uid with
      | [] => (w, .error .indexError)
      | φ :: _ =>
        match phaseMean g B inp k e.comp.uid w φ with
        | (w1, .error x) => (w1, .error x)
        | (w1, .ok _) =>
          (w1.setParams e.comp.uid [φ], .ok (-|deriv (fun x => valueOf (phaseMean g B inp k e.comp.uid w x).2) φ|))
    | _ => (w, .error .runtimeError)
  | .second cls m1 m2 k =>
    if (edgesOfClass g cls).length < 2 then (w, .error .runtimeError)
    else
      match w.params m1, w.params m2 with
      | φ1 :: _, φ2 :: _ =>
        match phaseMeanBoth g B inp k m1 m2 w φ1 φ2 with
        | (w1, .error x) => (w1, .error x)
        | (w1, .ok _) =>
          let f := fun x y => valueOf (phaseMeanBoth g B inp k m1 m2 w x y).2
          ((w1.setParams m1 [φ1]).setParams m2 [φ2],
            .ok (-(|deriv (fun x => f x φ2) φ1| + (deriv (fun y => deriv (fun x => f x y) φ1) φ2) ^ 2)))
      | _, _ => (w, .error .indexError)

/-! ### The evaluators of the library -/

/-- `FilterDesign`. `simulator/fiber/evaluator_subclasses/evaluator_filter_design.py:12-62`. -/
noncomputable def filterDesign (P : Prop_ n) (target : Fin n → ℝ) (sink : NodeId) : Evaluator n := .plain (.node sink) (filterDesignScore P target)

/-- `NoiseSuppression`. `simulator/fiber/evaluator_subclasses/evaluator_noise_suppression.py:11-110`. -/
noncomputable def noiseSuppression (trueSignal : Signal n) (sink : NodeId) : Evaluator n :=
  .plain (.node sink) (fun s => .ok (noiseSuppressionScore trueSignal s))

/-- `PulseRepetition`; of its complex score the real part. `simulator/fiber/evaluator_subclasses/evaluator_pulserep.py:11-110`. -/
noncomputable def pulseRepetition (P : Prop_ n) (tp : Fin n → ℝ) (repF : ℝ) (sink : NodeId) : Evaluator n :=
  .plain (.node sink) (fun s => match pulseScore P tp repF s with | .error e => .error e | .ok z => .ok z.re)

/-- `OpticalNotGate`. `simulator/fiber/evaluator_subclasses/evaluator_notgate.py:15-122`. -/
noncomputable def notGate (target : Signal n) : Evaluator n := .atOutput (notGateScore target)

/-- `DiscreteTimeLens`. `simulator/fiber/evaluator_subclasses/evaluator_discrete_time_lens.py:12-73`. -/
noncomputable def timeLens (P : Prop_ n) (osc : Fin n → ℝ) (sink : NodeId) : Evaluator n := .timeLens (.node sink) (timeLensScore P osc)

/-- `RadioFrequencyWaveformGeneration`. `simulator/fiber/evaluator_subclasses/evaluator_rfawg.py:14-117`. -/
noncomputable def rfWaveform (P : Prop_ n) (target : Fin n → ℝ) (amplitude harmonic : ℝ) (sink : NodeId) : Evaluator n :=
  .stored (.node sink) (rfScore P target amplitude harmonic)

/-- `_function` of `function_wrapper` (`lib/graph.py:125-129`) after the parameters have been distributed: propagate, then evaluate. -/
noncomputable def propagateAndEvaluate (g : Graph) (B : Sim n) (inp : Signal n) (E : Evaluator n) (w : Session n) : Session n × Except Err ℝ :=
  match w.propagate g B inp with
  | (w1, .error e) => (w1, .error e)
  | (w1, .ok _) => evaluate g B inp E w1

end Verif
