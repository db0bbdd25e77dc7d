import Verif.Model.Evaluate
import Verif.Model.Layout
import Mathlib.Analysis.SpecialFunctions.Complex.Arg
/-!
# The figure of the hall of fame (`algorithms/topology_optimization.py:582-602`) and the drawing of a design (`lib/graph.py:416-469`)

What is put into the figure; not: sizes, colours, ticks and limits of axes, and the file, which `io.save_fig` (`Model/Files`) writes as `halloffame.png` when the
loop has gone through.  The acronym of a component is an attribute of its class, so the class stands for it.
-/

namespace Verif
open Graph

variable {n : Nat}

/-- An arrow with its label: end points, curvature, class and place of the label (`lib/graph.py:450-465`). -/
structure LabelledArrow where
  start : ℝ × ℝ
  stop : ℝ × ℝ
  rad : ℝ
  label : ClassId
  labelAt : ℝ × ℝ

/-- `_arrow_center` (`lib/graph.py:432-448`); `np.arctan2(y, x)` is the argument of `x + iy`. -/
noncomputable def arrowCentre (p q : ℝ × ℝ) (rad : ℝ) : ℝ × ℝ :=
  let dist := Real.sqrt ((q.1 - p.1) ^ 2 + (q.2 - p.2) ^ 2)
  let theta := Complex.arg ⟨q.1 - p.1, q.2 - p.2⟩ - Real.pi / 2
  (p.1 / 2 + q.1 / 2 + rad * dist * Real.cos theta * (7 / 10), p.2 / 2 + q.2 / 2 + rad * dist * Real.sin theta * (7 / 10))

/-- A drawn design: labels of nodes with their places, in the order of the nodes, and the arrows in the order of the edges.
Part of the model of `algorithms/topology_optimization.py:582-602`, `lib/graph.py:416-469`. -/
structure DrawnDesign where
  nodes : List ((ℝ × ℝ) × ClassId)
  arrows : List LabelledArrow

/-- The labels of the nodes (lines 424-430). -/
noncomputable def drawNodes (pos : NodeId → Option (ℝ × ℝ)) : List Node → Except Err (List ((ℝ × ℝ) × ClassId))
  | [] => .ok []
  | v :: vs =>
    match pos v.id with
    | none => .error .keyError
    | some p =>
      match drawNodes pos vs with
      | .error e => .error e
      | .ok l => .ok ((p, v.comp.cls) :: l)

/-- The arrows (lines 450-465). -/
noncomputable def drawArrows (pos : NodeId → Option (ℝ × ℝ)) : List Edge → Except Err (List LabelledArrow)
  | [] => .ok []
  | e :: es =>
    match pos e.src, pos e.dst with
    | some p, some q =>
      let rad := 4 / 10 * (e.key : ℝ)
      match drawArrows pos es with
      | .error x => .error x
      | .ok l => .ok (⟨p, q, rad, e.comp.cls, arrowCentre p q rad⟩ :: l)
    | _, _ => .error .keyError

/-- `graph.draw(ax)` (lines 416-469).  `u` are the random numbers of the layout, `fuel` the rounds its loop is given: `diverges` when it has not ended by then. -/
noncomputable def drawDesign (g : Graph) (u : NodeId → ℝ) (fuel : Nat) : Except Err DrawnDesign :=
  match g.topoSort with
  | .error e => .error e
  | .ok order =>
    match layout g order fuel with
    | .error e => .error e
    | .ok none => .error .diverges
    | .ok (some row) =>
      let pos := fun v => (row v).map (fun r => ((r : ℝ), u v * 4))
      match drawNodes pos g.nodes with
      | .error e => .error e
      | .ok ns =>
        match drawArrows pos g.edges with
        | .error e => .error e
        | .ok as => .ok ⟨ns, as⟩

/-- An entry of the hall of fame: its score, the design with its stored states, and the attribute `score` of the design.
Part of the model of `algorithms/topology_optimization.py:582-602`, `lib/graph.py:416-469`. -/
structure HofItem (n : Nat) where
  score : ℝ
  g : Graph
  saves : Store (Signal n)
  attr : Option ℝ

/-- A row of the figure: the drawing, the two curves over time, and the text with index and score.
Part of the model of `algorithms/topology_optimization.py:582-602`, `lib/graph.py:416-469`. -/
structure HofRow (n : Nat) where
  design : DrawnDesign
  target : Fin n → ℂ
  solution : Fin n → ℝ
  index : Nat
  score : ℝ

/-- The evaluators of the library. Part of the model of `algorithms/topology_optimization.py:582-602`, `lib/graph.py:416-469`. -/
inductive EvalName where
  | discreteTimeLens | filterDesign | noiseSuppression | opticalNotGate | phaseSensitivity | secondOrder | pulseRepetition | rfWaveform | signalNoiseRatio
deriving DecidableEq, Repr

/-- Whether an evaluator has the attribute `target` (`evaluator_notgate.py:21`, `evaluator_phase_sensitivity.py:19,66`, `evaluator_pulserep.py:19`,
`evaluator_rfawg.py:39-42`, `evaluator_snr.py:22`; `evaluator_discrete_time_lens.py:15-21`, `evaluator_filter_design.py:15-22`,
`evaluator_noise_suppression.py:14-41` set none). -/
def EvalName.hasTarget : EvalName → Bool
  | .discreteTimeLens | .filterDesign | .noiseSuppression => false
  | _ => true

/-- `evaluator.target`, the value being `t` where there is one.
Part of the model of `algorithms/topology_optimization.py:582-602`, `lib/graph.py:416-469`. -/
def EvalName.target (E : EvalName) (t : Fin n → ℂ) : Option (Fin n → ℂ) := if E.hasTarget then some t else none

/-- The loop of `plot_hof` (lines 585-602) from row `i` on.  Parameters and noise switch are those of the process, and propagating does not change them. -/
noncomputable def plotHofLoop (B : Sim n) (inp : Signal n) (params : ModelId → List ℝ) (flag : Bool) (sink : NodeId) (target : Option (Fin n → ℂ)) (u : Nat → NodeId → ℝ) (fuel : Nat) :
    Nat → List (HofItem n) → List (HofItem n) × Except Err (List (HofRow n))
  | _, [] => ([], .ok [])
  | i, x :: xs =>
    let x := { x with attr := some x.score }
    match (⟨params, flag, x.saves⟩ : Session n).run x.g B inp (.node sink) with
    | (w, .error e) => ({ x with saves := w.saves } :: xs, .error e)
    | (w, .ok s) =>
      let x := { x with saves := w.saves }
      match drawDesign x.g (u i) fuel with
      | .error e => (x :: xs, .error e)
      | .ok d =>
        match target with
        | none => (x :: xs, .error .attributeError)
        | some t =>
          match plotHofLoop B inp params flag sink target u fuel (i + 1) xs with
          | (xs', .error e) => (x :: xs', .error e)
          | (xs', .ok rows) => (x :: xs', .ok (⟨d, t, fun j => ‖s j‖, i, x.score⟩ :: rows))

/-- `plot_hof` (lines 582-603): `plt.subplots` raises `ValueError` for no rows (line 584). -/
noncomputable def plotHof (B : Sim n) (inp : Signal n) (params : ModelId → List ℝ) (flag : Bool) (sink : NodeId) (target : Option (Fin n → ℂ)) (u : Nat → NodeId → ℝ) (fuel : Nat)
    (hof : List (HofItem n)) : List (HofItem n) × Except Err (List (HofRow n)) :=
  if hof = [] then (hof, .error .valueError) else plotHofLoop B inp params flag sink target u fuel 0 hof

end Verif
