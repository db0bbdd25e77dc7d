import Verif.Model.Components
import Verif.Model.Propagate
import Mathlib.Analysis.SpecialFunctions.Log.Base
/-!
# Plots: axes with units, comparison with the target, states along a design

`lib/functions.py:246-299` (`scale_units`), `compare` of the evaluators, `inspect_state` and `visualize_transforms` (`simulator/fiber/graph.py`).
Matplotlib's axes are the part of them that these functions read and write: lines with their data, and the labels.
-/

namespace Verif
open Complex

/-- The strings in the argument `axes` of `scale_units`. Part of the model of `lib/functions.py:246-299`. -/
inductive AxisName
  | x | y | z
  | other (s : String)
  deriving DecidableEq

/-- A `Line2D`: `get_xdata`, `get_ydata`. Part of the model of `lib/functions.py:246-299`. -/
structure PlotLine where
  xdata : List ℝ
  ydata : List ℝ

/-- `matplotlib.axes.Axes`: `lines`, `get_xlabel`, `get_ylabel`. Part of the model of `lib/functions.py:246-299`. -/
structure PlotAxes where
  lines : List PlotLine
  xlabel : String
  ylabel : String

/-- `prefixes` (lines 248-261). -/
def unitPrefix : ℤ → Option String
  | 18 => some "E"
  | 15 => some "P"
  | 12 => some "T"
  | 9 => some "G"
  | 6 => some "M"
  | 3 => some "k"
  | 0 => some ""
  | -3 => some "m"
  | -6 => some "$\\mu$"
  | -9 => some "n"
  | -12 => some "p"
  | -15 => some "f"
  | -18 => some "a"
  | -21 => some "z"
  | _ => none

/-- `max(abs(data))`; `ValueError` for no data. Part of the model of `lib/functions.py:246-299`. -/
noncomputable def maxAbs : List ℝ → Except Err ℝ
  | [] => .error .valueError
  | a :: l => .ok (l.foldl (fun m b => max m |b|) |a|)

/-- `scale` (lines 247-267).  For data that are all zero `np.log10` gives `-inf` and `int` raises `OverflowError` (here `runtimeError`). -/
noncomputable def scaleOf (data : List ℝ) : Except Err (ℤ × String) :=
  match maxAbs data with
  | .error e => .error e
  | .ok m =>
    if m = 0 then .error .runtimeError
    else
      let multiplier := 3 * ⌊Real.logb 10 m / 3⌋
      match unitPrefix multiplier with
      | none => .error .keyError
      | some p => .ok (multiplier, p)

/-- `set_data(data / 10 ** multiplier)` (line 291). -/
noncomputable def divData (k : ℤ) (data : List ℝ) : List ℝ := data.map (· / (10 : ℝ) ^ k)

/-- The body of the loop over `axes` (lines 283-297) with the handles of lines 269-277.  The name of another axis leaves the handles unbound
(`UnboundLocalError`), lines have no `get_zdata`. -/
noncomputable def scaleAxis (unit : String) (first : PlotLine) (ax : PlotAxes) : AxisName → PlotAxes × Except Err (ℤ × String)
  | .x =>
    match scaleOf first.xdata with
    | .error e => (ax, .error e)
    | .ok (k, p) => ({ ax with lines := ax.lines.map (fun l => { l with xdata := divData k l.xdata }), xlabel := ax.xlabel ++ (" (" ++ p ++ unit ++ ")") }, .ok (k, p))
  | .y =>
    match scaleOf first.ydata with
    | .error e => (ax, .error e)
    | .ok (k, p) => ({ ax with lines := ax.lines.map (fun l => { l with ydata := divData k l.ydata }), ylabel := ax.ylabel ++ (" (" ++ p ++ unit ++ ")") }, .ok (k, p))
  | .z => (ax, .error .attributeError)
  | .other _ => (ax, .error .nameError)

/-- The loop over `axes` (lines 281-299); `last` is what `multiplier, prefix` hold, `UnboundLocalError` at the `return` when nothing. -/
noncomputable def scaleLoop (unit : String) : List AxisName → PlotAxes → Option (ℤ × String) → PlotAxes × Except Err (Option (ℤ × String))
  | [], ax, last =>
    match last with
    | none => (ax, .error .nameError)
    | some r => (ax, .ok (some r))
  | a :: as, ax, _ =>
    match ax.lines with
    | [] => (ax, .error .indexError)
    | first :: _ =>
      match scaleAxis unit first ax a with
      | (ax', .error e) => (ax', .error e)
      | (ax', .ok r) => scaleLoop unit as ax' (some r)

/-- `scale_units(ax, unit, axes)` (lines 246-300): the axes afterwards and the value returned (`None` without lines). -/
noncomputable def scaleUnits (unit : String) (axes : List AxisName) (ax : PlotAxes) : PlotAxes × Except Err (Option (ℤ × String)) :=
  match ax.lines with
  | [] => (ax, .ok none)
  | _ :: _ => scaleLoop unit axes ax none

/-! ### `compare` of the evaluators -/

/-- Data of a column vector. Part of the model of `lib/functions.py:246-299`. -/
def dataOf {n : Nat} (v : Fin n → ℝ) : List ℝ := List.ofFn v

/-- `ax.plot(y)`: the positions are the abscissa. Part of the model of `lib/functions.py:246-299`. -/
noncomputable def plotIndex (y : List ℝ) : PlotLine := ⟨(List.range y.length).map (fun (i : ℕ) => (i : ℝ)), y⟩

/-- `rfspectrum_` (`functions.py:50-53`): absolute values of the first `n // 2 + 1` bins of the transform of the power. -/
noncomputable def rfSpectrum {n : Nat} (x : Signal n) : List ℝ :=
  ((List.ofFn (npFft (fun i => ((power_ x i : ℝ) : ℂ)))).take (n / 2 + 1)).map (fun z => ‖z‖)

/-- Attributes `target` of the evaluators with this `compare`: `none` where there is no such attribute (`NoiseSuppression`).
Part of the model of `lib/functions.py:246-299`. -/
abbrev TargetAttr (n : Nat) := Option (Fin n → ℝ)

/-- `compare` of `PulseRepetition` (`evaluator_pulserep.py:89-107`), `RadioFrequencyWaveformGeneration` (`evaluator_rfawg.py:99-117`) and `NoiseSuppression`
(`evaluator_noise_suppression.py:89-107`): the two figures, or the exception.  The output node is looked up in the design and its state in what
was last propagated. -/
noncomputable def comparePlots {n : Nat} (P : Prop_ n) (target : TargetAttr n) (g : Graph) (st : Store (Signal n)) : Except Err (PlotAxes × PlotAxes) :=
  match outputNode g with
  | .error e => .error e
  | .ok v =>
    match st (.node v) with
    | none => .error .keyError
    | some state =>
      match target with
      | none => .error .attributeError
      | some tg =>
        let first : PlotAxes := ⟨[⟨dataOf P.t, dataOf (power_ state)⟩, ⟨dataOf P.t, dataOf tg⟩], "Time", "Power a.u."⟩
        match scaleUnits "s" [.x] first with
        | (_, .error e) => .error e
        | (a, .ok _) =>
          let second : PlotAxes := ⟨[plotIndex (rfSpectrum state)], "", "Power a.u."⟩
          match scaleUnits "Hz" [.x] second with
          | (_, .error e) => .error e
          | (b, .ok _) => .ok (a, b)

/-! ### `inspect_state` and `visualize_transforms` -/

/-- The loop of `inspect_state` (`simulator/fiber/graph.py:596-605`): the states that are drawn, node by node; `measure_propagator` raises `KeyError` for
what is not stored (line 334). -/
def inspectLoop {S : Type} (g : Graph) (st : Store S) : List NodeId → Except Err (List S)
  | [] => .ok []
  | v :: vs =>
    match st (.node v) with
    | none => .error .keyError
    | some s =>
      match g.node? v with
      | none => .error .keyError
      | some _ =>
        match inspectLoop g st vs with
        | .error e => .error e
        | .ok l => .ok (s :: l)

/-- `inspect_state` (lines 589-608); `order` is `_propagation_order`, `None` until `update_graph` has run (lines 49, 91-93, 480). -/
def inspectState {S : Type} (g : Graph) (order : Option (List NodeId)) (st : Store S) : Except Err (List S) :=
  match order with
  | none => .error .typeError
  | some o => inspectLoop g st o.reverse

end Verif
