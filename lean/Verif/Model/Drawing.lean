import Verif.Model.Viewer
import Mathlib.Data.Real.Basic
import Mathlib.Data.List.Dedup
/-!
# What the viewer draws and shows (`interactive/model.py`, `interactive/view.py`, `interactive/controller.py`)

The picture of the design (positions, curves), the four plots with their lines, the table, and the Hessian as a heat map.  Floats are real numbers.
Of the Bokeh widgets only the data, the visibility of lines, the label of the button and the selected edges are modelled; colours and tooltips are left out.
-/

namespace Verif
open Graph

/-- The dict `_graph_layout`: positions of the nodes, in the order of the keys (`lib/graph.py:375-414`). -/
abbrev Positions := List (NodeId × ℝ × ℝ)

/-- Python's `min` and `max` of a list with first element `a`. `interactive/model.py:221-230`. -/
noncomputable def minOf (a : ℝ) (l : List ℝ) : ℝ := l.foldl min a

/-- `interactive/model.py:221-230`. -/
noncomputable def maxOf (a : ℝ) (l : List ℝ) : ℝ := l.foldl max a

/-- `((x - xmin) / (xmax - xmin) - 0.5) * 2.0` (`interactive/model.py:228-229`). -/
noncomputable def toUnit (lo hi x : ℝ) : ℝ := ((x - lo) / (hi - lo) - 0.5) * 2.0

/-- The loop which scales the layout in place (lines 223-230).  `min([])` raises `ValueError`; the first node raises `ZeroDivisionError` when all
positions agree in a coordinate. -/
noncomputable def scaled (l : Positions) : Except Err Positions :=
  match l with
  | [] => .error .valueError
  | p :: ps =>
    let xmin := minOf p.2.1 (ps.map (fun q => q.2.1))
    let xmax := maxOf p.2.1 (ps.map (fun q => q.2.1))
    let ymin := minOf p.2.2 (ps.map (fun q => q.2.2))
    let ymax := maxOf p.2.2 (ps.map (fun q => q.2.2))
    if xmax - xmin = 0 then .error .zeroDivision
    else if ymax - ymin = 0 then .error .zeroDivision
    else .ok ((p :: ps).map (fun q => (q.1, toUnit xmin xmax q.2.1, toUnit ymin ymax q.2.2)))

/-- `bezier` at one step (lines 218-219). -/
noncomputable def bezierAt (start stop c1 c2 s : ℝ) : ℝ :=
  (1 - s) ^ 3 * start + 3 * (1 - s) ^ 2 * s * c1 + 3 * (1 - s) * s ^ 2 * c2 + s ^ 3 * stop

/-- `steps = [i / 100. for i in range(100)]` (line 233). -/
noncomputable def drawSteps : List ℝ := (List.range 100).map (fun (i : Nat) => (i : ℝ) / 100)

/-- `graph.number_of_edges(u, v)` (line 235; networkx 2.5, `multigraph.py`: the number of keys between the two nodes). -/
def Graph.parallelCount (g : Graph) (u v : NodeId) : Nat := (g.edges.filter (fun e => e.src = u ∧ e.dst = v)).length

/-- `layout[node]`. `interactive/model.py:221-250`. -/
noncomputable def posOf (l : Positions) (v : NodeId) : Except Err (ℝ × ℝ) :=
  match l.find? (fun q => q.1 = v) with
  | none => .error .keyError
  | some q => .ok q.2

/-- The two control points in `x` (lines 236-239). -/
noncomputable def controlX (xu xv : ℝ) (m k : Nat) : ℝ := xu + (xv - xu) / ((m : ℝ) + 1) * (1 + (k : ℝ))

/-- The curve of one edge (lines 234-244), `m` parallel edges and key `k`. -/
noncomputable def curve (u v : ℝ × ℝ) (m k : Nat) : List ℝ × List ℝ :=
  (drawSteps.map (bezierAt u.1 v.1 (controlX u.1 v.1 m k) (controlX u.1 v.1 m k)), drawSteps.map (bezierAt u.2 v.2 u.2 v.2))

/-- The loop over `graph.edges` (lines 234-244): one curve for each edge. -/
noncomputable def curvesOf (g : Graph) (l : Positions) : List Edge → Except Err (List (List ℝ × List ℝ))
  | [] => .ok []
  | e :: es =>
    match posOf l e.src with
    | .error x => .error x
    | .ok u =>
      match posOf l e.dst with
      | .error x => .error x
      | .ok v =>
        match curvesOf g l es with
        | .error x => .error x
        | .ok cs => .ok (curve u v (g.parallelCount e.src e.dst) e.key :: cs)

/-- `get_optical_system_edge_curves` (lines 215-245): the scaled layout, which replaces the old one, and the curves. -/
noncomputable def edgeCurves (g : Graph) (l : Positions) : Except Err (Positions × List (List ℝ × List ℝ)) :=
  match scaled l with
  | .error e => .error e
  | .ok l' =>
    match curvesOf g l' g.edges with
    | .error e => .error e
    | .ok cs => .ok (l', cs)

/-! ## Plots, table and selection -/

/-- The four plots (`interactive/view.py:120-126`). -/
inductive PlotId where
  | propTime | propFreq | tranTime | tranFreq
deriving DecidableEq, Repr

/-- How many data sets `get_plot_edge_data` puts into a plot for an edge (`interactive/model.py:199-208`); the argument is
the list of `dof` in the component's `transform`, or `None`. -/
def plotCount (tr : Option (List Str)) : PlotId → Nat
  | .propTime => 1
  | .propFreq => 1
  | .tranTime => match tr with
    | none => 0
    | some ds => (ds.filter (fun d => d = ['t'])).length
  | .tranFreq => match tr with
    | none => 0
    | some ds => (ds.filter (fun d => d ≠ ['t'] ∧ d = ['f'])).length

/-- What the viewer's model holds after loading, for each edge in order: `table_edge_data` and the `dof` of the transforms plotted.
`interactive/model.py:175-215`. -/
abbrev Shown (R : Type) := List (R × Option (List Str))

/-- What a loaded design contributes (`get_table_edge_data`, `get_plot_edge_data`); `tr` is what its components recorded as `transform`.
`interactive/model.py:175-215`. -/
def Opened.shown {S V : Type} (L : ViewLib) (o : Opened S V) (tr : ModelId → Option (List Str)) : Shown (List V × List Str × List Str) :=
  o.graph.edges.zipIdx.map (fun x => ((o.heap x.1.comp.uid, L.paramNames x.1.comp.cls,
    List.replicate (L.nParams x.1.comp.cls) (o.names.getD (o.graph.nodes.length + x.2) [])), tr x.1.comp.uid))

/-- State of the window: the data in the viewer's model, `table_source.data` (the rows of the edges; nothing before `{}`), `plot['lines']`
with the `visible` flag of each line, the selected edges, and the label of the button. `interactive/view.py:283-343`. -/
structure Window (R : Type) where
  model : Shown R
  table : List R
  lines : PlotId → Nat → Option (List Bool)
  sel : List Nat
  loading : Bool

/-- The window at the start (`interactive/view.py:30-115`, `interactive/model.py:60-83`): nothing loaded. -/
def Window.start (R : Type) : Window R := ⟨[], [], fun _ _ => none, [], false⟩

section
variable {R : Type}

/-- `if index in plot['lines'].keys(): for line in plot['lines'][index]: line.visible = b` (lines 305-313). -/
def setVisible (b : Bool) (l : Nat → Option (List Bool)) (i : Nat) : Nat → Option (List Bool) :=
  fun j => if j = i then (l j).map (fun bs => bs.map (fun _ => b)) else l j

/-- `update_table_data(new)`: the rows of the selected edges; an unknown index raises `KeyError` (`interactive/controller.py:34-40`). -/
def rowsOf (d : Shown R) : List Nat → Except Err (List R)
  | [] => .ok []
  | i :: is =>
    match d[i]? with
    | none => .error .keyError
    | some r =>
      match rowsOf d is with
      | .error e => .error e
      | .ok rs => .ok (r.1 :: rs)

/-- `edge_selected_callback` (`interactive/view.py:296-315`), run by Bokeh when the selected edges change from `old` to `new`: the table is emptied, then
filled; an exception there ends the callback. -/
def Window.select (w : Window R) (new : List Nat) : Window R :=
  match rowsOf w.model new with
  | .error _ => { w with table := [], sel := new }
  | .ok rs =>
    { w with
      table := rs
      sel := new
      lines := fun p => ((w.sel.filter (fun i => i ∉ new)).dedup).foldl (setVisible false) (new.foldl (setVisible true) (w.lines p)) }

/-- `add_sources` and `add_lines` (lines 269-286): all lines of the loaded design, invisible. -/
def newLines (d : Shown R) (p : PlotId) (i : Nat) : Option (List Bool) :=
  match d[i]? with
  | none => none
  | some r => some (List.replicate (plotCount r.2 p) false)

/-- `button_callback` (lines 320-336), `r` what `load_new_graph` delivers.  The plots are cleared first.  An exception leaves the data of the table and of
the plots in the viewer's model as they were. -/
def Window.load (w : Window R) (r : Except Err (Shown R)) : Window R :=
  match r with
  | .error _ => { w with lines := fun _ _ => none, loading := true }
  | .ok d => { w with model := d, lines := newLines d, loading := false }

/-- What the user does. `interactive/view.py:283-343`. -/
inductive Act (R : Type) where
  | select (new : List Nat)
  | load (r : Except Err (Shown R))

/-- `interactive/view.py:283-343`. -/
def Window.act (w : Window R) : Act R → Window R
  | .select new => w.select new
  | .load r => w.load r

/-- `interactive/view.py:283-343`. -/
def Window.acts (w : Window R) (as : List (Act R)) : Window R := as.foldl Window.act w

end

/-! ## The Hessian -/

/-- A cell of the heat map. `interactive/view.py:239-242`. -/
structure HeatCell where
  x : Nat
  y : Nat
  value : ℝ
  logValue : ℝ
  xName : Str
  yName : Str

/-- `graph_hessian_data` (`interactive/model.py:247-256`, `interactive/controller.py:70-83`): `flatten` goes row by row; column `c` of row `r` lies at
`x = c`, and at `y = n - 1 - r` by the `flip`.  The names come from `meshgrid(text, text)`. -/
noncomputable def heatCells (n : Nat) (hess : Nat → Nat → ℝ) (text : Nat → Str) : List HeatCell :=
  (List.range n).flatMap (fun r => (List.range n).map (fun c => ⟨c, n - 1 - r, hess r c, 1 + |hess r c|, text c, text r⟩))

/-- `f'{p}-{c}'` (line 250). -/
def paramText (p c : Str) : Str := p ++ ['-'] ++ c

/-- A bar of the eigenvector plot. `interactive/view.py:199-237`. -/
structure EigenBar where
  x : Nat
  bottom : ℝ
  top : ℝ
  weight : ℝ
  eigenValue : ℝ
  name : Str

/-- `add_lha_eigenvectors` (`interactive/view.py:194-231`): the names are the flattened `x_name` of the Hessian, the other columns go eigenvector by
eigenvector; bar number `q` takes entry `q` of each. -/
noncomputable def eigenBars (n : Nat) (vals : Nat → ℝ) (vecs : Nat → Nat → ℝ) (text : Nat → Str) : List EigenBar :=
  List.zipWith (fun (b : Str → EigenBar) (c : HeatCell) => b c.xName)
    ((List.range n).flatMap (fun (i : Nat) => (List.range n).map (fun (j : Nat) => fun name =>
      ⟨j, 2 * ((i : Nat) : ℝ), 2 * ((i : Nat) : ℝ) + vecs j i, vecs j i, vals i, name⟩)))
    (heatCells n (fun _ _ => 0) text)

/-- Upper end of `eigen_plot.y_range` (line 230). -/
def eigenRangeEnd (n : Nat) : Nat := n + 2

end Verif
