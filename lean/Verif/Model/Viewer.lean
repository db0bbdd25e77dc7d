import Verif.Model.Copy
import Verif.Model.Save
import Verif.Model.Files
/-!
# Opening a saved design in the viewer (`interactive/model.py`, `interactive/controller.py`)

The model attributes hold what the viewer shows: the design with integers as labels, names of components, the state on each edge, and the table of
parameters.  Positions on the screen and the Bokeh widgets are left out.  What a component object holds is its list of parameters; what it does depends
on its class and on them (`Kinds`).  Noise drawn at random by the components is not covered: the functions of `Kinds` are the same for the
saved and for the opened design.
-/

namespace Verif
open Graph

section
variable {P : Type}

/-- A design as `extract_minimal_graph_info` sees it (`lib/minimal_save.py:29-52`): labels, classes, and the parameters which the component
objects hold. -/
def Graph.described (g : Graph) (h : ModelId → P) : SGraph NodeId P where
  nodes := g.nodes.map (fun n => ⟨n.id, n.comp.cls, h n.comp.uid⟩)
  edges := g.edges.map (fun e => ⟨e.src, e.dst, e.key, e.comp.cls, h e.comp.uid⟩)

/-- `nx.convert_node_labels_to_integers(full_graph, first_label=0, ordering='default')` (`interactive/model.py:93`): the positions in
iteration order as labels; order of nodes and edges and the keys are kept.  The component objects are numbered, nodes first.  Protection, type and
limits of components are not used by the viewer and left out. -/
def relabelled (g : SGraph Str P) : Graph where
  nodes := g.nodes.zipIdx.map (fun x => ⟨x.2, ⟨x.2, x.1.cls, false, .multiPath, 0⟩, x.1.cls⟩)
  edges := g.edges.zipIdx.map (fun x => ⟨g.idx x.1.src, g.idx x.1.dst, x.1.key, ⟨g.nodes.length + x.2, x.1.cls, false, .singlePath, 0⟩, x.1.cls⟩)

end

section
variable {V S O D B : Type}

/-- What the component objects of a loaded design hold. `interactive/model.py:85-146`. -/
def relabelledHeap (g : SGraph Str (List V)) : ModelId → List V := fun m => (g.nodes.map (·.params) ++ g.edges.map (·.params)).getD m []

/-- What the viewer asks of a class: `node_acronym`, `number_of_parameters` and `parameter_names` of an edge component.
`interactive/model.py:148-191`. -/
structure ViewLib where
  acronym : ClassId → Str
  nParams : ClassId → Nat
  paramNames : ClassId → List Str

/-- The names given to the components, nodes first (lines 95-107): the acronym with the number of the component within its class, from 0.
The second argument is `model_type_counts`. -/
def nameNumbers (L : ViewLib) : List ClassId → (ClassId → Option Nat) → List Str
  | [], _ => []
  | c :: cs, counts =>
    let k := match counts c with
      | none => 0
      | some k => k + 1
    (L.acronym c ++ decimal k) :: nameNumbers L cs (fun d => if d = c then some k else counts d)

/-- A design as it is shown: `self.graph` with the objects, the names and the stored states. `interactive/model.py:85-146`. -/
structure Opened (S V : Type) where
  graph : Graph
  heap : ModelId → List V
  names : List Str
  saves : Store S

/-- Why a design could not be opened: the disk, or an exception. `interactive/model.py:85-146`. -/
inductive ViewErr where
  | io (e : IoErr)
  | run (e : Err)
deriving DecidableEq, Repr

/-- `pathlib.Path(folder).joinpath(file)`, opened in the working directory `cwd` (lines 24, 112, 117). -/
def viewPath (cwd : List FName) (folder file : List Char) : List FName := joinTo (joinTo cwd (.ofStr folder)) (.ofStr file)

/-- What the viewer makes of a loaded design (lines 95-107, 126); `K` and `inp` belong to the propagator. -/
def showDesign (L : ViewLib) (K : Kinds S (List V)) (inp : S) (g : SGraph Str (List V)) : Except Err (Opened S V) :=
  match propagate (relabelled g) (K.behav (relabelledHeap g)) inp Store.empty with
  | .error e => .error e
  | .ok st => .ok ⟨relabelled g, relabelledHeap g, nameNumbers L (g.nodes.map (·.cls) ++ g.edges.map (·.cls)) (fun _ => none), st⟩

/-- `Model.load_new_graph` (lines 82-128) up to the simulation.  `info` is the access to `json_data['graph_info']`
and its entries, `sim` what a propagator makes the components do and the state it launches.  Of the evaluator only its presence matters:
`initialize_func_grad_hess` calls nothing. -/
def openDesign (C : Coding O D B) (R : Registry (List V)) (L : ViewLib) (info : D → Except Err (Saved (List V)))
    (sim : O → Kinds S (List V) × S) (disk : Disk B) (cwd : List FName) (folder file : List Char) : Except ViewErr (Opened S V) :=
  match decoded (readFile disk (viewPath cwd folder file)) C.loadJson with
  | .error e => .error (.io e)
  | .ok d =>
    match info d with
    | .error e => .error (.run e)
    | .ok s =>
      match loadGraph R s with
      | .error e => .error (.run e)
      | .ok g =>
        match decoded (readFile disk (viewPath cwd folder "propagator.pkl".toList)) C.loadObj with
        | .error e => .error (.io e)
        | .ok p =>
          match decoded (readFile disk (viewPath cwd folder "evaluator.pkl".toList)) C.loadObj with
          | .error e => .error (.io e)
          | .ok _ =>
            match showDesign L (sim p).1 (sim p).2 g with
            | .error e => .error (.run e)
            | .ok o => .ok o

/-- The attributes of the viewer's model after `load_new_graph`: an exception comes before the first assignment (line 128). -/
def viewLoad (old : Option (Opened S V)) (r : Except ViewErr (Opened S V)) : Option (Opened S V) :=
  match r with
  | .ok o => some o
  | .error _ => old

/-- `table_edge_data[i]` (lines 173-183): parameters, their names, and the name of the component once for each parameter. -/
def Opened.row (L : ViewLib) (o : Opened S V) (i : Nat) : Option (List V × List Str × List Str) :=
  match o.graph.edges[i]? with
  | none => none
  | some e => some (o.heap e.comp.uid, L.paramNames e.comp.cls, List.replicate (L.nParams e.comp.cls) (o.names.getD (o.graph.nodes.length + i) []))

/-- `Controller.update_table_data` (`interactive/controller.py:34-40`). -/
def Opened.table (L : ViewLib) (o : Opened S V) : List Nat → Except Err (List V × List Str × List Str)
  | [] => .ok ([], [], [])
  | i :: is =>
    match o.row L i with
    | none => .error .keyError
    | some (a, b, c) =>
      match o.table L is with
      | .error e => .error e
      | .ok (x, y, z) => .ok (a ++ x, b ++ y, c ++ z)

/-- The state plotted for edge `i` (`interactive/model.py:196-197`). -/
def Opened.plotted (o : Opened S V) (i : Nat) : Except Err S :=
  match o.graph.edges[i]? with
  | none => .error .keyError
  | some e =>
    match o.saves (.edge e.ref) with
    | none => .error .keyError
    | some s => .ok s

/-- A label as evaluators and scripts write it. `lib/graph.py:328-329`. -/
inductive PyLabel where
  | str (s : Str)
  | int (n : Nat)
deriving DecidableEq, Repr

/-- The labels of a loaded design, before the viewer renumbers it and after. `interactive/model.py:85-146`. -/
def loadedLabels {P : Type} (g : SGraph Str P) : List PyLabel := g.nodes.map (fun n => .str n.label)

/-- `interactive/model.py:85-146`. -/
def viewerLabels {P : Type} (g : SGraph Str P) : List PyLabel := (List.range g.nodes.length).map .int

/-- `graph.measure_propagator(node)` (`lib/graph.py:328-329`) with a label, as in `evaluate_graph` of the evaluators (`measure_propagator(self.evaluation_node)`, e.g.
`evaluator_rfawg.py:59`): the label names the node in its position. -/
def measureAt (labels : List PyLabel) (saves : Store S) (l : PyLabel) : Except Err S :=
  if l ∈ labels then
    match saves (.node (labels.idxOf l)) with
    | none => .error .keyError
    | some s => .ok s
  else .error .keyError

end

end Verif
