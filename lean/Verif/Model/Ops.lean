import Verif.Model.Topo
/-!
# Model of the evolution operators
(`simulator/fiber/evolution_operators/evolution_operators.py`, whole file)
-/

namespace Verif
open Graph

/-- The sets of component classes an operator instance draws from
(`lib/base_classes.py:125-128`; Python sets of classes, here lists). -/
structure Library where
  source : List ClassId
  sink : List ClassId
  edge : List ClassId
  node : List ClassId
deriving Repr

/-- A place where an operator can act: node, edge, `Interface`, or pair of nodes.
`simulator/fiber/evolution_operators/evolution_operators.py:34`, `simulator/fiber/evolution_operators/evolution_operators.py:95`, `simulator/fiber/evolution_operators/evolution_operators.py:140`, `simulator/fiber/evolution_operators/evolution_operators.py:187`. -/
inductive Loc where
  | node (v : NodeId)
  | edge (r : EdgeRef)
  | iface (i : Iface)
  | pair (u v : NodeId)
deriving DecidableEq, Repr

/-- The four registered operators. `simulator/fiber/evolution_operators/evolution_operators.py:21-244`. -/
inductive Op where
  | addSeries | addParallel | remove | swap
deriving DecidableEq, Repr

/-! ### AddSeriesComponent (lines 19-76) -/

/-- `AddSeriesComponent.apply_evolution` (lines 34-65).  `nid` is the value of `uuid4()`
(`get_next_valid_node_ID`), `ec`/`nc` the freshly constructed edge and node components. -/
def addSeries (g : Graph) (i : Iface) (nid : NodeId) (ec nc : Comp) : Except Err Graph :=
  match g.edge? i.edge with
  | none => .error .keyError
  | some e =>
    let g1 := (g.addNode nid nc nc.cls).removeEdge i.edge
    if i.node = i.edge.src then
      .ok ((g1.addEdge i.node nid ec ec.cls).addEdge nid i.edge.dst e.comp e.name)
    else
      .ok ((g1.addEdge i.edge.src nid e.comp e.name).addEdge nid i.node ec ec.cls)

/-- `AddSeriesComponent.possible_evo_locations` (lines 67-76). -/
def seriesLocs (g : Graph) : List Iface := g.interfaces

/-! ### AddParallelComponent (lines 79-119) -/

/-- `AddParallelComponent.apply_evolution` (lines 95-103), for existing nodes. -/
def addParallel (g : Graph) (u v : NodeId) (ec : Comp) : Graph :=
  g.addEdge u v ec ec.cls

/-- `itertools.combinations(l, 2)`. `simulator/fiber/evolution_operators/evolution_operators.py:119`. -/
def pairs {α : Type} : List α → List (α × α)
  | [] => []
  | x :: xs => xs.map (fun y => (x, y)) ++ pairs xs

/-- Filter condition of `AddParallelComponent.possible_evo_locations` (lines 114-118); note that the
*input* range is used for the out-degree as well. -/
def parallelOk (g : Graph) (v : NodeId) : Bool :=
  match g.node? v with
  | none => false
  | some n => g.inDeg v ≠ 0 ∧ g.outDeg v ≠ 0 ∧ ¬ n.comp.prot ∧
      g.inDeg v < n.comp.maxIn ∧ g.outDeg v < n.comp.maxIn

/-- `AddParallelComponent.possible_evo_locations` (lines 105-119), for the order returned by the
topological sort. -/
def parallelLocs (g : Graph) (order : List NodeId) : List (NodeId × NodeId) :=
  pairs (order.filter (parallelOk g))

/-! ### RemoveComponent (lines 122-172) -/

/-- `RemoveComponent.apply_evolution` (lines 140-163). -/
def removeComp (g : Graph) (i : Iface) : Except Err Graph :=
  match g.edge? i.edge with
  | none => .error .keyError
  | some _ =>
    let g1 := g.removeEdge i.edge
    if g1.hasPath i.edge.src i.edge.dst then .ok g1
    else
      match g1.node? i.node with
      | none => .error .keyError
      | some keep =>
        -- line 151-153: contract, then `graph.nodes[u].update(**save_node_dict)`
        .ok ((g1.contract i.edge.src i.edge.dst).setNode i.edge.src
          (fun n => { n with comp := keep.comp, name := keep.name }))

/-- Model lookup helper: is the model at node `v` protected (missing node: treated as protected).
`simulator/fiber/evolution_operators/evolution_operators.py:169-171`, `simulator/fiber/evolution_operators/evolution_operators.py:238-240`. -/
def nodeProt (g : Graph) (v : NodeId) : Bool :=
  match g.node? v with
  | none => true
  | some n => n.comp.prot

/-- `simulator/fiber/evolution_operators/evolution_operators.py:169-171`, `simulator/fiber/evolution_operators/evolution_operators.py:238-240`. -/
def edgeProt (g : Graph) (r : EdgeRef) : Bool :=
  match g.edge? r with
  | none => true
  | some e => e.comp.prot

/-- `RemoveComponent.possible_evo_locations` (lines 165-172). -/
def removeLocs (g : Graph) : List Iface :=
  g.interfaces.filter (fun i =>
    g.inDeg i.edge.src ≠ 0 ∧ g.outDeg i.edge.dst ≠ 0 ∧ ¬ edgeProt g i.edge ∧
    ¬ nodeProt g i.edge.src ∧ ¬ nodeProt g i.edge.dst)

/-! ### SwapComponent (lines 175-244) -/

/-- Which library set applies at an edge (lines 195-203 and 230-235). -/
def edgeCategory (lib : Library) (g : Graph) (r : EdgeRef) : List ClassId :=
  if (g.node? r.src).map (·.comp.ntype) = some .sourceNode then lib.source
  else if (g.node? r.dst).map (·.comp.ntype) = some .sinkNode then lib.sink
  else lib.edge

/-- The candidate classes for a swap at a location: the category minus the present class
(lines 190, 196, 199, 202). -/
def swapSet (lib : Library) (g : Graph) : Loc → List ClassId
  | .node v =>
    match g.node? v with
    | none => []
    | some n => lib.node.filter (· ≠ n.comp.cls)
  | .edge r =>
    match g.edge? r with
    | none => []
    | some e => (edgeCategory lib g r).filter (· ≠ e.comp.cls)
  | _ => []

/-- `SwapComponent.apply_evolution` / `_swap_component` (lines 187-224) with `c` the new model drawn from the
swap set.  An empty swap set leaves the graph unchanged (or raises `ValueError` when verbose);
`'name'` is not updated. -/
def swapComp (lib : Library) (verbose : Bool) (g : Graph) (l : Loc) (c : Comp) : Except Err Graph :=
  match l with
  | .node v =>
    match g.node? v with
    | none => .error .keyError
    | some _ =>
      if swapSet lib g l = [] then (if verbose then .error .valueError else .ok g)
      else .ok (g.setNode v (fun n => { n with comp := c }))
  | .edge r =>
    match g.edge? r with
    | none => .error .keyError
    | some _ =>
      if swapSet lib g l = [] then (if verbose then .error .valueError else .ok g)
      else .ok (g.setEdge r (fun e => { e with comp := c }))
  | _ => .error .keyError

/-- `swap_possible` (lines 226-235). -/
def swapPossible (lib : Library) (g : Graph) : Loc → Bool
  | .node _ => decide (1 < lib.node.length)
  | .edge r => decide (1 < (edgeCategory lib g r).length)
  | _ => false

/-- `SwapComponent.possible_evo_locations` (lines 237-244). -/
def swapLocs (lib : Library) (g : Graph) : List Loc :=
  (g.nodes.filter (fun n => ¬ n.comp.prot ∧ g.inDeg n.id ≠ 0 ∧ g.outDeg n.id ≠ 0 ∧
      swapPossible lib g (.node n.id))).map (fun n => .node n.id) ++
  (g.edges.filter (fun e => ¬ e.comp.prot ∧ swapPossible lib g (.edge e.ref))).map (fun e => .edge e.ref)

/-! ### A uniform view: operator, location, drawn components -/

/-- Everything an operator application draws at random: the new node id and the new components.
`simulator/fiber/evolution_operators/evolution_operators.py:36-41`, `simulator/fiber/evolution_operators/evolution_operators.py:96`, `simulator/fiber/evolution_operators/evolution_operators.py:217-220`. -/
structure Draw where
  nid : NodeId
  ec : Comp
  nc : Comp
deriving Repr

/-- `evo_op.possible_evo_locations(graph)` for each operator.
`simulator/fiber/evolution_operators/evolution_operators.py:67-76`, `simulator/fiber/evolution_operators/evolution_operators.py:105-119`, `simulator/fiber/evolution_operators/evolution_operators.py:165-172`, `simulator/fiber/evolution_operators/evolution_operators.py:237-244`. -/
def locs (lib : Library) (g : Graph) (order : List NodeId) : Op → List Loc
  | .addSeries => (seriesLocs g).map .iface
  | .addParallel => (parallelLocs g order).map (fun p => .pair p.1 p.2)
  | .remove => (removeLocs g).map .iface
  | .swap => swapLocs lib g

/-- `evo_op.apply_evolution(graph, location)` for each operator (operators created with `verbose=False`,
`evolver.py:37,41`).  A location of the wrong shape raises an `AttributeError`. -/
def applyOp (lib : Library) (g : Graph) (op : Op) (l : Loc) (d : Draw) : Except Err Graph :=
  match op, l with
  | .addSeries, .iface i => addSeries g i d.nid d.ec d.nc
  | .addParallel, .pair u v => .ok (addParallel g u v d.ec)
  | .remove, .iface i => removeComp g i
  | .swap, l => swapComp lib false g l d.ec
  | _, _ => .error .attributeError

/-- What the random library calls can deliver: `random.sample(set,1)[0]()` a fresh instance of a class in the
set (lines 36, 38, 96, 217, 220) and `uuid4()` an unused id. -/
def drawOk (lib : Library) (g : Graph) (op : Op) (l : Loc) (d : Draw) : Prop :=
  match op with
  | .addSeries => d.nid ∉ g.ids ∧ d.ec.cls ∈ lib.edge ∧ d.nc.cls ∈ lib.node
  | .addParallel => d.ec.cls ∈ lib.edge
  | .remove => True
  | .swap => d.ec.cls ∈ swapSet lib g l

end Verif
