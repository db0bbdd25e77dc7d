import Verif.Model.Propagate
import Verif.Model.Params
import Verif.Model.Physics
/-!
# Building a graph, updating it and copying it for saving (`lib/graph.py:34-97`, `algorithms/topology_optimization.py:572-579`)

What a component object holds (parameters, bounds, cached noise vectors, …) is an arbitrary type `O`; objects live in a heap indexed by
their identity (`Comp.uid`).  `copy.deepcopy` of an object is a new object with the same content.
-/

namespace Verif
open Graph

/-- What the classes do: `update_attributes(num_inputs, num_outputs)` of a node model and the two `propagate` methods, in terms of
the content of the object.  Edge models have no `update_attributes` and are never asked for it. `lib/graph.py:90-97`. -/
structure Kinds (S O : Type) where
  update : ClassId → Nat → Nat → O → O
  node : ClassId → O → List S → Nat → Nat → Except Err (List S)
  edge : ClassId → O → S → Except Err S
  noise : ClassId → O → Option (S → Except Err S)

/-- The behaviour of the components of a graph, given the contents of the objects.
Part of the model of `lib/graph.py:34-97`, `algorithms/topology_optimization.py:572-579`. -/
def Kinds.behav {S O : Type} (K : Kinds S O) (h : ModelId → O) : Behav S where
  node := fun c => K.node c.cls (h c.uid)
  edge := fun c => K.edge c.cls (h c.uid)
  noise := fun c => K.noise c.cls (h c.uid)

section
variable {S O : Type}

/-- `h[m] = o`. Part of the model of `lib/graph.py:34-97`, `algorithms/topology_optimization.py:572-579`. -/
def heapSet (h : ModelId → O) (m : ModelId) (o : O) : ModelId → O := fun k => if k = m then o else h k

/-- `update_graph` (`lib/graph.py:90-97`): the propagation order and the heap afterwards. -/
def updateGraph (K : Kinds S O) (g : Graph) (h : ModelId → O) : Except Err (List NodeId × (ModelId → O)) :=
  match g.topoSort with
  | .error e => .error e
  | .ok order =>
    .ok (order, g.nodes.foldl (fun h n => heapSet h n.comp.uid (K.update n.comp.cls (g.inDeg n.id) (g.outDeg n.id) (h n.comp.uid))) h)

/-- A node that exists only because an edge mentions it: networkx adds it without attributes.
Part of the model of `lib/graph.py:34-97`, `algorithms/topology_optimization.py:572-579`. -/
def bareNode (v : NodeId) : Node := ⟨v, ⟨0, 0, false, .multiPath, 0⟩, 0⟩

/-- `init_graph` (`lib/graph.py:34-71`) from the two dictionaries in insertion order; the key in an edge of the dictionary is not used.
Nodes only mentioned by edges have no `'model'`: `update_graph` raises `KeyError` at the first of them, after the sort. -/
def initGraph (K : Kinds S O) (nodes : List (NodeId × Comp)) (edges : List (EdgeRef × Comp)) (h : ModelId → O) :
    Except Err (Graph × List NodeId × (ModelId → O)) :=
  let labels := nodes.map (·.1)
  let missing := (edges.flatMap (fun e => [e.1.src, e.1.dst])).filter (fun v => v ∉ labels)
  let g0 : Graph := ⟨nodes.map (fun n => ⟨n.1, n.2, n.2.cls⟩) ++ missing.dedup.map bareNode, []⟩
  let g := edges.foldl (fun g e => g.addEdge e.1.src e.1.dst e.2 e.2.cls) g0
  match updateGraph K g h with
  | .error e => .error e
  | .ok (order, h') => if missing = [] then .ok (g, order, h') else .error .keyError

/-- The copies made by `duplicate_and_simplify_graph` (lines 76-80): the object copied as number `i` gets the identity `base + i`. -/
def copyHeap (g : Graph) (base : ModelId) (h : ModelId → O) : ModelId → O := fun m =>
  if base ≤ m then
    match (getModels g)[m - base]? with
    | some u => h u
    | none => h m
  else h m

/-- The node dictionary passed on. Part of the model of `lib/graph.py:34-97`, `algorithms/topology_optimization.py:572-579`. -/
def copyNodes (g : Graph) (base : ModelId) : List (NodeId × Comp) :=
  g.nodes.zipIdx.map (fun p => (p.1.id, { p.1.comp with uid := base + p.2 }))

/-- The edge dictionary passed on. Part of the model of `lib/graph.py:34-97`, `algorithms/topology_optimization.py:572-579`. -/
def copyEdges (g : Graph) (base : ModelId) : List (EdgeRef × Comp) :=
  g.edges.zipIdx.map (fun p => (p.1.ref, { p.1.comp with uid := base + (g.nodes.length + p.2) }))

/-- `duplicate_and_simplify_graph` (lines 73-82); identities from `base` on are unused. -/
def duplicateGraph (K : Kinds S O) (g : Graph) (h : ModelId → O) (base : ModelId) : Except Err (Graph × List NodeId × (ModelId → O)) :=
  initGraph K (copyNodes g base) (copyEdges g base) (copyHeap g base h)

/-- The strings passed as `type` to `save_hof`.
Part of the model of `lib/graph.py:34-97`, `algorithms/topology_optimization.py:572-579`. -/
inductive SaveType where
  | full | minimal | other
deriving DecidableEq, Repr

/-- `save_hof` (`topology_optimization.py:572-579`): the files written, by the number in their name, and the exception if one ends the
loop.  The hall of fame is given by its graphs, an unfilled place being `(None, None)`.  Raising `Warning` is an exception. -/
def saveHof (K : Kinds S O) (type : SaveType) (h : ModelId → O) (base : ModelId) : Nat → List (Option Graph) →
    List (Nat × Graph × (ModelId → O)) × Option Err
  | _, [] => ([], none)
  | i, slot :: rest =>
    match type with
    | .minimal => ([], some .runtimeWarning)
    | .other => saveHof K type h base (i + 1) rest
    | .full =>
      match slot with
      | none => ([], some .attributeError)
      | some g =>
        match duplicateGraph K g h base with
        | .error e => ([], some e)
        | .ok (g', _, h') =>
          let r := saveHof K type h base (i + 1) rest
          ((i, g', h') :: r.1, r.2)

end

/-- The classes of the fibre simulator, objects holding their parameters: splitters reset their ratios at each update
(`multi_path.py:35-52`), terminals ignore it (`terminals.py:38-39`, 77-78). -/
noncomputable def fiberKinds {n : Nat} (P : Prop_ n) (isSplit : ClassId → Bool) (optic : ClassId → List ℝ → Optic n) : Kinds (Signal n) (List ℝ) where
  update := fun c _ nOut a => if isSplit c then defaultRatios ℝ nOut else a
  node := fun c a s nIn nOut => (if isSplit c then Connector.splitter a else .terminal).apply P s nIn nOut
  edge := fun c a x => (optic c a).apply P x
  noise := fun _ _ => none

end Verif
