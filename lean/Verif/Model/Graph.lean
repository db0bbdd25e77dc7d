/-!
# Model of the system graph (`lib/graph.py`, on top of networkx 2.5 `MultiDiGraph`)

A graph is a list of nodes (insertion order of the node dict) and a list of edges kept in the order in
which networkx iterates `graph.edges` (by source in node order, then by target in first-insertion order,
then by key in insertion order).
-/

namespace Verif

/-- Node labels: strings / uuids / ints in the code (`lib/graph.py:37,176`); only equality is used. -/
abbrev NodeId := Nat

/-- Identity of a component class (`model.__class__`). `lib/graph.py:35-71`. -/
abbrev ClassId := Nat

/-- The `_node_type` strings (`simulator/fiber/node_types.py:17,31,47,64`, `terminals.py:16,56`). -/
inductive NodeType where
  | sourceNode | sinkNode | inputNode | outputNode | multiPath | singlePath
deriving DecidableEq, Repr

/-- A component (model object) as far as evolution looks at it.
`lib/base_classes.py:12` (`protected`), `simulator/fiber/node_types.py:17-67` (`_node_type`,
`_range_input_edges[1]`).  `uid` stands for the object identity.  Parameters are modelled separately in
`Model/Params.lean`. -/
structure Comp where
  uid : Nat
  cls : ClassId
  prot : Bool
  ntype : NodeType
  maxIn : Nat
deriving DecidableEq, Repr

/-- Node attributes `{'model':…, 'name':…}` (`lib/graph.py:38`).  The attributes `'lock'`,
`'source-sink'` and `'contraction'` are written but never read by the modelled code and are left out. -/
structure Node where
  id : NodeId
  comp : Comp
  name : ClassId
deriving DecidableEq, Repr

/-- The hashable edge handle `(u, v, key)` used throughout the code.
`simulator/fiber/evolution_operators/evolution_operators.py:50`, `simulator/fiber/evolution_operators/evolution_operators.py:144`. -/
structure EdgeRef where
  src : NodeId
  dst : NodeId
  key : Nat
deriving DecidableEq, Repr

/-- Edge with attributes `{'model':…, 'name':…}` (`lib/graph.py:40`). -/
structure Edge where
  src : NodeId
  dst : NodeId
  key : Nat
  comp : Comp
  name : ClassId
deriving DecidableEq, Repr

/-- `simulator/fiber/evolution_operators/evolution_operators.py:50`, `simulator/fiber/evolution_operators/evolution_operators.py:144`. -/
def Edge.ref (e : Edge) : EdgeRef := ⟨e.src, e.dst, e.key⟩

/-- `lib/base_classes.py:109-115` (a `networkx.MultiDiGraph`). -/
structure Graph where
  nodes : List Node
  edges : List Edge
deriving DecidableEq, Repr

/-- Exceptions raised by the modelled code (kind only). Raised in `lib/graph.py:472-481` and by the other functions modelled. -/
inductive Err where
  | keyError | valueError | typeError | indexError | runtimeError | runtimeWarning
  | notImplemented | unfeasible | assertion | zeroDivision | attributeError | moduleNotFound | nameError
  /-- not an exception: a loop did not end within the given number of rounds -/
  | diverges
deriving DecidableEq, Repr

namespace Graph

/-- `lib/base_classes.py:109-115` (a `networkx.MultiDiGraph`). -/
def ids (g : Graph) : List NodeId := g.nodes.map (·.id)

/-- `get_in_edges` (`lib/graph.py:158-160`). -/
def inEdges (g : Graph) (v : NodeId) : List Edge := g.edges.filter (fun e => e.dst = v)

/-- `get_out_edges` (`lib/graph.py:162-164`). -/
def outEdges (g : Graph) (v : NodeId) : List Edge := g.edges.filter (fun e => e.src = v)

/-- `get_in_degree` / networkx `in_degree` (`lib/graph.py:152-153`). -/
def inDeg (g : Graph) (v : NodeId) : Nat := (g.inEdges v).length

/-- `get_out_degree` / networkx `out_degree` (`lib/graph.py:155-156`). -/
def outDeg (g : Graph) (v : NodeId) : Nat := (g.outEdges v).length

/-- `graph.nodes[v]` (raises `KeyError` when absent: `none`). `lib/base_classes.py:109-115` (a `networkx.MultiDiGraph`). -/
def node? (g : Graph) (v : NodeId) : Option Node := g.nodes.find? (fun n => n.id = v)

/-- `graph.edges[(u,v,k)]` (raises `KeyError` when absent: `none`). `lib/base_classes.py:109-115` (a `networkx.MultiDiGraph`). -/
def edge? (g : Graph) (r : EdgeRef) : Option Edge := g.edges.find? (fun e => e.ref = r)

/-- First integer `≥ k` not in `ks`, looking at most `fuel` steps ahead.
`simulator/fiber/evolution_operators/evolution_operators.py:53-57`, `simulator/fiber/evolution_operators/evolution_operators.py:99` (inside networkx). -/
def firstFree (ks : List Nat) : Nat → Nat → Nat
  | 0, k => k
  | fuel + 1, k => if k ∈ ks then firstFree ks fuel (k + 1) else k

/-- networkx `MultiDiGraph.new_edge_key`: start at the number of parallel edges, count up until free
(0 when there is no edge `u → v` yet).
`simulator/fiber/evolution_operators/evolution_operators.py:53-57`, `simulator/fiber/evolution_operators/evolution_operators.py:99` (inside networkx). -/
def newKey (g : Graph) (u v : NodeId) : Nat :=
  let ks := (g.edges.filter (fun e => e.src = u ∧ e.dst = v)).map (·.key)
  firstFree ks ks.length ks.length

/-- Put `e` right after the last element satisfying `p`; in front of everything if there is none.
`simulator/fiber/evolution_operators/evolution_operators.py:53-57`, `simulator/fiber/evolution_operators/evolution_operators.py:99` (inside networkx). -/
def insertAfterLast (p : Edge → Bool) (e : Edge) : List Edge → List Edge
  | [] => [e]
  | x :: xs =>
    if xs.any p then x :: insertAfterLast p e xs
    else if p x then x :: e :: xs
    else e :: x :: xs

/-- Position of a node in the node dict. `lib/base_classes.py:109-115` (a `networkx.MultiDiGraph`). -/
def nodeIdx (g : Graph) (v : NodeId) : Nat := g.nodes.findIdx (fun n => n.id = v)

/-- networkx `add_edge(u, v, **attrs)` without key, for existing end nodes: fresh key; in iteration order
the new edge comes after the other `u → v` edges, or after the other edges of `u` if it is the first one.
`simulator/fiber/evolution_operators/evolution_operators.py:53-57`, `simulator/fiber/evolution_operators/evolution_operators.py:99` (inside networkx). -/
def addEdge (g : Graph) (u v : NodeId) (c : Comp) (name : ClassId) : Graph :=
  let e : Edge := ⟨u, v, g.newKey u v, c, name⟩
  let p : Edge → Bool :=
    if g.edges.any (fun x => x.src = u ∧ x.dst = v) then fun x => x.src = u ∧ x.dst = v
    else fun x => g.nodeIdx x.src ≤ g.nodeIdx u
  { g with edges := insertAfterLast p e g.edges }

/-- networkx `add_node` for a new label. `simulator/fiber/evolution_operators/evolution_operators.py:47`. -/
def addNode (g : Graph) (id : NodeId) (c : Comp) (name : ClassId) : Graph :=
  { g with nodes := g.nodes ++ [⟨id, c, name⟩] }

/-- networkx `remove_edge(u, v, key)` for an existing edge.
`simulator/fiber/evolution_operators/evolution_operators.py:50`, `simulator/fiber/evolution_operators/evolution_operators.py:144`. -/
def removeEdge (g : Graph) (r : EdgeRef) : Graph :=
  { g with edges := g.edges.filter (fun e => e.ref ≠ r) }

/-- networkx `remove_node(v)`: the node and all its edges.
`simulator/fiber/evolution_operators/evolution_operators.py:152` (inside networkx). -/
def removeNode (g : Graph) (v : NodeId) : Graph :=
  { nodes := g.nodes.filter (fun n => n.id ≠ v)
    edges := g.edges.filter (fun e => e.src ≠ v ∧ e.dst ≠ v) }

/-- Direct successor test used for paths. `simulator/fiber/evolution_operators/evolution_operators.py:148` (inside networkx). -/
def succs (g : Graph) (v : NodeId) : List NodeId := (g.outEdges v).map (·.dst)

/-- One round of breadth-first expansion. `simulator/fiber/evolution_operators/evolution_operators.py:148` (inside networkx). -/
def expand (g : Graph) (S : List NodeId) : List NodeId :=
  (g.edges.filter (fun e => e.src ∈ S ∧ e.dst ∉ S)).map (·.dst) ++ S

/-- Nodes reachable from the set `S` after `n` rounds.
`simulator/fiber/evolution_operators/evolution_operators.py:148` (inside networkx). -/
def closure (g : Graph) : Nat → List NodeId → List NodeId
  | 0, S => S
  | n + 1, S => closure g n (g.expand S)

/-- networkx `has_path(g, u, v)` (implemented there by bidirectional breadth-first search; here as the
closure of `{u}`, one round per edge; proved equal to the existence of a path).
`simulator/fiber/evolution_operators/evolution_operators.py:148` (inside networkx). -/
def hasPath (g : Graph) (u v : NodeId) : Bool := v ∈ g.closure g.edges.length [u]

/-- networkx `contracted_nodes(g, u, v, self_loops=False, copy=False)`, called at
`evolution_operators.py:152`: in-edges of `v` (except from `u`), then out-edges of `v` (except to `u`), are
re-attached to `u` with fresh keys after `v` has been removed.  (networkx enumerates the in-edges in
predecessor-insertion order; edges with different sources do not interact on insertion, so edge order is
used here.) -/
def contract (g : Graph) (u v : NodeId) : Graph :=
  let ins := (g.edges.filter (fun e => e.dst = v ∧ e.src ≠ u)).map
    (fun e => { e with src := if e.src = v then u else e.src, dst := u })
  let outs := (g.edges.filter (fun e => e.src = v ∧ e.dst ≠ u)).map
    (fun e => { e with src := u, dst := if e.dst = v then u else e.dst })
  (ins ++ outs).foldl (fun h e => h.addEdge e.src e.dst e.comp e.name) (g.removeNode v)

/-- `graph.nodes[id]['model'], ['name'] = …` in place. `simulator/fiber/evolution_operators/evolution_operators.py:217`. -/
def setNode (g : Graph) (id : NodeId) (f : Node → Node) : Graph :=
  { g with nodes := g.nodes.map (fun n => if n.id = id then f n else n) }

/-- `graph.edges[r]['model'] = …` in place. `simulator/fiber/evolution_operators/evolution_operators.py:220`. -/
def setEdge (g : Graph) (r : EdgeRef) (f : Edge → Edge) : Graph :=
  { g with edges := g.edges.map (fun e => if e.ref = r then f e else e) }

/-- An `Interface(node, edge)` named tuple (`lib/graph.py:117`). -/
structure Iface where
  node : NodeId
  edge : EdgeRef
deriving DecidableEq, Repr

/-- `interfaces` (`lib/graph.py:115-120`). -/
def interfaces (g : Graph) : List Iface :=
  (g.edges.filter (fun e => g.inDeg e.src ≠ 0)).map (fun e => ⟨e.src, e.ref⟩) ++
  (g.edges.filter (fun e => g.outDeg e.dst ≠ 0)).map (fun e => ⟨e.dst, e.ref⟩)

end Graph
end Verif
