import Verif.Model.Topo
import Mathlib.Data.Nat.Digits.Defs
/-!
# Model of the minimal description of a graph (`lib/minimal_save.py:18-110`, with `Graph.init_graph`, `lib/graph.py:34-71`)

Strings are lists of characters.  Writing the dictionary to a file and reading it back (JSON) is not modelled: it turns tuples into lists,
which `tuple(...)` at line 71 undoes.  The labels of the saved graph may be of any type; those of the rebuilt graph are strings.
-/

namespace Verif

/-- Part of the model of `lib/minimal_save.py:18-110`, `lib/graph.py:34-71`. -/
abbrev Str := List Char

/-- A node with label, class and parameters of its component; `P` is the type of parameter lists.
Part of the model of `lib/minimal_save.py:18-110`, `lib/graph.py:34-71`. -/
structure SNode (L P : Type) where
  label : L
  cls : ClassId
  params : P
deriving DecidableEq, Repr

/-- An edge. Part of the model of `lib/minimal_save.py:18-110`, `lib/graph.py:34-71`. -/
structure SEdge (L P : Type) where
  src : L
  dst : L
  key : Nat
  cls : ClassId
  params : P
deriving DecidableEq, Repr

/-- A graph as far as saving looks at it: nodes and edges in iteration order.
Part of the model of `lib/minimal_save.py:18-110`, `lib/graph.py:34-71`. -/
structure SGraph (L P : Type) where
  nodes : List (SNode L P)
  edges : List (SEdge L P)
deriving DecidableEq, Repr

/-- Component classes: their names; the flattened registry (lines 18-26, 57); the value of `number_of_parameters` of a component made by the
constructor, after `update_attributes` with the number of incoming and outgoing edges; the parameters after that. -/
structure Registry (P : Type) where
  name : ClassId → Str
  lookup : Str → Option ClassId
  arity : ClassId → Nat → Nat → Nat
  init : ClassId → Nat → Nat → P
  len : P → Nat

/-- `"{:03.0f}".format(i)`: decimal, padded with zeros to three places. -/
def pad3 (i : Nat) : Str :=
  let ds := (Nat.digits 10 i).reverse.map Nat.digitChar
  List.replicate (3 - ds.length) '0' ++ ds

/-- `join_model_nickname` (lines 105-106). -/
def nickname (name : Str) (i : Nat) : Str := name ++ '.' :: pad3 i

/-- `split_model_nickname(nickname)[0]` (lines 109-110): up to the first dot. -/
def nickBase (s : Str) : Str := s.takeWhile (fun c => c ≠ '.')

/-- `d[k] = v` for a dict in insertion order. Part of the model of `lib/minimal_save.py:18-110`, `lib/graph.py:34-71`. -/
def dictSet {K V : Type} [DecidableEq K] (d : List (K × V)) (k : K) (v : V) : List (K × V) :=
  if k ∈ d.map (·.1) then d.map (fun x => if x.1 = k then (k, v) else x) else d ++ [(k, v)]

/-- `d[k]`. Part of the model of `lib/minimal_save.py:18-110`, `lib/graph.py:34-71`. -/
def dictGet {K V : Type} [DecidableEq K] (d : List (K × V)) (k : K) : Except Err V :=
  match d.find? (fun x => x.1 = k) with
  | some x => .ok x.2
  | none => .error .keyError

/-- `graph_info`. Part of the model of `lib/minimal_save.py:18-110`, `lib/graph.py:34-71`. -/
structure Saved (P : Type) where
  adj : List (Str × (Str × Str × Nat))
  nodeParams : List (Str × P)
  edgeParams : List (Str × P)
deriving DecidableEq, Repr

section
variable {L P : Type} [DecidableEq L]

/-- Lines 32-35. -/
def saveNodes (R : Registry P) : Nat → List (SNode L P) → List (L × Str) × List (Str × P) → List (L × Str) × List (Str × P)
  | _, [], acc => acc
  | i, n :: ns, (models, params) =>
    let nick := nickname (R.name n.cls) i
    saveNodes R (i + 1) ns (dictSet models n.label nick, dictSet params nick n.params)

/-- Lines 40-45 (`edge_models` is not used afterwards). -/
def saveEdges (R : Registry P) (models : List (L × Str)) : Nat → List (SEdge L P) →
    List (Str × (Str × Str × Nat)) × List (Str × P) → Except Err (List (Str × (Str × Str × Nat)) × List (Str × P))
  | _, [], acc => .ok acc
  | i, e :: es, (adj, params) =>
    match dictGet models e.src, dictGet models e.dst with
    | .ok s, .ok d =>
      let nick := nickname (R.name e.cls) i
      saveEdges R models (i + 1) es (dictSet adj nick (s, d, e.key), dictSet params nick e.params)
    | _, _ => .error .keyError

/-- `extract_minimal_graph_info` (lines 29-52).  The edge counter starts at the last value of the node counter `i`, which does not exist
when there is no node. -/
def saveGraph (R : Registry P) (g : SGraph L P) : Except Err (Saved P) :=
  let nm := saveNodes R 0 g.nodes ([], [])
  match g.nodes with
  | [] => .error .nameError
  | _ :: _ =>
    match saveEdges R nm.1 (g.nodes.length - 1) g.edges ([], []) with
    | .error e => .error e
    | .ok em => .ok ⟨em.1, nm.2, em.2⟩

/-- Position of a node. Part of the model of `lib/minimal_save.py:18-110`, `lib/graph.py:34-71`. -/
def SGraph.idx (g : SGraph L P) (l : L) : Nat := (g.nodes.map (·.label)).idxOf l

/-- `insertAfterLast` of the graph model, for these edges.
Part of the model of `lib/minimal_save.py:18-110`, `lib/graph.py:34-71`. -/
def sInsertAfterLast (p : SEdge L P → Bool) (e : SEdge L P) : List (SEdge L P) → List (SEdge L P)
  | [] => [e]
  | x :: xs =>
    if xs.any p then x :: sInsertAfterLast p e xs
    else if p x then x :: e :: xs
    else e :: x :: xs

/-- networkx `add_edge` without key (see `Graph.addEdge`).
Part of the model of `lib/minimal_save.py:18-110`, `lib/graph.py:34-71`. -/
def SGraph.addEdge (g : SGraph L P) (u v : L) (cls : ClassId) (params : P) : SGraph L P :=
  let ks := (g.edges.filter (fun e => e.src = u ∧ e.dst = v)).map (·.key)
  let e : SEdge L P := ⟨u, v, Graph.firstFree ks ks.length ks.length, cls, params⟩
  let p : SEdge L P → Bool :=
    if g.edges.any (fun x => x.src = u ∧ x.dst = v) then fun x => x.src = u ∧ x.dst = v
    else fun x => g.idx x.src ≤ g.idx u
  { g with edges := sInsertAfterLast p e g.edges }

/-- Degrees. Part of the model of `lib/minimal_save.py:18-110`, `lib/graph.py:34-71`. -/
def SGraph.inDeg (g : SGraph L P) (l : L) : Nat := (g.edges.filter (fun e => e.dst = l)).length
/-- Part of the model of `lib/minimal_save.py:18-110`, `lib/graph.py:34-71`. -/
def SGraph.outDeg (g : SGraph L P) (l : L) : Nat := (g.edges.filter (fun e => e.src = l)).length

/-- The bare graph, with positions as labels, for `topological_sort`.
Part of the model of `lib/minimal_save.py:18-110`, `lib/graph.py:34-71`. -/
def SGraph.bareGraph (g : SGraph L P) : Graph where
  nodes := g.nodes.zipIdx.map (fun x => ⟨x.2, ⟨0, 0, false, .singlePath, 0⟩, 0⟩)
  edges := g.edges.zipIdx.map (fun x => ⟨g.idx x.1.src, g.idx x.1.dst, x.2, ⟨0, 0, false, .singlePath, 0⟩, 0⟩)

end

section
variable {P : Type}

/-- Line 64. -/
def loadNodes (R : Registry P) : List (Str × P) → Except Err (List (Str × ClassId))
  | [] => .ok []
  | (k, _) :: ks =>
    match R.lookup (nickBase k) with
    | none => .error .keyError
    | some c =>
      match loadNodes R ks with
      | .error e => .error e
      | .ok r => .ok ((k, c) :: r)

/-- Lines 69-76. -/
def loadEdges (R : Registry P) (edgeParams : List (Str × P)) : List (Str × (Str × Str × Nat)) → List ((Str × Str × Nat) × (ClassId × P)) →
    Except Err (List ((Str × Str × Nat) × (ClassId × P)))
  | [], acc => .ok acc
  | (nick, tup) :: rest, acc =>
    match dictGet edgeParams nick with
    | .error e => .error e
    | .ok ps =>
      match R.lookup (nickBase nick) with
      | none => .error .keyError
      | some c => loadEdges R edgeParams rest (dictSet acc tup (c, ps))

/-- `update_graph` of a graph whose nodes are new components (`lib/graph.py:90-97`). -/
def SGraph.update (R : Registry P) (g : SGraph Str P) : Except Err (SGraph Str P) :=
  match g.bareGraph.topoSort with
  | .error e => .error e
  | .ok _ => .ok { g with nodes := g.nodes.map (fun n => { n with params := R.init n.cls (g.inDeg n.label) (g.outDeg n.label) }) }

/-- `Graph.init_graph` (`lib/graph.py:34-71`): the keys in the edge dictionary are not used.  (`R.init c 0 0` stands for the parameters of
a component before the first update.) -/
def initSGraph (R : Registry P) (nodes : List (Str × ClassId)) (edges : List ((Str × Str × Nat) × (ClassId × P))) : Except Err (SGraph Str P) :=
  let g0 : SGraph Str P := ⟨nodes.map (fun n => ⟨n.1, n.2, R.init n.2 0 0⟩), []⟩
  SGraph.update R (edges.foldl (fun g e => g.addEdge e.1.1 e.1.2.1 e.2.1 e.2.2) g0)

/-- Lines 88-92. -/
def restoreParams (R : Registry P) (g : SGraph Str P) (saved : List (Str × P)) : List (SNode Str P) → Except Err (List (SNode Str P))
  | [] => .ok []
  | n :: ns =>
    match dictGet saved n.label with
    | .error e => .error e
    | .ok ps =>
      if R.arity n.cls (g.inDeg n.label) (g.outDeg n.label) ≠ R.len ps then .error .valueError
      else
        match restoreParams R g saved ns with
        | .error e => .error e
        | .ok r => .ok ({ n with params := ps } :: r)

/-- `build_from_minimal_graph_info` (lines 55-102). -/
def loadGraph (R : Registry P) (s : Saved P) : Except Err (SGraph Str P) :=
  match loadNodes R s.nodeParams with
  | .error e => .error e
  | .ok nodes =>
    match loadEdges R s.edgeParams s.adj [] with
    | .error e => .error e
    | .ok edges =>
      match initSGraph R nodes edges with
      | .error e => .error e
      | .ok g0 =>
        match SGraph.update R g0 with
        | .error e => .error e
        | .ok g =>
          match restoreParams R g s.nodeParams g.nodes with
          | .error e => .error e
          | .ok nodes' => .ok { g with nodes := nodes' }

end

end Verif
