import Verif.Model.Graph
import Mathlib.Analysis.Real.Sqrt
import Mathlib.Algebra.BigOperators.Group.Finset.Defs
import Mathlib.Algebra.BigOperators.Group.Finset.Basic
/-!
# Model of the species distances (`algorithms/speciation.py:268-379`)

A graph is given with its `speciation_descriptor`.  Square roots are those of the real numbers.
-/

namespace Verif

/-- The `'name'` entry of a descriptor, as assigned in `algorithms/topology_optimization.py:443,456,474,485`. -/
inductive SpecName where
  | simpleSubpopulation | vectorDiff | photoNeat | editDistance
deriving DecidableEq, Repr

/-- `graph.speciation_descriptor` when it is not `None`: the name and the label (absent except in the simple scheme).
Part of the model of `algorithms/speciation.py:268-379`. -/
structure Descriptor where
  name : SpecName
  label : Option Nat
deriving DecidableEq, Repr

/-- A graph with its descriptor (`lib/graph.py:52`: initially `None`). -/
structure Tagged where
  graph : Graph
  desc : Option Descriptor
deriving DecidableEq, Repr

/-- The check at the head of every distance (lines 277, 302, 368): `None['name']` is a `TypeError`; the second descriptor is only looked at
when the first has the right name. -/
def checkNames (s : SpecName) (a b : Tagged) : Except Err Unit :=
  match a.desc with
  | none => .error .typeError
  | some da =>
    if da.name ≠ s then .error .valueError
    else
      match b.desc with
      | none => .error .typeError
      | some db => if db.name ≠ s then .error .valueError else .ok ()

/-- `descriptor['label']`. Part of the model of `algorithms/speciation.py:268-379`. -/
def labelOf (a : Tagged) : Except Err Nat :=
  match a.desc with
  | none => .error .typeError
  | some d => match d.label with
    | none => .error .keyError
    | some l => .ok l

/-- `SimpleSubpopulationSchemeDist.distance` (lines 269-282). -/
def labelDist (a b : Tagged) : Except Err Nat := do
  checkNames .simpleSubpopulation a b
  let la ← labelOf a
  let lb ← labelOf b
  if la = lb then return 0 else return 1

/-- `vectorDIFF.__init__` (lines 291-299): index of a class in `NODE_TYPES_ALL`, the registered classes in order. -/
def basisIndex (classes : List ClassId) (c : ClassId) : Except Err Nat :=
  if c ∈ classes then .ok (classes.idxOf c) else .error .keyError

/-- `vector[self.vector_basis[model]] += 1` (lines 315-319). -/
def bump (classes : List ClassId) (v : Nat → Nat) (c : ClassId) : Except Err (Nat → Nat) := do
  let i ← basisIndex classes c
  return fun j => if j = i then v j + 1 else v j

/-- `_get_vector` (lines 312-320): node models, then edge models. -/
def classVector (classes : List ClassId) (g : Graph) : Except Err (Nat → Nat) := do
  let v ← (g.nodes.map (·.comp.cls)).foldlM (bump classes) (fun _ => 0)
  (g.edges.map (·.comp.cls)).foldlM (bump classes) v

/-- `vectorDIFF.distance` (lines 301-310).  Two graphs without nodes give `nan` in numpy; here `zeroDivision`. -/
noncomputable def vectorDist (classes : List ClassId) (a b : Tagged) : Except Err ℝ := do
  checkNames .vectorDiff a b
  let v ← classVector classes a.graph
  let w ← classVector classes b.graph
  if a.graph.nodes.length = 0 ∧ b.graph.nodes.length = 0 then .error .zeroDivision
  else
    return Real.sqrt (∑ i ∈ Finset.range classes.length, ((v i : ℝ) - (w i : ℝ)) ^ 2) /
      Real.sqrt ((a.graph.nodes.length : ℝ) ^ 2 + (b.graph.nodes.length : ℝ) ^ 2)

/-- `distance_rule` strings known to `EditDistance`. Part of the model of `algorithms/speciation.py:268-379`. -/
inductive GedRule where
  | reduced | full | other
deriving DecidableEq, Repr

/-- An `EditDistance` object. `algorithms/speciation.py:356-379`. -/
structure EditDist where
  rule : GedRule
  threshold : ℚ
deriving DecidableEq, Repr

/-- `EditDistance.__init__` (lines 357-365). -/
def EditDist.init (rule : GedRule) (threshold : ℚ) : Except Err EditDist :=
  if rule ≠ .reduced ∧ rule ≠ .full then .error .valueError else .ok ⟨rule, threshold⟩

/-- Answers of networkx to the two graph edit distance queries of `algorithms/assets/graph_edit_distance.py`, with the substitution costs
`nodeMatch` and `edgeMatch` below.  `none`: no edit path within the bound 30. -/
structure GedOracle where
  /-- first value of `optimize_graph_edit_distance` (lines 35-47) -/
  reduced : Graph → Graph → Option ℚ
  /-- `graph_edit_distance` (lines 20-33) -/
  full : Graph → Graph → Option ℚ

/-- `node_match` (lines 57-63). -/
def nodeMatch (m n : Node) : ℚ := if m.comp.cls = n.comp.cls then 0 else 1 / 2

/-- `edge_match` (lines 49-55). -/
def edgeMatch (e f : Edge) : ℚ := if e.comp.cls = f.comp.cls then 0 else 1

/-- `EditDistance.distance` (lines 367-379).  Without an edit path within the bound, `next` raises `StopIteration` (modelled as
`runtimeError`) for the reduced rule and `None > threshold` is a `TypeError` for the full one. -/
def editDist (o : GedOracle) (d : EditDist) (a b : Tagged) : Except Err Nat := do
  checkNames .editDistance a b
  if d.rule = .reduced then
    match o.reduced a.graph b.graph with
    | none => .error .runtimeError
    | some s => if s > d.threshold then return 1 else return 0
  else
    match o.full a.graph b.graph with
    | none => .error .typeError
    | some s => if s > d.threshold then return 1 else return 0

/-- `photoNEAT.__init__` (lines 329-330). -/
def photoNeatInit : Except Err Unit := .error .valueError

end Verif
