import Verif.Model.Params
import Mathlib.Algebra.Order.Field.Basic
import Mathlib.Algebra.Order.AbsoluteValue.Basic
/-!
# Model of the sensitivity scores (`simulator/fiber/assets/hessian_graph_analysis.py:8-101`)

With the default exponent `p = 1`, the only one used.  Matrix entries are elements of an ordered field; the logarithm is a function given from
outside.  The Hessian is square.
-/

namespace Verif
open Graph

/-- A square matrix: `shape[0]` and entries. Part of the model of `simulator/fiber/assets/hessian_graph_analysis.py:8-101`. -/
structure Hess (K : Type) where
  size : Nat
  entry : Nat → Nat → K

section
variable {K : Type} [Field K] [LinearOrder K]

/-- `free_wheeling_param_scores(hess)` (lines 61-76): column sums plus row sums of absolute values, over twice the size. -/
def paramScores (H : Hess K) : List K :=
  (List.range H.size).map (fun i =>
    (((List.range H.size).map (fun j => |H.entry j i|)).sum + ((List.range H.size).map (fun j => |H.entry i j|)).sum) / (2 * (H.size : K)))

/-- `get_models(include_node_edge=True)` (`lib/graph.py:520-522`). -/
def labelledModels (g : Graph) : List (ModelId × (NodeId ⊕ EdgeRef)) :=
  g.nodes.map (fun n => (n.comp.uid, .inl n.id)) ++ g.edges.map (fun e => (e.comp.uid, .inr e.ref))

/-- `node_edge_index` of the extraction without attributes (`lib/graph.py:538-549`). -/
def nodeEdgeIndex (g : Graph) (h : Heap) : List (NodeId ⊕ EdgeRef) :=
  (labelledModels g).flatMap (fun m => if (h m.1).nodeLock then [] else ((h m.1).locks.filter (fun l => !l)).map (fun _ => m.2))

/-- `vector_to_average[filter]` with the mask of line 86 (same length as the vector). -/
def maskSelect {L : Type} [DecidableEq L] (labels : List L) (l : L) (vec : List K) : List K :=
  ((labels.zip vec).filter (fun x => x.1 = l)).map (·.2)

/-- `_extract_average_over_edge` (lines 79-101).  A mask of another length than the vector raises `IndexError`. -/
def averageOverEdges (lg : K → K) (asLog : Bool) (g : Graph) (h : Heap) (vec : List K) : Except Err (List (EdgeRef × K)) :=
  let labels := nodeEdgeIndex g h
  if labels.length ≠ vec.length ∧ g.edges ≠ [] then .error .indexError
  else
    .ok (g.edges.map (fun e =>
      let xs := maskSelect labels (.inr e.ref) vec
      (e.ref, if xs.length ≠ 0 then
          let score := xs.sum / xs.length
          if asLog then lg score else score
        else if asLog then 0 else 1)))

/-- `free_wheeling_edge_scores` (lines 42-59). -/
def edgeScores (lg : K → K) (asLog : Bool) (g : Graph) (h : Heap) (H : Hess K) : Except Err (List (EdgeRef × K)) :=
  match extract [.parameters, .lowerBounds, .upperBounds] g h with
  | .error e => .error e
  | .ok ex =>
    if ex.models.length ≠ H.size then .error .valueError
    else averageOverEdges lg asLog g h (paramScores H)

/-- `get_all_edge_scores` (lines 8-25); `H` is `graph.scaled_hess_matrix`.  (The parameter list has as many entries as the list of
models.) -/
def allEdgeScores (lg : K → K) (asLog : Bool) (g : Graph) (h : Heap) (H : Option (Hess K)) : Except Err (List (EdgeRef × K)) :=
  match extract [.parameters, .lowerBounds, .upperBounds] g h with
  | .error e => .error e
  | .ok ex =>
    if ex.models.length = 0 then .ok (g.edges.map (fun e => (e.ref, if asLog then 0 else 1)))
    else
      match H with
      | none => .error .valueError
      | some H => edgeScores lg asLog g h H

/-- `normalize_hessian` (lines 28-39); division by a zero sum gives no usable matrix. -/
def normalizeHess (H : Hess K) : Except Err (Hess K) :=
  let s := ((List.range H.size).map (fun i => ((List.range H.size).map (fun j => H.entry i j)).sum)).sum
  if s = 0 then .error .zeroDivision
  else .ok { H with entry := fun i j => H.entry i j / s * (H.size : K) ^ 2 }

end

end Verif
