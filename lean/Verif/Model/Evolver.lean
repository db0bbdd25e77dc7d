import Verif.Model.Ops
import Mathlib.Algebra.BigOperators.Group.Finset.Basic
import Mathlib.Data.Rat.Defs
import Mathlib.Algebra.Order.Ring.Rat
/-!
# Model of the probability-matrix evolvers (`simulator/fiber/evolver.py:23-391`)

Probabilities are exact rationals (floats in the code); `np.isclose` is modelled by equality.
-/

namespace Verif
open Graph Finset

/-- `ProbabilityMatrix` (lines 136-148): `index_to_node_or_edge` / `node_or_edge_to_index` are the list of locations,
`index_to_op` / `op_to_index` the list of operators, `matrix` is indexed by row and column. -/
structure PMat where
  locs : List Loc
  ops : List Op
  m : Nat → Nat → ℚ

namespace PMat

/-- `np.sum(self.matrix)`. Part of the model of `simulator/fiber/evolver.py:23-391`. -/
def total (P : PMat) : ℚ := ∑ i ∈ range P.locs.length, ∑ j ∈ range P.ops.length, P.m i j

/-- `set_prob_by_nodeEdge_op` (lines 173-174); `KeyError` for an unknown location or operator. -/
def set (P : PMat) (p : ℚ) (l : Loc) (o : Op) : Except Err PMat :=
  if l ∈ P.locs ∧ o ∈ P.ops then
    .ok { P with m := fun i j => if i = P.locs.idxOf l ∧ j = P.ops.idxOf o then p else P.m i j }
  else .error .keyError

/-- Entries outside `[0,1]`? (line 158) -/
def inRange (P : PMat) : Bool :=
  (List.range P.locs.length).all fun i => (List.range P.ops.length).all fun j => decide (P.m i j ≤ 1 ∧ 0 ≤ P.m i j)

/-- `normalize_matrix` followed by `verify_matrix` (lines 150-160).  A zero sum makes every quotient NaN or infinite in
numpy, so the sum test fails and `RuntimeWarning` is raised; otherwise the exact sum is 1. -/
def normalizeVerify (P : PMat) : Except Err PMat :=
  if P.total = 0 then .error .runtimeWarning
  else
    let Q := { P with m := fun i j => P.m i j / P.total }
    if Q.inRange then .ok Q else .error .runtimeWarning

/-- Probability of flat index `k` (`matrix.flatten()`, line 163). -/
def flat (P : PMat) (k : Nat) : ℚ := P.m (k / P.ops.length) (k % P.ops.length)

/-- The flat indices `np.random.choice` can return: in range with positive probability (line 165). -/
def CanDraw (P : PMat) (k : Nat) : Prop := k < P.locs.length * P.ops.length ∧ 0 < P.flat k

/-- `sample_matrix` (lines 162-171) for the drawn flat index. -/
def sample (P : PMat) (k : Nat) : Except Err (Loc × Op) :=
  match P.locs[k / P.ops.length]?, P.ops[k % P.ops.length]? with
  | some l, some o => .ok (l, o)
  | _, _ => .error .keyError

end PMat

/-- All rows of the matrix: nodes, edges, interfaces, pairs (lines 97-98 with 145; the last two arguments are passed in
swapped order, which only affects their names). -/
def allLocs (g : Graph) (order : List NodeId) : List Loc :=
  g.nodes.map (fun n => .node n.id) ++ g.edges.map (fun e => .edge e.ref) ++ g.interfaces.map .iface ++
    (pairs order).map (fun p => .pair p.1 p.2)

/-- The loops of lines 99-102. -/
def setAll : List (Loc × Op) → PMat → Except Err PMat
  | [], P => .ok P
  | (l, o) :: rest, P =>
    match P.set 1 l o with
    | .error e => .error e
    | .ok Q => setAll rest Q

/-- The list of `(location, operator)` pairs visited by the loops of lines 99-102. -/
def offeredPairs (lib : Library) (ops : List Op) (g : Graph) (order : List NodeId) : List (Loc × Op) :=
  ops.flatMap (fun o => (locs lib g order o).map (fun l => (l, o)))

/-- `ProbabilityLookupEvolver.create_graph_matrix` (lines 90-105); `NetworkXUnfeasible` from the sort on cyclic graphs. -/
def lookupMatrix (lib : Library) (ops : List Op) (g : Graph) : Except Err PMat :=
  match g.topoSort with
  | .error e => .error e
  | .ok order =>
    match setAll (offeredPairs lib ops g order) ⟨allLocs g order, ops, fun _ _ => 0⟩ with
    | .error e => .error e
    | .ok P => P.normalizeVerify

/-- Sum of a column. Part of the model of `simulator/fiber/evolver.py:23-391`. -/
def colSum (n : Nat) (c : Nat → ℚ) : ℚ := ∑ i ∈ range n, c i

/-- The loop of `OperatorBasedProbEvolver.create_graph_matrix` (lines 237-242) over the operators (column `j`
belongs to the `j`-th operator).  `scale` is `scale_within_operator` (it may raise), `w` is `op_to_prob`. -/
def scaleCols (scale : Op → (Nat → ℚ) → Except Err (Nat → ℚ)) (w : Op → ℚ) :
    List (Op × Nat) → PMat → Except Err PMat
  | [], P => .ok P
  | (o, j) :: rest, P =>
    match scale o (fun i => P.m i j) with
    | .error e => .error e
    | .ok c =>
      let s := colSum P.locs.length c
      scaleCols scale w rest
        (if s ≠ 0 then { P with m := fun i j' => if j' = j then c i / s * w o else P.m i j' } else P)

/-- `OperatorBasedProbEvolver.create_graph_matrix` (lines 235-245).  `scale` may look at the locations of the matrix. -/
def weightedMatrix (lib : Library) (ops : List Op) (scale : List Loc → Op → (Nat → ℚ) → Except Err (Nat → ℚ))
    (w : Op → ℚ) (g : Graph) : Except Err PMat :=
  match lookupMatrix lib ops g with
  | .error e => .error e
  | .ok P =>
    match scaleCols (scale P.locs) w (ops.zipIdx) P with
    | .error e => .error e
    | .ok Q => Q.normalizeVerify

/-- Default `scale_within_operator` (lines 247-253). -/
def noScale : List Loc → Op → (Nat → ℚ) → Except Err (Nat → ℚ) := fun _ _ c => .ok c

/-- Python's `int(round(0.5 * n))` (round half to even), line 326. -/
def roundHalf (n : Nat) : Nat :=
  if n % 2 = 0 then n / 2 else if (n / 2) % 2 = 0 then n / 2 else n / 2 + 1

/-- Tournament size (lines 325-330). -/
def tournamentSize (n : Nat) : Nat :=
  let k := roundHalf n
  let k := if k < 1 then 1 else k
  if n < k then n else k

/-- `possible_selections` (lines 310-321): rows with non-zero probability whose edge has a score, in row order.
A non-zero row that is not an interface has no `.edge` attribute. -/
def possibleSelections (locs : List Loc) (score : EdgeRef → Option ℚ) (c : Nat → ℚ) :
    List Nat → Except Err (List (Nat × ℚ))
  | [] => .ok []
  | i :: is =>
    if c i = 0 then possibleSelections locs score c is
    else
      match locs[i]? with
      | some (.iface f) =>
        match possibleSelections locs score c is with
        | .error e => .error e
        | .ok rest =>
          match score f.edge with
          | some s => .ok ((i, s) :: rest)
          | none => .ok rest
      | some _ => .error .attributeError
      | none => possibleSelections locs score c is

/-- `min(items, key=itemgetter(1))[0]`: first entry with the smallest score.
Part of the model of `simulator/fiber/evolver.py:23-391`. -/
def minItem : List (Nat × ℚ) → Option (Nat × ℚ)
  | [] => none
  | x :: xs =>
    match minItem xs with
    | none => some x
    | some y => if y.2 < x.2 then some y else some x

/-- `hessian_tournament` (lines 306-346), `shuffle` being what `random.shuffle` does to the keys. -/
def hessianTournament (score : EdgeRef → Option ℚ) (shuffle : List Nat → List Nat) (locs : List Loc) (c : Nat → ℚ) :
    Except Err (Nat → ℚ) :=
  match possibleSelections locs score c (List.range locs.length) with
  | .error e => .error e
  | .ok sel =>
    let fullTour := shuffle (sel.map (·.1))
    let tour := sel.filter (fun x => x.1 ∈ fullTour.take (tournamentSize sel.length))
    match minItem tour with
    | none => .ok c
    | some x => .ok (fun i => if i = x.1 then 1 else 0)

/-- `HessianProbabilityEvolver.scale_within_operator` (lines 292-304). -/
def hessianScale (score : EdgeRef → Option ℚ) (shuffle : List Nat → List Nat) :
    List Loc → Op → (Nat → ℚ) → Except Err (Nat → ℚ) := fun locs o c =>
  if o = .remove then hessianTournament score shuffle locs c else .ok c

/-- Generation dependent weights (`update_graph_matrix`, lines 279-286). -/
def genWeight (gen : ℚ) : Op → ℚ
  | .addSeries => 1 - gen
  | .addParallel => 1 - gen
  | .remove => 2 * gen
  | .swap => 1

/-- An individual: graph with lineage (`lib/graph.py:63-65`). -/
structure Ind where
  graph : Graph
  current : Nat
  parent : Nat
  latest : Option Op
deriving DecidableEq

/-- `evolve_graph` (lines 44-88) for any of the evolvers (`matrix` = `update_graph_matrix`): draw flat index `k`, apply, update
(the sort in `update_graph`, line 75), record the lineage with a new uuid.  The parameter-bounds assertion (lines 77-79)
and the printing are left out. -/
def evolveGraph (lib : Library) (matrix : Graph → Except Err PMat) (x : Ind) (k : Nat) (d : Draw) (uuid : Nat) :
    Except Err (Ind × Op) :=
  match matrix x.graph with
  | .error e => .error e
  | .ok P =>
    match P.sample k with
    | .error e => .error e
    | .ok (l, o) =>
      match applyOp lib x.graph o l d with
      | .error e => .error e
      | .ok g' =>
        match g'.topoSort with
        | .error e => .error e
        | .ok _ => .ok (⟨g', uuid, x.current, some o⟩, o)

end Verif
