import Verif.Model.Evolver
import Verif.Model.Tables
/-!
# Model of `random_graph` (`simulator/fiber/evolver.py:113-128` and 376-390)

The operators change the graph object they are given, so the caller's design is the object evolved.  A call therefore yields the design object as it is
afterwards together with the outcome.
-/

namespace Verif
open Graph

/-- What the random number generators deliver in one call of `evolve_graph`: the flat index (`np.random.choice`), the new components, the new uuid.
`simulator/fiber/evolver.py:44-88`. -/
structure Pick where
  k : Nat
  draw : Draw
  uuid : Nat

/-- `evolve_graph` (`evolver.py:44-88`) on the design object: graph, lineage and component objects.  `matrix` is `update_graph_matrix`; the Hessian evolver's
looks at the parameters too.  When an operator itself raises, the graph is taken to be as before (this does not happen at locations an operator offers, C17 and
C75).  Lines 76-79 raise after the graph has been changed and before the lineage is. -/
def evolveCall (S : Settings) (cls : ClassId → Part) (lib : Library) (matrix : Graph → Heap → Except Err PMat) (x : Ind) (h : Heap) (c : Pick) :
    (Ind × Heap) × Except Err Op :=
  match matrix x.graph h with
  | .error e => ((x, h), .error e)
  | .ok P =>
    match P.sample c.k with
    | .error e => ((x, h), .error e)
    | .ok (l, o) =>
      match applyOp lib x.graph o l c.draw with
      | .error e => ((x, h), .error e)
      | .ok g' =>
        match updateDesign cls g' (construct S cls c.draw h) with
        | .error e => (({ x with graph := g' }, construct S cls c.draw h), .error e)
        | .ok h' =>
          match extractToList g' h' with
          | .error e => (({ x with graph := g' }, h'), .error e)
          | .ok (ps, _, _, lo, up) =>
            if boundsGuard ps lo up then ((⟨g', c.uuid, x.current, some o⟩, h'), .ok o) else (({ x with graph := g' }, h'), .error .assertion)

/-- The loop of `random_graph` from `n` on, one pick per evolution: an `AssertionError` is printed and forgotten (lines 126-127), anything else ends the call. -/
def randomFrom (S : Settings) (cls : ClassId → Part) (lib : Library) (matrix : Nat → Graph → Heap → Except Err PMat) :
    Nat → List Pick → Ind → Heap → (Ind × Heap) × Except Err Unit
  | _, [], x, h => ((x, h), .ok ())
  | n, c :: cs, x, h =>
    match evolveCall S cls lib (matrix n) x h c with
    | ((x', h'), .ok _) => randomFrom S cls lib matrix (n + 1) cs x' h'
    | ((x', h'), .error .assertion) => randomFrom S cls lib matrix (n + 1) cs x' h'
    | (s, .error e) => (s, .error e)

/-- `random_graph` with `n_evolutions = picks.length`.
`simulator/fiber/evolver.py:113-127`, `simulator/fiber/evolver.py:376-391`. -/
def randomGraph (S : Settings) (cls : ClassId → Part) (lib : Library) (matrix : Nat → Graph → Heap → Except Err PMat) (picks : List Pick) (x : Ind) (h : Heap) :
    (Ind × Heap) × Except Err Unit := randomFrom S cls lib matrix 0 picks x h

/-- The uniform evolver: the matrix depends on the graph only (`update_graph_matrix`, lines 107-111). -/
def lookupEvolver (lib : Library) (ops : List Op) : Nat → Graph → Heap → Except Err PMat := fun _ g _ => lookupMatrix lib ops g

/-- The Hessian evolver as `random_graph` (lines 376-390) uses it: `initialize_func_grad_hess` and the scores (`get_all_edge_scores`) first, which may raise, then
the matrix for generation `n`.  `shuffle n` is what `random.shuffle` does in call `n`. -/
def hessianEvolver (lib : Library) (ops : List Op) (scores : Graph → Heap → Except Err (EdgeRef → Option ℚ)) (shuffle : Nat → List Nat → List Nat) :
    Nat → Graph → Heap → Except Err PMat := fun n g h =>
  match scores g h with
  | .error e => .error e
  | .ok s => weightedMatrix lib ops (hessianScale s (shuffle n)) (genWeight n) g

end Verif
