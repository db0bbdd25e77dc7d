import Verif.Model.Closure
/-!
# Model of the random search for designs (`scripts/run_derivative_phase_terms.py:99-119`)

Graph objects are those of `Model/Closure`: object 0 is `graph` (line 99), object 1 is `graph_init` (line 106).  The evolver's and the optimiser's choices are
arguments; component identities and objective functions are not.
-/

namespace Verif
open Graph

/-- What is chosen in one turn of the inner loop: the operator applied with its location and new components, what `update_graph` does to components, the vectors
at which the optimiser calls the objective, and the vector it ends with.
Part of the model of `scripts/run_derivative_phase_terms.py:99-119`. -/
structure SearchDraw where
  op : Op
  loc : Loc
  d : Draw
  pe : PModel
  pn : PModel
  upd : ModelId → PModel → PModel
  ys : List (List ℚ)
  x : List ℚ

/-- A design at the moment it was scored: the graph, the state of its components, and the score `res[2]`.
Part of the model of `scripts/run_derivative_phase_terms.py:99-119`. -/
structure TriedDesign where
  graph : Graph
  comps : List PModel
  score : ℚ

/-- The variables of the script: all objects, `loss`, `graph_opt`; and, for the record, what was scored.
Part of the model of `scripts/run_derivative_phase_terms.py:99-119`. -/
structure SearchSt where
  w : Process
  loss : ℚ
  best : Option GraphId
  tried : List TriedDesign

/-- Calls of `graph.func`; the first that raises ends the script.
Part of the model of `scripts/run_derivative_phase_terms.py:99-119`. -/
def callEach (eval : Graph → Heap → Except Err ℚ) (lib : Library) (j : GraphId) : List (List ℚ) → Process → Except Err Process
  | [], w => .ok w
  | y :: ys, w =>
    match exec eval lib (.call j y) w with
    | (_, .error e) => .error e
    | (w1, .ok _) => callEach eval lib j ys w1

/-- `parameters_optimize(graph, x0=None, method='L-BFGS+GA')` (`algorithms/parameter_optimization.py:21-29, 97-128`): without free parameters the objective is called
once; otherwise it is called by the algorithms, the result is distributed to the graph's own components and scored once more.  scipy's result has as many entries
as its start (otherwise an error here). -/
def searchOptimize (eval : Graph → Heap → Except Err ℚ) (lib : Library) (j : GraphId) (r : SearchDraw) (w : Process) : Except Err (Process × ℚ) :=
  match w.objs[j]? with
  | none => .error .nameError
  | some o =>
    match extract [] o.graph w.heap with
    | .error e => .error e
    | .ok ex =>
      if r.x.length ≠ ex.models.length then .error .valueError
      else
        match callEach eval lib j (if ex.models.length = 0 then [] else r.ys) w with
        | .error e => .error e
        | .ok w1 =>
          match distribute w1.heap r.x ex.models ex.index with
          | .error e => .error e
          | .ok h2 =>
            match exec eval lib (.call j r.x) { w1 with heap := h2 } with
            | (w3, .ok (some s)) => .ok (w3, s)
            | (_, .ok none) => .error .typeError
            | (_, .error e) => .error e

/-- The body of the inner loop (lines 113-119): `evolve_graph` (in place, with `update_graph`; the function on the graph object is not renewed), optimise, keep a
copy if the score is below `loss`. -/
def searchStep (eval : Graph → Heap → Except Err ℚ) (lib : Library) (j : GraphId) (r : SearchDraw) (st : SearchSt) : Except Err SearchSt :=
  match exec eval lib (.evolve j r.op r.loc r.d r.pe r.pn) st.w with
  | (_, .error e) => .error e
  | (w1, .ok _) =>
    match searchOptimize eval lib j r (exec eval lib (.alter j r.upd) w1).1 with
    | .error e => .error e
    | .ok (w2, s) =>
      match w2.objs[j]? with
      | none => .error .nameError
      | some o =>
        let t := st.tried ++ [⟨o.graph, (getModels o.graph).map w2.heap, s⟩]
        if s < st.loss then .ok ⟨(exec eval lib (.copy j) w2).1, s, some w2.objs.length, t⟩
        else .ok ⟨w2, st.loss, st.best, t⟩

/-- The inner loop. Part of the model of `scripts/run_derivative_phase_terms.py:99-119`. -/
def searchWalk (eval : Graph → Heap → Except Err ℚ) (lib : Library) (j : GraphId) : List SearchDraw → SearchSt → Except Err SearchSt
  | [], st => .ok st
  | r :: rs, st =>
    match searchStep eval lib j r st with
    | .error e => .error e
    | .ok st1 => searchWalk eval lib j rs st1

/-- The outer loop (lines 111-112): every walk starts from a copy of `graph_init`. -/
def searchRounds (eval : Graph → Heap → Except Err ℚ) (lib : Library) : List (List SearchDraw) → SearchSt → Except Err SearchSt
  | [], st => .ok st
  | rs :: rounds, st =>
    match searchWalk eval lib st.w.objs.length rs { st with w := (exec eval lib (.copy 1) st.w).1 } with
    | .error e => .error e
    | .ok st1 => searchRounds eval lib rounds st1

/-- Lines 102-112: the objective is initialised, the graph copied, the search started with `loss = 0.0` and `graph_opt = None`. -/
def runSearch (eval : Graph → Heap → Except Err ℚ) (lib : Library) (rounds : List (List SearchDraw)) (w : Process) : Except Err SearchSt :=
  match exec eval lib (.init 0) w with
  | (_, .error e) => .error e
  | (w1, .ok _) => searchRounds eval lib rounds ⟨(exec eval lib (.copy 0) w1).1, 0, none, []⟩

end Verif
