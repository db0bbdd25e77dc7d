import Verif.Model.Ops
import Verif.Model.Params
/-!
# Model of objective functions as objects (`lib/graph.py:122-141`)

`initialize_func_grad_hess` stores on the graph object a function that holds on to that graph object, to component objects and to
locations.  `copy.deepcopy` copies the graph and its components but not functions (functions are atomic for `copy`).  `grad` and `hess` are derived
from `func` and refer to the same things.
-/

namespace Verif
open Graph

/-- Identity of a graph object: its place in the list of all graph objects of the process.
Part of the model of `lib/graph.py:122-141`. -/
abbrev GraphId := Nat

/-- What the lambda of `function_wrapper` holds (`lib/graph.py:134`): `self`, `info['models']`, `info['parameter_index']`. Propagator and evaluator never change and
are part of `eval` below. -/
structure Closure where
  self : GraphId
  models : List ModelId
  index : List Nat
deriving DecidableEq, Repr

/-- A graph object with its attribute `func`. Part of the model of `lib/graph.py:122-141`. -/
structure GObj where
  graph : Graph
  func : Option Closure

/-- All component objects, all graph objects; component identities from `next` on are unused.
Part of the model of `lib/graph.py:122-141`. -/
structure Process where
  heap : Heap
  objs : List GObj
  next : Nat

/-- Components replaced according to a renaming of object identities. Part of the model of `lib/graph.py:122-141`. -/
def renameComps (f : ModelId → ModelId) (g : Graph) : Graph :=
  { nodes := g.nodes.map (fun n => { n with comp := { n.comp with uid := f n.comp.uid } })
    edges := g.edges.map (fun e => { e with comp := { e.comp with uid := f e.comp.uid } }) }

/-- What is done with graph objects. Part of the model of `lib/graph.py:122-141`. -/
inductive POp where
  /-- `graph.initialize_func_grad_hess(propagator, evaluator)` -/
  | init (i : GraphId)
  /-- `copy.deepcopy(graph)` -/
  | copy (i : GraphId)
  /-- an evolution operator applied in place; `pe`, `pn` are the attributes of the newly created components -/
  | evolve (i : GraphId) (op : Op) (loc : Loc) (d : Draw) (pe pn : PModel)
  /-- any change of the graph's own components: `update_graph`, `sample_parameters`, `distribute_parameters_from_list` -/
  | alter (i : GraphId) (f : ModelId → PModel → PModel)
  /-- `graph.func(x)` -/
  | call (i : GraphId) (x : List ℚ)

/-- The graph object an operation is applied to. Part of the model of `lib/graph.py:122-141`. -/
def POp.target : POp → GraphId
  | .init i => i
  | .copy i => i
  | .evolve i _ _ _ _ _ => i
  | .alter i _ => i
  | .call i _ => i

/-- One operation: `lib/graph.py:122-141` for `init` and `call`, `copy.deepcopy` for `copy` (identity `u` becomes `next + u`, so that sharing is kept),
`simulator/fiber/evolver.py` operators for `evolve` (see `applyOp`).  `eval` is propagation plus evaluation of a graph. A call that raises in
`distribute_parameters_from_list` leaves parameters half written in Python; the model leaves them unwritten. -/
def exec (eval : Graph → Heap → Except Err ℚ) (lib : Library) (op : POp) (w : Process) : Process × Except Err (Option ℚ) :=
  match w.objs[op.target]? with
  | none => (w, .error .nameError)
  | some o =>
    match op with
    | .init i =>
      match extract [] o.graph w.heap with
      | .error e => (w, .error e)
      | .ok ex => ({ w with objs := w.objs.set i { o with func := some ⟨i, ex.models, ex.index⟩ } }, .ok none)
    | .copy _ =>
      ({ heap := fun m => if w.next ≤ m then w.heap (m - w.next) else w.heap m
         objs := w.objs ++ [{ o with graph := renameComps (fun u => w.next + u) o.graph }]
         next := w.next + w.next }, .ok none)
    | .evolve i op loc d pe pn =>
      match applyOp lib o.graph op loc { d with ec := { d.ec with uid := w.next }, nc := { d.nc with uid := w.next + 1 } } with
      | .error e => (w, .error e)
      | .ok g' =>
        ({ heap := fun m => if m = w.next then pe else if m = w.next + 1 then pn else w.heap m
           objs := w.objs.set i { o with graph := g' }
           next := w.next + 2 }, .ok none)
    | .alter _ f => ({ w with heap := fun m => if m ∈ getModels o.graph then f m (w.heap m) else w.heap m }, .ok none)
    | .call _ x =>
      match o.func with
      | none => (w, .error .typeError)
      | some c =>
        match w.objs[c.self]? with
        | none => (w, .error .nameError)
        | some s =>
          match distribute w.heap x c.models c.index with
          | .error e => (w, .error e)
          | .ok h' =>
            ({ w with heap := h' }, (eval s.graph h').map some)

/-- Operations one after the other; those that raise are skipped. Part of the model of `lib/graph.py:122-141`. -/
def execAll (eval : Graph → Heap → Except Err ℚ) (lib : Library) : List POp → Process → Process
  | [], w => w
  | op :: ops, w => execAll eval lib ops (exec eval lib op w).1

/-- `parameters_optimize_complete` (`algorithms/topology_optimization.py:540-562`) up to the score of the last call: `update_graph` (any change `f` of the own
components), initialise, call the objective at the points `ys` the optimiser chooses, and once more at its result `x` (line 556). -/
def optimizeComplete (eval : Graph → Heap → Except Err ℚ) (lib : Library) (i : GraphId) (f : ModelId → PModel → PModel) (ys : List (List ℚ)) (x : List ℚ)
    (w : Process) : Process × Except Err (Option ℚ) :=
  exec eval lib (.call i x) (execAll eval lib (.alter i f :: .init i :: ys.map (.call i)) w)

end Verif
