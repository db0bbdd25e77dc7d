import Verif.Model.Evaluate
/-!
# Model of the distribution of a run over processes (`algorithms/topology_optimization.py:60-64, 79, 115-120, 567-569`)

`ray` is modelled by what its documentation says of the default mode: a task is run by some worker process; a worker has imported the modules for itself and runs one task at a
time; arguments are pickled when the task is handed in, objects of `ray.put` when they are put, and each task works on its own copies; what a task returns comes back as a new object.
Which worker runs a task, and in which order, is up to `ray`.  `local_mode` is not modelled.
-/

namespace Verif

/-- What the modules of one process hold: the class variable `AdditiveNoise.simulate_with_noise` and the random generators.
Part of the model of `algorithms/topology_optimization.py:60-64, 79, 115-120, 567-569`. -/
structure Proc (R : Type) where
  switch : Bool
  rng : R
deriving DecidableEq, Repr

/-- A process that has just imported the modules (`simulator/fiber/assets/additive_noise.py:30`); the generators start from whatever the operating system supplies. -/
def Proc.boot {R : Type} (r : R) : Proc R := ⟨true, r⟩

/-- `parameters_optimize_complete(individual, evaluator, propagator)` (`topology_optimization.py:539-564`) in a process: what it leaves there, and the individual it returns (the one it
was given, changed) or the exception.  `E` are evaluator and propagator, `D` is an individual. -/
abbrev Job (R E D : Type) := Proc R → E → D → Proc R × Except Err D

/-- The process of the script (`driver`, with its evaluator and propagator objects and all individuals it ever held), the object store and the workers.
Part of the model of `algorithms/topology_optimization.py:60-64, 79, 115-120, 567-569`. -/
structure Farm (R E D : Type) where
  driver : Proc R
  own : E
  stored : Option E
  workers : Nat → Proc R
  objs : List D

variable {R E D : Type}

/-- Tasks handed in, by position in the list and worker, in the order in which they are run: what the workers are left with, and the outcomes by position.
Part of the model of `algorithms/topology_optimization.py:60-64, 79, 115-120, 567-569`. -/
def runTasks (job : Job R E D) (e : E) (inputs : List D) : List (Nat × Nat) → (Nat → Proc R) → (Nat → Proc R) × (Nat → Option (Except Err D))
  | [], ws => (ws, fun _ => none)
  | (i, w) :: rest, ws =>
    match inputs[i]? with
    | none => runTasks job e inputs rest ws
    | some d =>
      let r := runTasks job e inputs rest (fun v => if v = w then (job (ws w) e d).1 else ws v)
      (r.1, fun j => if j = i then some (job (ws w) e d).2 else r.2 j)

/-- `ray.get` of a list (line 115): the results by position; the exception of a failed task.  (Of several, the model takes the first in the list.)  A task that is never run blocks. -/
def rayGet : List (Option (Except Err D)) → Except Err (List D)
  | [] => .ok []
  | none :: _ => .error .diverges
  | some (.error x) :: _ => .error x
  | some (.ok d) :: rest =>
    match rayGet rest with
    | .error x => .error x
    | .ok ds => .ok (d :: ds)

/-- The objects at the given places. Part of the model of `algorithms/topology_optimization.py:60-64, 79, 115-120, 567-569`. -/
def fetchAll (objs : List D) : List Nat → Except Err (List D)
  | [] => .ok []
  | k :: ks =>
    match objs[k]? with
    | none => .error .indexError
    | some d =>
      match fetchAll objs ks with
      | .error x => .error x
      | .ok ds => .ok (d :: ds)

/-- What a script does. Part of the model of `algorithms/topology_optimization.py:60-64, 79, 115-120, 567-569`. -/
inductive FarmOp (R E D : Type) where
  /-- `AdditiveNoise.simulate_with_noise = b` -/
  | setSwitch (b : Bool)
  /-- `random.seed`, `np.random.seed`, any drawing -/
  | seed (r : R)
  /-- evaluator or propagator are changed -/
  | alter (e : E)
  /-- an individual is made -/
  | make (d : D)
  /-- `ray.put` (line 64) -/
  | put
  /-- `parameters_optimize_complete` called directly, as for the start (line 79) -/
  | here (k : Nat)
  /-- lines 115-120, for the individuals `ks`, tasks run as in `sched` -/
  | farm (ks : List Nat) (sched : List (Nat × Nat))

/-- One statement: the state afterwards, and the places of the individuals it returns.
Part of the model of `algorithms/topology_optimization.py:60-64, 79, 115-120, 567-569`. -/
def Farm.step (job : Job R E D) (s : Farm R E D) : FarmOp R E D → Farm R E D × Except Err (List Nat)
  | .setSwitch b => ({ s with driver := { s.driver with switch := b } }, .ok [])
  | .seed r => ({ s with driver := { s.driver with rng := r } }, .ok [])
  | .alter e => ({ s with own := e }, .ok [])
  | .make d => ({ s with objs := s.objs ++ [d] }, .ok [s.objs.length])
  | .put => ({ s with stored := some s.own }, .ok [])
  | .here k =>
    match s.objs[k]? with
    | none => (s, .error .indexError)
    | some d =>
      match job s.driver s.own d with
      | (p, .error x) => ({ s with driver := p }, .error x)
      | (p, .ok d') => ({ s with driver := p, objs := s.objs.set k d' }, .ok [k])
  | .farm ks sched =>
    match s.stored with
    | none => (s, .error .nameError)
    | some e =>
      match fetchAll s.objs ks with
      | .error x => (s, .error x)
      | .ok ds =>
        let r := runTasks job e ds sched s.workers
        match rayGet ((List.range ds.length).map r.2) with
        | .error x => ({ s with workers := r.1 }, .error x)
        | .ok ds' => ({ s with workers := r.1, objs := s.objs ++ ds' }, .ok ((List.range ds'.length).map (s.objs.length + ·)))

/-- Statements in sequence; exceptions are caught.
Part of the model of `algorithms/topology_optimization.py:60-64, 79, 115-120, 567-569`. -/
def Farm.run (job : Job R E D) (s : Farm R E D) (ops : List (FarmOp R E D)) : Farm R E D := ops.foldl (fun s o => (s.step job o).1) s

/-- The state when the script begins: nothing is in the store, the workers (whose number is not bounded here) have imported the modules.
Part of the model of `algorithms/topology_optimization.py:60-64, 79, 115-120, 567-569`. -/
def Farm.start (driver : Proc R) (e : E) (boot : Nat → R) : Farm R E D := ⟨driver, e, none, fun w => Proc.boot (boot w), []⟩

/-- An individual without free parameters: its parameters, its graph and its score.
Part of the model of `algorithms/topology_optimization.py:60-64, 79, 115-120, 567-569`. -/
structure Fixed where
  params : ModelId → List ℝ
  graph : Graph
  score : Option ℝ

/-- `parameters_optimize_complete` for such an individual (line 550: `return graph.func(x0), graph`); `graph.func` propagates and evaluates. -/
noncomputable def evalJob {n : Nat} (B : Sim n) (inp : Signal n) : Job R (Evaluator n) Fixed := fun p ev d =>
  match propagateAndEvaluate d.graph B inp ev ⟨d.params, p.switch, Store.empty⟩ with
  | (w, .error x) => (⟨w.flag, p.rng⟩, .error x)
  | (w, .ok v) => (⟨w.flag, p.rng⟩, .ok ⟨w.params, d.graph, some v⟩)

end Verif
