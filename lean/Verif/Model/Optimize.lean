import Verif.Model.Params
import Verif.Model.Ga
import Verif.Model.Adam
/-!
# Model of `parameters_optimize` (`algorithms/parameter_optimization.py:21-257`)

With `log_callback=False` and `verbose=False`.  The optimisers of scipy, pyswarm and cma are any strategies that call the objective
function and its gradient a finite number of times.  Propagation and evaluation (`eval`) do not raise; they see the parameters of all
components.  The gradient calls the function, so it leaves its argument in the graph; its value is any function of the call.  The
graph's function was built (`initialize_func_grad_hess`) in the heap `h0`.
-/

namespace Verif
open Graph

/-- Any optimiser: it ends with a vector and the value it holds for it, or asks for a value or gradient and goes on.
Part of the model of `algorithms/parameter_optimization.py:21-257`. -/
inductive Strat where
  | done (x : List ℚ) (f : ℚ)
  | ask (x : List ℚ) (k : ℚ → Strat)
  | askGrad (x : List ℚ) (k : List ℚ → Strat)

/-- The `method` argument. Part of the model of `algorithms/parameter_optimization.py:21-257`. -/
inductive OptMethod where
  | lbfgs | null | lbfgsPso | lbfgsGa | cheap | pso | cma | adam | adamGa | ga | unknown
deriving DecidableEq, Repr

/-- Outside world of `parameters_optimize`. `algorithms/parameter_optimization.py:21-257`. -/
structure OptEnv where
  /-- the gradient, by number of the call within Adam -/
  grad : Nat → List ℚ → List ℚ
  /-- `scipy.optimize.minimize(method='L-BFGS-B')` by `maxiter`, start and bounds -/
  lbfgs : Nat → List ℚ → List ℚ → List ℚ → Strat
  /-- `pyswarm.pso` by number of rounds, swarm size and bounds -/
  pso : Nat → Nat → List ℚ → List ℚ → Strat
  /-- `cma` by start and bounds -/
  cma : List ℚ → List ℚ → List ℚ → Strat
  /-- `graph.sample_parameters_to_list`, by number of the call -/
  gen : Nat → List ℚ
  raw : Nat → Nat
  subset : Nat → Nat → List Nat
  /-- numbers drawn by `graph.sample_parameters()` -/
  rnd : Nat → Rnd
  /-- `np.sqrt` -/
  sqrt : ℚ → ℚ
  /-- `kwargs`: `swarm_size`, `iter_swarm`, `population_size`, `n_generations`, `maxiter` -/
  swarmSize : Nat
  iterSwarm : Nat
  popSize : Nat
  nGen : Nat
  maxIter : Nat

/-- One call of `graph.func`. `algorithms/parameter_optimization.py:34-37`. -/
def callF (g : Graph) (h0 : Heap) (eval : Heap → ℚ) (h : Heap) (x : List ℚ) : Except Err (Heap × ℚ) :=
  match objective g h0 (fun h => .ok (eval h)) h x with
  | (_, .error e) => .error e
  | (h', .ok v) => .ok (h', v)

/-- Some calls, one after the other; the values are dropped. Part of the model of `algorithms/parameter_optimization.py:21-257`. -/
def callMany (g : Graph) (h0 : Heap) (eval : Heap → ℚ) (h : Heap) : List (List ℚ) → Except Err Heap
  | [] => .ok h
  | x :: xs =>
    match callF g h0 eval h x with
    | .error e => .error e
    | .ok (h', _) => callMany g h0 eval h' xs

/-- An optimiser at work. Part of the model of `algorithms/parameter_optimization.py:21-257`. -/
def runStrat (g : Graph) (h0 : Heap) (eval : Heap → ℚ) (grad : List ℚ → List ℚ) : Strat → Heap →
    Except Err (Heap × List ℚ × ℚ)
  | .done x f, h => .ok (h, x, f)
  | .ask x k, h =>
    match callF g h0 eval h x with
    | .error e => .error e
    | .ok (h', v) => runStrat g h0 eval grad (k v) h'
  | .askGrad x k, h =>
    match callF g h0 eval h x with
    | .error e => .error e
    | .ok (h', _) => runStrat g h0 eval grad (k (grad x)) h'

/-- The genetic algorithm on the graph's function (`parameter_optimization.py:109-112`, 222-225, 248-251).  The values are those of calls in the heap at
its start: by C46 earlier calls do not matter.  The calls are then made in order for their effect on the graph. -/
def runGa (e : OptEnv) (g : Graph) (h0 : Heap) (eval : Heap → ℚ) (x0 : List ℚ) (nGen n : Nat) (rateMut rateCrx : ℚ) (h : Heap) :
    Except Err (Heap × List ℚ × ℚ) :=
  let value := fun x => match callF g h0 eval h x with | .ok (_, v) => v | .error _ => 0
  match parametersGA ⟨fun _ => value, e.gen, e.raw, e.subset⟩ x0 nGen n rateMut rateCrx with
  | .error err => .error err
  | .ok (x, s, st) =>
    match callMany g h0 eval h (st.evals.map (·.2)) with
    | .error err => .error err
    | .ok h' => .ok (h', x, s)

/-- Bounded Adam on the graph's gradient (`parameter_optimization.py:205-208`, 230-233). -/
def runAdam (e : OptEnv) (g : Graph) (h0 : Heap) (eval : Heap → ℚ) (lo up x0 : List ℚ) (numIters : Nat) (h : Heap) :
    Except Err (Heap × List ℚ) :=
  match adamBounded ⟨1 / 1000, 9 / 10, 999 / 1000, 1 / 10 ^ 8, 85 / 100000, e.sqrt⟩ lo up e.grad x0 none numIters none none with
  | .error err => .error err
  | .ok (st, _) =>
    match callMany g h0 eval h st.queries with
    | .error err => .error err
    | .ok h' => .ok (h', st.x)

/-- The numbers in a column of an extraction. Part of the model of `algorithms/parameter_optimization.py:21-257`. -/
def numCol : List Val → List ℚ
  | [] => []
  | .num x :: vs => x :: numCol vs
  | _ :: vs => numCol vs

/-- `extract_parameters_to_list` (`lib/graph.py:552-567`): parameters, models, indices and bounds. -/
def extractToList (g : Graph) (h : Heap) : Except Err (List ℚ × List ModelId × List Nat × List ℚ × List ℚ) :=
  match extract [.parameters, .lowerBounds, .upperBounds] g h with
  | .error e => .error e
  | .ok ex =>
    match ex.cols with
    | [ps, ls, us] => .ok (numCol ps, ex.models, ex.index, numCol ls, numCol us)
    | _ => .error .keyError

/-- The last two statements of most branches: distribute the vector, return it with `graph.func` of it.
`algorithms/parameter_optimization.py:34-37`. -/
def finishOpt (g : Graph) (h0 : Heap) (eval : Heap → ℚ) (h : Heap) (x : List ℚ) (models : List ModelId) (index : List Nat) :
    Except Err (Heap × List ℚ × ℚ) :=
  match distribute h x models index with
  | .error e => .error e
  | .ok h' =>
    match callF g h0 eval h' x with
    | .error e => .error e
    | .ok (h'', v) => .ok (h'', x, v)

/-- `parameters_optimize` (`parameter_optimization.py:21-257`): the graph's parameters afterwards, the vector and the score returned. -/
def parametersOptimize (e : OptEnv) (g : Graph) (h0 : Heap) (eval : Heap → ℚ) (x0 : Option (List ℚ)) (method : OptMethod) (h : Heap) :
    Except Err (Heap × List ℚ × ℚ) :=
  match extractToList g h with
  | .error err => .error err
  | .ok (ps, models, index, lo, up) =>
    let x0 := x0.getD ps
    if x0.length = 0 then
      match callF g h0 eval h x0 with
      | .error err => .error err
      | .ok (h', v) => .ok (h', x0, v)
    else
      match method with
      | .lbfgs =>
        match runStrat g h0 eval (e.grad 0) (e.lbfgs 500 x0 lo up) h with
        | .error err => .error err
        | .ok (h1, x, _) => finishOpt g h0 eval h1 x models index
      | .null =>
        match callF g h0 eval h x0 with
        | .error err => .error err
        | .ok (h', v) => .ok (h', x0, v)
      | .lbfgsPso =>
        match runStrat g h0 eval (e.grad 0) (e.pso e.iterSwarm e.swarmSize lo up) h with
        | .error err => .error err
        | .ok (h1, x1, _) =>
          match runStrat g h0 eval (e.grad 0) (e.lbfgs 100 x1 lo up) h1 with
          | .error err => .error err
          | .ok (h2, x, _) => finishOpt g h0 eval h2 x models index
      | .lbfgsGa =>
        match runGa e g h0 eval x0 e.nGen e.popSize (8 / 10) (35 / 100) h with
        | .error err => .error err
        | .ok (h1, x1, _) =>
          match runStrat g h0 eval (e.grad 0) (e.lbfgs e.maxIter x1 lo up) h1 with
          | .error err => .error err
          | .ok (h2, x, _) => finishOpt g h0 eval h2 x models index
      | .cheap =>
        match sampleParameters g .uniform e.rnd h with
        | .error err => .error err
        | .ok h1 =>
          match extractToList g h1 with
          | .error err => .error err
          | .ok (ps1, models1, index1, lo1, up1) =>
            match runStrat g h0 eval (e.grad 0) (e.lbfgs 5 ps1 lo1 up1) h1 with
            | .error err => .error err
            | .ok (h2, x, _) => finishOpt g h0 eval h2 x models1 index1
      | .pso =>
        match runStrat g h0 eval (e.grad 0) (e.pso 40 40 lo up) h with
        | .error err => .error err
        | .ok (h1, x, f) =>
          match distribute h1 x models index with
          | .error err => .error err
          | .ok h2 => .ok (h2, x, f)
      | .cma =>
        match runStrat g h0 eval (e.grad 0) (e.cma x0 lo up) h with
        | .error err => .error err
        | .ok (h1, x, _) => finishOpt g h0 eval h1 x models index
      | .adam =>
        match runAdam e g h0 eval lo up x0 1000 h with
        | .error err => .error err
        | .ok (h1, x) => finishOpt g h0 eval h1 x models index
      | .adamGa =>
        match runGa e g h0 eval x0 20 15 (9 / 10) (9 / 10) h with
        | .error err => .error err
        | .ok (h1, x1, _) =>
          match runAdam e g h0 eval lo up x1 150 h1 with
          | .error err => .error err
          | .ok (h2, x) => finishOpt g h0 eval h2 x models index
      | .ga =>
        match runGa e g h0 eval x0 40 30 (9 / 10) (30 / 100) h with
        | .error err => .error err
        | .ok (h1, x, s) =>
          match distribute h1 x models index with
          | .error err => .error err
          | .ok h2 => .ok (h2, x, s)
      | .unknown => .error .moduleNotFound

end Verif
