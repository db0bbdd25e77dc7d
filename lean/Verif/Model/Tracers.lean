import Verif.Model.Propagate
import Verif.Model.Params
/-!
# Traces of automatic differentiation in a design (`lib/autodiff_helpers.py`, `lib/graph.py:122-150, 525-573`, `lib/base_classes.py:73-77`,
`algorithms/topology_optimization.py:539-557`)

`autograd` differentiates by calling the function with numbers wrapped in `ArrayBox`es, one layer per derivative; everything computed from a box is a box.  Of a signal (or of anything
else a component keeps) the model records only how many layers it has; parameters keep their value.  Not modelled: evaluators that write parameters themselves
(`evaluator_phase_sensitivity.py`).
-/

namespace Verif

/-- A parameter: a number, or an `ArrayBox` around one.
Part of the model of `lib/graph.py:122-150, 525-573`, `lib/base_classes.py:73-77`. -/
inductive Num where
  | plain (q : ℚ)
  | box (v : Num)
deriving DecidableEq, Repr

namespace Num

/-- `unwrap_arraybox_val` (`lib/autodiff_helpers.py:9-12`); `unwrap_arraybox_list` (3-7) does it to every entry of a list. -/
def unwrap : Num → ℚ
  | plain q => q
  | box v => unwrap v

/-- The number of layers. Part of the model of `lib/graph.py:122-150, 525-573`, `lib/base_classes.py:73-77`. -/
def depth : Num → Nat
  | plain _ => 0
  | box v => depth v + 1

/-- What a function sees of an argument when it is differentiated `k` times.
Part of the model of `lib/graph.py:122-150, 525-573`, `lib/base_classes.py:73-77`. -/
def traced : Nat → Num → Num
  | 0, v => v
  | k + 1, v => box (traced k v)

end Num

/-- A component: `parameters`, the attributes `_<name>` which `set_parameters_as_attr` (`lib/base_classes.py:73-77`) makes of them, locks, and the layers of what else `propagate` stores
in the object (`_last_gain` and `_last_noise_factor` of the amplifier, `single_path.py:503, 516`; the noise object the phase modulator makes from its parameter, 190). -/
structure TComp where
  params : List Num
  attrs : List Num
  memo : Nat
  locks : List Bool
  nodeLock : Bool

/-- Part of the model of `lib/graph.py:122-150, 525-573`, `lib/base_classes.py:73-77`. -/
abbrev THeap := ModelId → TComp

/-- The free parameters, in the order of `extract_attributes_to_list_experimental` (`lib/graph.py:535-548`). -/
def freeSlots (h : THeap) : List ModelId → List (ModelId × Nat)
  | [] => []
  | m :: ms => (if (h m).nodeLock then [] else ((h m).locks.zipIdx.filter (fun p => !p.1)).map (fun p => (m, p.2))) ++ freeSlots h ms

/-- The list `['parameters']` of `extract_attributes_to_list_experimental` for given places: the entries as they are.
Part of the model of `lib/graph.py:122-150, 525-573`, `lib/base_classes.py:73-77`. -/
def readSlots (h : THeap) : List (ModelId × Nat) → Except Err (List Num)
  | [] => .ok []
  | (m, i) :: ss =>
    match (h m).params[i]? with
    | none => .error .indexError
    | some v =>
      match readSlots h ss with
      | .error e => .error e
      | .ok vs => .ok (v :: vs)

/-- `extract_attributes_to_list_experimental(['parameters'])['parameters']` (`lib/graph.py:525-550`). -/
def rawParameters (g : Graph) (h : THeap) : Except Err (List Num) := readSlots h (freeSlots h (getModels g))

/-- The parameters of `extract_parameters_to_list` (`lib/graph.py:552-567`): unwrapped in the list, which is a new one; the components keep what they have. -/
def plainParameters (g : Graph) (h : THeap) : Except Err (List ℚ) :=
  match rawParameters g h with
  | .error e => .error e
  | .ok vs => .ok (vs.map Num.unwrap)

/-- `distribute_parameters_from_list` (`lib/graph.py:569-573`). -/
def writeSlots (h : THeap) : List Num → List (ModelId × Nat) → Except Err THeap
  | x :: xs, (m, i) :: ss =>
    if i < (h m).params.length then
      writeSlots (fun m' => if m' = m then { h m with params := (h m).params.set i x } else h m') xs ss
    else .error .indexError
  | _, _ => .ok h

/-- How layers spread: `node` and `edge` for the signals, `noise` for the noise added to them (an amplifier's is computed from what its `propagate` has just stored, that is from its
parameters and signal), `keep` for what a component stores besides, `score` for the score, by the layers of the own parameters and of the signals.
Part of the model of `lib/graph.py:122-150, 525-573`, `lib/base_classes.py:73-77`. -/
structure Spread where
  node : ModelId → List Nat → List Nat → Nat → Nat → Except Err (List Nat)
  edge : ModelId → List Nat → Nat → Except Err Nat
  noise : ModelId → Option (List Nat → Nat → Except Err Nat)
  keep : ModelId → List Nat → Store Nat → Nat
  score : Store Nat → Except Err Nat

/-- The components as `propagate` (`lib/graph.py:291-326`) calls them. -/
def Spread.behav (R : Spread) (h : THeap) : Behav Nat where
  node c ins a b := R.node c.uid ((h c.uid).params.map Num.depth) ins a b
  edge c s := R.edge c.uid ((h c.uid).params.map Num.depth) s
  noise c := (R.noise c.uid).map (fun f s => f ((h c.uid).params.map Num.depth) s)

/-- A design and what is kept with it. Part of the model of `lib/graph.py:122-150, 525-573`, `lib/base_classes.py:73-77`. -/
structure TDesign where
  graph : Graph
  heap : THeap
  saves : Store Nat
  /-- The places of `function_wrapper` (`lib/graph.py:131-134`), if `initialize_func_grad_hess` was called. -/
  places : Option (List (ModelId × Nat))
  /-- `scaled_hess_matrix`, by its layers. -/
  matrix : Option Nat

/-- `initialize_func_grad_hess` (`lib/graph.py:137-141`). -/
def TDesign.init (d : TDesign) : TDesign := { d with places := some (freeSlots d.heap (getModels d.graph)) }

/-- `_function` (`lib/graph.py:125-129`), differentiated `k` times: 0 is `graph.func`, 1 `graph.grad`, 2 `graph.hess`.  Parameters are distributed, the signal propagated (every component
sets its attributes first), the score computed.  The layers of the result are those the arguments came with: the new ones are taken off by the derivative.  When propagation raises, what
it did so far is not tracked. -/
def TDesign.call (R : Spread) (k : Nat) (x : List Num) (d : TDesign) : TDesign × Except Err Nat :=
  match d.places with
  | none => (d, .error .typeError)
  | some ps =>
    match writeSlots d.heap (x.map (Num.traced k)) ps with
    | .error e => (d, .error e)
    | .ok h =>
      match propagate d.graph (R.behav h) 0 d.saves with
      | .error e => ({ d with heap := h }, .error e)
      | .ok st =>
        let h' : THeap := fun m =>
          if m ∈ getModels d.graph then { h m with attrs := (h m).params, memo := R.keep m ((h m).params.map Num.depth) st } else h m
        match R.score st with
        | .error e => ({ d with heap := h', saves := st }, .error e)
        | .ok s => ({ d with heap := h', saves := st }, .ok (s - k))

/-- Calls one after the other, as an optimiser makes them; an exception ends it.
Part of the model of `lib/graph.py:122-150, 525-573`, `lib/base_classes.py:73-77`. -/
def TDesign.calls (R : Spread) : List (Nat × List Num) → TDesign → TDesign × Except Err Unit
  | [], d => (d, .ok ())
  | (k, x) :: cs, d =>
    match d.call R k x with
    | (d', .error e) => (d', .error e)
    | (d', .ok _) => d'.calls R cs

/-- `parameters_optimize_complete` (`topology_optimization.py:544-557`), of which the optimiser is a list of calls and its result `x`: without free parameters one call; else the calls of
`parameters_optimize`, the second derivatives (554), and `graph.func(parameters)` once more (556).  The numbers an optimiser returns are plain. -/
def optimizeTraced (R : Spread) (cs : List (Nat × List Num)) (x : List ℚ) (d : TDesign) : TDesign × Except Err Nat :=
  let d0 : TDesign := { d with saves := Store.empty }
  match plainParameters d0.graph d0.heap with
  | .error e => (d0, .error e)
  | .ok x0 =>
    let d1 := d0.init
    if x0 = [] then d1.call R 0 []
    else
      match d1.calls R cs with
      | (d2, .error e) => (d2, .error e)
      | (d2, .ok _) =>
        match d2.call R 2 (x.map .plain) with
        | (d3, .error e) => (d3, .error e)
        | (d3, .ok m) => ({ d3 with matrix := some m } : TDesign).call R 0 (x.map .plain)

/-- A caller that asks for the second derivatives at the parameters the design has, as `update_graph_hessian_data` (`interactive/model.py:252-261`) and
`linked_parameter_checks` (`scripts/hessian_observations.py:127-132`) do, by the extraction that does not unwrap. -/
def TDesign.hessHere (R : Spread) (d : TDesign) : TDesign × Except Err Nat :=
  match rawParameters d.graph d.heap with
  | .error e => (d, .error e)
  | .ok x => d.call R 2 x

end Verif
