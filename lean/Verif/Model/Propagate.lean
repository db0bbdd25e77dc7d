import Verif.Model.Topo
/-!
# Model of signal propagation (`lib/graph.py:182-241,285-329`)

Optical states are an abstract type `S`; what a component does to them is an arbitrary function that may raise.
-/

namespace Verif
open Graph

/-- Behaviour of the components: `node` is `model.propagate(states, propagator, num_inputs, num_outputs)` of a node
model, `edge` is `model.propagate(state, propagator)` of an edge model, `noise` the edge's
`noise_model.add_noise_to_propagation` (`none` when `noise_model is None`).  Everything these calls read (the
propagator, cached noise vectors, parameters) is part of the functions. `lib/graph.py:291-326` (the calls of `model.propagate`). -/
structure Behav (S : Type) where
  node : Comp → List S → Nat → Nat → Except Err (List S)
  edge : Comp → S → Except Err S
  noise : Comp → Option (S → Except Err S)

/-- Keys of `_propagator_saves`: nodes and edges. Part of the model of `lib/graph.py:182-241,285-329`. -/
inductive Key where
  | node (v : NodeId)
  | edge (r : EdgeRef)
deriving DecidableEq, Repr

/-- `_propagator_saves`. Part of the model of `lib/graph.py:182-241,285-329`. -/
abbrev Store (S : Type) := Key → Option S

namespace Store
variable {S : Type}

/-- Part of the model of `lib/graph.py:182-241,285-329`. -/
def empty : Store S := fun _ => none

/-- `d[k] = s`. Part of the model of `lib/graph.py:182-241,285-329`. -/
def put (st : Store S) (k : Key) (s : S) : Store S := fun k' => if k' = k then some s else st k'

end Store

/-- Lines 309-310: collect the states on the incoming edges; a missing one is a `KeyError`. -/
def collect {S : Type} (st : Store S) : List Edge → Except Err (List S)
  | [] => .ok []
  | e :: es =>
    match st (.edge e.ref) with
    | none => .error .keyError
    | some s =>
      match collect st es with
      | .error x => .error x
      | .ok ss => .ok (s :: ss)

/-- Lines 318-323: edge model, then its noise model. -/
def throughEdge {S : Type} (B : Behav S) (e : Edge) (s : S) : Except Err S :=
  match B.edge e.comp s with
  | .error x => .error x
  | .ok s' =>
    match B.noise e.comp with
    | none => .ok s'
    | some f => f s'

/-- The loop of lines 317-325 from output port `i` on; `states[i]` may raise `IndexError`. -/
def outLoop {S : Type} (B : Behav S) (states : List S) : Nat → List Edge → Store S → Except Err (Store S)
  | _, [], st => .ok st
  | i, e :: es, st =>
    match states[i]? with
    | none => .error .indexError
    | some s =>
      match throughEdge B e s with
      | .error x => .error x
      | .ok s' => outLoop B states (i + 1) es (st.put (.edge e.ref) s')

/-- Body of the loop over nodes (lines 303-325). -/
def propNode {S : Type} (g : Graph) (B : Behav S) (inp : S) (v : NodeId) (st : Store S) : Except Err (Store S) :=
  match (if g.inEdges v = [] then .ok [inp] else collect st (g.inEdges v)) with
  | .error x => .error x
  | .ok ins =>
    match g.node? v with
    | none => .error .keyError
    | some n =>
      match B.node n.comp ins (g.inDeg v) (g.outDeg v) with
      | .error x => .error x
      | .ok outs =>
        if g.outDeg v = 0 then
          match outs[0]? with
          | none => .error .indexError
          | some s => outLoop B outs 0 (g.outEdges v) (st.put (.node v) s)
        else outLoop B outs 0 (g.outEdges v) st

/-- The loop over the propagation order. Part of the model of `lib/graph.py:182-241,285-329`. -/
def propLoop {S : Type} (g : Graph) (B : Behav S) (inp : S) : List NodeId → Store S → Except Err (Store S)
  | [], st => .ok st
  | v :: vs, st =>
    match propNode g B inp v st with
    | .error x => .error x
    | .ok st' => propLoop g B inp vs st'

/-- `propagate` (lines 291-326) for a given topological order; what was stored before (`_old`) is dropped (line 299). -/
def propagateWith {S : Type} (g : Graph) (B : Behav S) (inp : S) (order : List NodeId) (_old : Store S) :
    Except Err (Store S) := propLoop g B inp order Store.empty

/-- `propagate` with networkx' own order. `lib/graph.py:291-326`. -/
def propagate {S : Type} (g : Graph) (B : Behav S) (inp : S) (old : Store S) : Except Err (Store S) :=
  match g.topoSort with
  | .error x => .error x
  | .ok order => propagateWith g B inp order old

/-- `get_output_node` (lines 285-289); `IndexError` when every node has an output. -/
def outputNode (g : Graph) : Except Err NodeId :=
  match g.ids.filter (fun v => g.outEdges v = []) with
  | [] => .error .indexError
  | v :: _ => .ok v

/-- Process state seen by the output functions: the class variable `AdditiveNoise.simulate_with_noise` and the
stored states of the graph. Part of the model of `lib/graph.py:182-241,285-329`. -/
structure World (S : Type) where
  flag : Bool
  saves : Store S

/-- `get_output_signal` (`force = true`, lines 182-203) and `get_output_signal_pure` (`force = false`, lines 205-225).
`B` gives the behaviour of the components for each value of the noise switch.  After an exception the stored states
are a partial result in Python; the model does not track them and keeps the old ones. -/
def getOutput {S : Type} (force : Bool) (g : Graph) (B : Bool → Behav S) (inp : S) (node : Option Key) (w : World S) :
    World S × Except Err S :=
  let target : Except Err Key := match node with
    | some k => .ok k
    | none => match outputNode g with
      | .error e => .error e
      | .ok v => .ok (.node v)
  match target with
  | .error e => (w, .error e)
  | .ok k =>
    let start := w.flag
    -- `AdditiveNoise.simulate_with_noise = force`
    match propagate g (B force) inp w.saves with
    | .error e => (⟨force, w.saves⟩, .error e)
    | .ok st =>
      (⟨start, st⟩, match st k with
        | none => .error .keyError
        | some s => .ok s)

/-- `get_output_noise` (lines 227-241). -/
def getNoise {S : Type} [Sub S] (g : Graph) (B : Bool → Behav S) (inp : S) (node : Option Key) (w : World S) :
    World S × Except Err S :=
  match getOutput true g B inp node w with
  | (w1, .error e) => (w1, .error e)
  | (w1, .ok noisy) =>
    match getOutput false g B inp node w1 with
    | (w2, .error e) => (w2, .error e)
    | (w2, .ok pure) => (w2, .ok (noisy - pure))

end Verif
