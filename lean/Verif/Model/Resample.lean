import Verif.Model.Caches
/-!
# Model of `Graph.resample_all_noise` (`lib/graph.py:243-261`, the same in `simulator/fiber/graph.py:244-263`)

All noise objects of a process share the class variable `AdditiveNoise.simulate_with_noise` and numpy's random generator.  Of a graph only the noise objects of its
components matter, in the order of `graph.nodes` and `graph.edges`; one object may belong to several components.
-/

namespace Verif

/-- All noise objects, the switch and the random generator.
Part of the model of `lib/graph.py:243-261`, `simulator/fiber/graph.py:244-263`. -/
structure NoiseHeap (P V R : Type) where
  objs : Nat → NoiseObj P V
  simulate : Bool
  rng : R

/-- A graph as `resample_all_noise` sees it. `lib/graph.py:243-261`, `simulator/fiber/graph.py:244-263`. -/
structure NoisyGraph where
  /-- `noise_model` of the components on the nodes -/
  nodes : List (Option Nat)
  /-- per edge the value under `'model'`, if there is one: its `noise_model` -/
  edges : List (Option (Option Nat))
  /-- the attribute `_propagate_on_edges`, if the graph has it -/
  onEdges : Option Bool

/-- A graph of this repository: nothing assigns `_propagate_on_edges` (the only occurrences are `lib/graph.py:258` and `simulator/fiber/graph.py:259`); components on nodes
have no noise model (`lib/base_classes.py:34`; the classes that make one, `inputs.py:44,116,147`, `single_path.py:190,445`, `outputs.py:140`, belong on edges), and every edge
has a model. -/
def writtenGraph (nodes : Nat) (edges : List (Option Nat)) : NoisyGraph := ⟨List.replicate nodes none, edges.map some, none⟩

section
variable {P V R S : Type}

/-- `noise_model.resample_noise()` on object `i` (`additive_noise.py:188-205`). -/
def NoiseHeap.resampleOne (N : NoiseRules P V R S) (h : NoiseHeap P V R) (i : Nat) : NoiseHeap P V R × Except Err Unit :=
  let r := resampleNoise N ⟨h.objs i, h.simulate, h.rng⟩ none
  (⟨fun j => if j = i then r.1.obj else h.objs j, r.1.simulate, r.1.rng⟩, r.2)

/-- The loop over the nodes (lines 252-255). -/
def resampleNodes (N : NoiseRules P V R S) : List (Option Nat) → NoiseHeap P V R → NoiseHeap P V R × Except Err Unit
  | [], h => (h, .ok ())
  | none :: ns, h => resampleNodes N ns h
  | some i :: ns, h =>
    match h.resampleOne N i with
    | (h1, .error x) => (h1, .error x)
    | (h1, .ok _) => resampleNodes N ns h1

/-- The loop over the edges (lines 257-261); the attribute is read once per edge. -/
def resampleEdges (N : NoiseRules P V R S) (flag : Option Bool) : List (Option (Option Nat)) → NoiseHeap P V R → NoiseHeap P V R × Except Err Unit
  | [], h => (h, .ok ())
  | e :: es, h =>
    match flag with
    | none => (h, .error .attributeError)
    | some false => resampleEdges N flag es h
    | some true =>
      match e with
      | some (some i) =>
        match h.resampleOne N i with
        | (h1, .error x) => (h1, .error x)
        | (h1, .ok _) => resampleEdges N flag es h1
      | _ => resampleEdges N flag es h

/-- `resample_all_noise(seed)` (lines 249-261). -/
def resampleAllNoise (N : NoiseRules P V R S) (g : NoisyGraph) (seed : Option Nat) (h : NoiseHeap P V R) : NoiseHeap P V R × Except Err Unit :=
  let h0 : NoiseHeap P V R := match seed with
    | some s => ⟨h.objs, h.simulate, N.reseed s⟩
    | none => h
  match resampleNodes N g.nodes h0 with
  | (h1, .error x) => (h1, .error x)
  | (h1, .ok _) => resampleEdges N g.onEdges g.edges h1

end

end Verif
