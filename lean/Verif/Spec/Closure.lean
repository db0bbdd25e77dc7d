import Verif.Model.Closure
import Verif.Spec.Params
/-! # Vocabulary for objective functions as objects -/

namespace Verif
open Graph

/-- Propagation and evaluation of a graph depend on its own components only. -/
def OwnHeap (eval : Graph → Heap → Except Err ℚ) : Prop :=
  ∀ g h h', (∀ m ∈ componentsOf g, h m = h' m) → eval g h = eval g h'

/-- Graph objects have no component in common, and an objective function refers to components of one graph only (or to components no longer in any graph). -/
structure Separate (w : Process) : Prop where
  used : ∀ (i : Nat) (o : GObj), w.objs[i]? = some o → ∀ m : Nat, m ∈ componentsOf o.graph → m < w.next
  disjoint : ∀ (i j : Nat) (o o' : GObj), w.objs[i]? = some o → w.objs[j]? = some o' → ∀ m : Nat, m ∈ componentsOf o.graph → m ∈ componentsOf o'.graph → i = j
  funcs : ∀ (i : Nat) (o : GObj) (c : Closure), w.objs[i]? = some o → o.func = some c → c.self < w.objs.length ∧
    ∀ m : Nat, m ∈ c.models → m < w.next ∧ ∀ (j : Nat) (o' : GObj), w.objs[j]? = some o' → m ∈ componentsOf o'.graph → j = c.self

/-- The operation leaves graph object `i` and its own components alone, except for calls of objective functions. -/
def POp.Leaves (i : GraphId) : POp → Prop
  | .init j => j ≠ i
  | .copy _ => True
  | .evolve j _ _ _ _ _ => j ≠ i
  | .alter j _ => j ≠ i
  | .call _ _ => True

/-- The operation does not re-initialise the objective function of graph object `i`. -/
def POp.KeepsFunc (i : GraphId) : POp → Prop
  | .init j => j ≠ i
  | _ => True

/-- In `h'` the free parameters of `g` have the values `x`, everything else is as in `h`. -/
structure SetTo (g : Graph) (h : Heap) (x : List ℚ) (h' : Heap) : Prop where
  rest : SameLocked g h h'
  vals : ∃ ex, extract [.parameters] g h' = .ok ex ∧ ex.cols = [x.map .num]

end Verif
