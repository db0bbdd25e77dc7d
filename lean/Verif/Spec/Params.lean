import Verif.Model.Params
/-! # Vocabulary for parameter lists -/

namespace Verif
open Graph

/-- Parameter `i` of component `m` may be changed: neither the component nor the parameter is locked. -/
def Unlocked (h : Heap) (m : ModelId) (i : Nat) : Prop :=
  (h m).nodeLock = false ∧ (h m).locks[i]? = some false

/-- The components of a graph, with repetition if a component sits in several places: first those of the nodes, then those of the edges. -/
def componentsOf (g : Graph) : List ModelId := g.nodes.map (·.comp.uid) ++ g.edges.map (·.comp.uid)

/-- Two heaps differ at most in values of unlocked parameters of the components of `g`. -/
structure SameLocked (g : Graph) (h h' : Heap) : Prop where
  lower : ∀ m, (h' m).lower = (h m).lower
  upper : ∀ m, (h' m).upper = (h m).upper
  dtypes : ∀ m, (h' m).dtypes = (h m).dtypes
  steps : ∀ m, (h' m).steps = (h m).steps
  locks : ∀ m, (h' m).locks = (h m).locks
  nodeLock : ∀ m, (h' m).nodeLock = (h m).nodeLock
  length : ∀ m, (h' m).params.length = (h m).params.length
  locked : ∀ m i, ¬ (m ∈ getModels g ∧ Unlocked h m i) → (h' m).params[i]? = (h m).params[i]?

/-- Every component of `g` has a value for each entry of its lock list. -/
def ParamsPresent (g : Graph) (h : Heap) : Prop := ∀ m ∈ getModels g, (h m).locks.length ≤ (h m).params.length

/-- What a sampled value has to satisfy. -/
def WithinBounds (low up : ℚ) (step : Option ℚ) (dt : DType) (x : ℚ) : Prop :=
  match dt, step with
  | .float, none => low ≤ x ∧ x ≤ up
  | .float, some s => (∃ k : ℤ, x = k * s) ∧ low - s / 2 ≤ x ∧ x ≤ up + s / 2 ∧
      ((∃ z : ℤ, low = z * s) → low ≤ x) ∧ ((∃ z : ℤ, up = z * s) → x ≤ up)
  | .int, none => (∃ k : ℤ, x = k) ∧ low - 1 < x ∧ x < up ∧ ((∃ z : ℤ, low = z) → low ≤ x)
  | .int, some s => (∃ k : ℤ, x = k * s) ∧ low - s < x ∧ x < up ∧ ((∃ z : ℤ, low = z * s) → low ≤ x)
  | .other, _ => False

end Verif
