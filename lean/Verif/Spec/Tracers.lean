import Verif.Model.Tracers
/-!
# Vocabulary for traces of automatic differentiation
-/

namespace Verif

/-- Nothing has more layers than what it is computed from. -/
structure Spread.Lawful (R : Spread) : Prop where
  node : ∀ (b : Nat) m ps ins i o outs, (∀ p ∈ ps, p ≤ b) → (∀ s ∈ ins, s ≤ b) → R.node m ps ins i o = .ok outs → ∀ s ∈ outs, s ≤ b
  edge : ∀ (b : Nat) m ps s s', (∀ p ∈ ps, p ≤ b) → s ≤ b → R.edge m ps s = .ok s' → s' ≤ b
  noise : ∀ (b : Nat) m f ps s s', R.noise m = some f → (∀ p ∈ ps, p ≤ b) → s ≤ b → f ps s = .ok s' → s' ≤ b
  keep : ∀ (b : Nat) m ps st, (∀ p ∈ ps, p ≤ b) → (∀ k s, st k = some s → s ≤ b) → R.keep m ps st ≤ b
  score : ∀ (b : Nat) st s, (∀ k s, st k = some s → s ≤ b) → R.score st = .ok s → s ≤ b

/-- No box is left anywhere: the design can be saved. -/
structure TDesign.Clean (d : TDesign) : Prop where
  params : ∀ m ∈ getModels d.graph, ∀ v ∈ (d.heap m).params, v.depth = 0
  attrs : ∀ m ∈ getModels d.graph, ∀ v ∈ (d.heap m).attrs, v.depth = 0
  memo : ∀ m ∈ getModels d.graph, (d.heap m).memo = 0
  saves : ∀ k s, d.saves k = some s → s = 0
  matrix : ∀ r, d.matrix = some r → r = 0

/-- The parameters that no optimiser writes are numbers. -/
def TDesign.LockedPlain (d : TDesign) : Prop :=
  ∀ m ∈ getModels d.graph, ∀ i v, (m, i) ∉ freeSlots d.heap (getModels d.graph) → (d.heap m).params[i]? = some v → v.depth = 0

/-- `initialize_func_grad_hess` was called for the design as it is. -/
def TDesign.Ready (d : TDesign) : Prop := d.places = some (freeSlots d.heap (getModels d.graph))

end Verif
