import Verif.Model.Topology
import Verif.Spec.Speciation
/-!
# Vocabulary for population updates and runs (C28-C30, C48-C52)
-/

namespace Verif
variable {C K : Type}

/-- Every graph of the population exists. -/
def Alive (w : Pool C) (pop : List (Indiv K)) : Prop := ∀ p ∈ pop, p.2 < w.next

/-- No object that existed in `w` was altered on the way to `w'`. -/
def Untouched (w w' : Pool C) : Prop := w.next ≤ w'.next ∧ ∀ i < w.next, w'.heap i = w.heap i

/-- Every individual has a score. -/
def AllScored {G : Type} (pop : List (Option K × G)) : Prop := ∀ p ∈ pop, p.1 ≠ none

/-- No individual has a score. -/
def AllUnscored {G : Type} (pop : List (Option K × G)) : Prop := ∀ p ∈ pop, p.1 = none

/-- The individual `c` is new in `w'`, unscored, passed the check and was evolved from graph object `parent` of `w`. -/
def ChildOf (cfg : TopCfg C K) (w w' : Pool C) (call parent : Nat) (c : Indiv K) : Prop :=
  c.1 = none ∧ w.next ≤ c.2 ∧ c.2 < w'.next ∧ cfg.ev call (w.heap parent) = .ok (w'.heap c.2) ∧ cfg.chk (w'.heap c.2) = true

/-- `kept` are `n` best of `pop` under `key` in ascending order; everything is kept if there are no more than `n`. -/
def BestOf {A : Type} [LinearOrder K] (key : A → K) (n : Nat) (pop kept : List A) : Prop :=
  kept.length = min n pop.length ∧ kept.Pairwise (fun a b => key a ≤ key b) ∧
  ∃ dropped, (kept ++ dropped).Perm pop ∧ ∀ a ∈ kept, ∀ b ∈ dropped, key a ≤ key b

/-- The outside world behaves: set iteration orders are orders, and managers are in a state they can be in. -/
structure Sane [Field K] [LinearOrder K] (cfg : TopCfg C K) : Prop where
  orders : ∀ n, (cfg.specRnd n).Honest
  setup : ∀ S, cfg.setup = some S → SpecReach cfg.sqrt S

end Verif
