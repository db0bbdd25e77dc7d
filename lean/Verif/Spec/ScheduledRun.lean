import Verif.Spec.Lineage
import Verif.Spec.WholeRun
/-! # Vocabulary: at which calls the designs of a run are made (C104) -/

namespace Verif
variable {C K : Type}

/-- `c` was made from `p` by one of the `n` mutations from call number `lo` on, and passed the check. -/
def MadeAt (cfg : TopCfg C K) (lo n : Nat) (p c : C) : Prop := ∃ m, lo ≤ m ∧ m < lo + n ∧ cfg.ev m p = .ok c ∧ cfg.chk c = true

/-- Tournament or roulette: one mutation per child. -/
def Rule.Single {K : Type} (r : Rule K) : Prop := (∃ d, r = .tournament d) ∨ ∃ p, r = .roulette p

open Graph in
/-- A light source that may be exchanged: an unprotected component behind a source terminal. -/
def OpenEnd (g : Graph) : Prop :=
  ∃ n ∈ g.nodes, g.IsSource n.id ∧ n.comp.ntype = .sourceNode ∧ ∃ e ∈ g.edges, e.src = n.id ∧ e.comp.prot = false

/-- Settings of the Hessian evolver under which its matrices are as C15 says: operators listed once, every component scored, `random.shuffle` shuffles. -/
structure Scored (ops : List Op) (scores : Graph → Heap → Except Err (EdgeRef → Option ℚ)) (shuffle : Nat → List Nat → List Nat) : Prop where
  ops : ops.Nodup
  all : ∀ g h s, scores g h = .ok s → ∀ e ∈ g.edges, ∃ x, s e.ref = some x
  perm : ∀ n l, (shuffle n l).Perm l

end Verif
