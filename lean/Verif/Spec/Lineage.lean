import Verif.Spec.Topology
/-! # Vocabulary: who descends from whom in a run (C102) -/

namespace Verif
variable {C K : Type}

/-- `c` mutated until a result passes both checks, each time going on from the rejected result. -/
inductive EvolvedUntil (cfg : TopCfg C K) : C → C → Prop
  | last {n c d} (hev : cfg.ev n c = .ok d) (hc : cfg.chk d = true) (hp : cfg.hasParams d = true) : EvolvedUntil cfg c d
  | again {n c c' d} (hev : cfg.ev n c = .ok c') (hc : cfg.chk c' = false ∨ cfg.hasParams c' = false) (h : EvolvedUntil cfg c' d) :
      EvolvedUntil cfg c d

/-- The design `c` handed to parameter optimisation was made from `p`.  Tournament and roulette: by one mutation, which passes the check.
Preferential: by one mutation that passes both checks, after which the parent's parameter values may have been written over it.  Random: by mutating until the
checks pass. -/
def Begets (cfg : TopCfg C K) (p c : C) : Prop :=
  match cfg.rule with
  | .random => EvolvedUntil cfg p c
  | .preferential _ => ∃ n b, cfg.ev n p = .ok b ∧ cfg.chk b = true ∧ cfg.hasParams b = true ∧ (c = b ∨ c = cfg.over p b)
  | _ => ∃ n, cfg.ev n p = .ok c ∧ cfg.chk c = true

/-- `q` is `p` one generation on: made from it and then optimised. -/
def NextGen (cfg : TopCfg C K) (p q : K × C) : Prop := ∃ b n, Begets cfg p.2 b ∧ cfg.opt n b = .ok q

/-- Settings under which the update rule works on positive scores: tournaments of some size; the roulette with draws in [0, 1) and positive scores; random mutation
without species, when mutated designs have parameters. -/
def RuleWorks [Zero K] [One K] [LT K] [LE K] (cfg : TopCfg C K) (mgr : Option (Spec Nat K)) (P : C → Prop) : Prop :=
  match cfg.rule with
  | .tournament d => 0 < d
  | .roulette _ => (∀ n, 0 ≤ cfg.u n ∧ cfg.u n < 1) ∧ ∀ n c s c', P c → cfg.opt n c = .ok (s, c') → 0 < s
  | .random => cfg.setup = none ∧ mgr = none ∧ 0 < cfg.fuel ∧ ∀ n c c', P c → cfg.ev n c = .ok c' → cfg.hasParams c' = true
  | .preferential _ => False

end Verif
