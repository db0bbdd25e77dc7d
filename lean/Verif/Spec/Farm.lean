import Verif.Model.Farm
import Verif.Spec.Evaluate
/-! # Vocabulary for work distributed over processes (C109) -/

namespace Verif
variable {R E D : Type}

/-- Each of `n` tasks is run once. -/
def Covers (sched : List (Nat × Nat)) (n : Nat) : Prop := (sched.map (·.1)).Perm (List.range n)

/-- The outcome does not depend on the process. -/
def Job.Blind (job : Job R E D) : Prop := ∀ p p' e d, (job p e d).2 = (job p' e d).2

/-- Statements that touch nothing but the modules of the script's own process. -/
def FarmOp.isDriver : FarmOp R E D → Bool
  | .setSwitch _ => true
  | .seed _ => true
  | _ => false

/-- A call of the optimisation in the script's own process. -/
def FarmOp.isHere : FarmOp R E D → Bool
  | .here _ => true
  | _ => false

/-- `ray.put`. -/
def FarmOp.isPut : FarmOp R E D → Bool
  | .put => true
  | _ => false

/-- No signal-to-noise evaluator is put in. -/
def FarmOp.NoSnr {n : Nat} : FarmOp R (Evaluator n) D → Prop
  | .alter e => ¬ e.IsSnr
  | _ => True

/-- The score of a design without free parameters, with the noise switch at `b`. -/
noncomputable def scoreAt {n : Nat} (B : Sim n) (inp : Signal n) (b : Bool) (e : Evaluator n) (d : Fixed) : Except Err ℝ :=
  (propagateAndEvaluate d.graph B inp e ⟨d.params, b, Store.empty⟩).2

end Verif
