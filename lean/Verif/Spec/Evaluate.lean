import Verif.Model.Evaluate
import Verif.Spec.Propagate
/-! # Vocabulary for evaluations -/

namespace Verif
open Graph

variable {n : Nat}

/-- Simulating the design with noise switch `f` and parameters `p` yields state `s` at `k`. -/
def Delivers (g : Graph) (B : Sim n) (inp : Signal n) (f : Bool) (p : ModelId → List ℝ) (k : Key) (s : Signal n) : Prop :=
  ∃ F, IsFlow g (B f p) inp F ∧ F k = some s

/-- Parameters with those of one component replaced. -/
def withParams (p : ModelId → List ℝ) (m : ModelId) (ps : List ℝ) : ModelId → List ℝ := fun x => if x = m then ps else p x

/-- What a component does depends on its own parameters only. -/
def OwnParams (B : Sim n) : Prop := ∀ f p p' (c : Comp), p c.uid = p' c.uid →
  (B f p).node c = (B f p').node c ∧ (B f p).edge c = (B f p').edge c ∧ (B f p).noise c = (B f p').noise c

/-- Phase shifters have one parameter: the components an evaluator sets have exactly one value. -/
def OnePhase (p : ModelId → List ℝ) (g : Graph) : Evaluator n → Prop
  | .phase cls _ => ∀ e ∈ g.edges, e.comp.cls = cls → ∃ φ, p e.comp.uid = [φ]
  | .second _ m1 m2 _ => (∃ φ, p m1 = [φ]) ∧ ∃ φ, p m2 = [φ]
  | _ => True

/-- The evaluator measures the signal-to-noise ratio. -/
def Evaluator.IsSnr : Evaluator n → Prop
  | .snr _ => True
  | _ => False

/-- The evaluator reads stored states only. -/
def Evaluator.IsStored : Evaluator n → Prop
  | .stored _ _ => True
  | _ => False

/-- Evaluations one after the other, of any designs, in one process. The last stored states stay around. -/
noncomputable def evaluateAll (B : Sim n) (inp : Signal n) : List (Graph × Evaluator n) → Session n → Session n
  | [], w => w
  | x :: xs, w => evaluateAll B inp xs (evaluate x.1 B inp x.2 w).1

/-- Number of edges whose component is of class `c`. -/
def edgeClassCount (g : Graph) (c : ClassId) : Nat := g.edges.countP (fun e => e.comp.cls = c)

end Verif
