import Verif.Model.Physics
import Verif.Model.Scaled
import Verif.Model.Evaluators
/-!
# The objective as a function of the parameters (`lib/graph.py:122-150`)

`graph.func`, `graph.grad`, `graph.hess`.  Automatic differentiation is taken to deliver the derivatives of the function computed, where it has some.
-/

namespace Verif

variable {n : Nat}

/-- `_function` (lines 125-129): the components get the parameters (`optic θ`, `conn θ`; the bookkeeping is in `Model/Params`), the system is
propagated, the evaluator reads a stored state and scores it.  Noise is off. -/
noncomputable def systemScore {E : Type} (P : Prop_ n) (g : Graph) (optic : E → Comp → Optic n) (conn : E → Comp → Connector) (hasNoise : Comp → Bool)
    (inp : Signal n) (old : Store (Signal n)) (at_ : Key) (score : Signal n → Except Err ℝ) (θ : E) : Except Err ℝ :=
  match propagate g (physics P (optic θ) (conn θ) hasNoise) inp old with
  | .error e => .error e
  | .ok st =>
    match st at_ with
    | none => .error .keyError
    | some s => score s

/-- The function that is differentiated (`grad(self.func)`, `hessian(self.func)`, lines 138-141; the Hessian itself is `autoHessian` in `Model/Scaled`).
Where `_function` raises there is no value; the number put there does not matter. -/
noncomputable def funcOf {E : Type} (P : Prop_ n) (g : Graph) (optic : E → Comp → Optic n) (conn : E → Comp → Connector) (hasNoise : Comp → Bool)
    (inp : Signal n) (old : Store (Signal n)) (at_ : Key) (score : Signal n → Except Err ℝ) (θ : E) : ℝ :=
  match systemScore P g optic conn hasNoise inp old at_ score θ with
  | .error _ => 0
  | .ok v => v

end Verif
