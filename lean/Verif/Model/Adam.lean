import Verif.Model.Graph
import Mathlib.Algebra.Order.Field.Basic
/-!
# Model of bounded Adam (`algorithms/parameter_optimization.py:260-315`, `algorithms/parameter_optimization_utils.py:244-299`)

Both copies are the same but for the gradient taking the iteration number as second argument in the utilities.  Numbers come from
an ordered field, the square root is any function.  The gradient may depend on the number of the iteration (noise).  Arrays of
different lengths raise `ValueError` (numpy would still broadcast arrays of length one).  Division by zero gives `nan` or `inf` and a
warning in numpy; here the run ends with `runtimeWarning`.  The callback and printing are left out.
-/

namespace Verif
variable {K : Type} [Field K] [LinearOrder K]

/-- Numerical arguments.
Part of the model of `algorithms/parameter_optimization.py:260-315`, `algorithms/parameter_optimization_utils.py:244-299`. -/
structure AdamCfg (K : Type) where
  stepSize : K
  b1 : K
  b2 : K
  eps : K
  /-- `convergence_thresh_abs` -/
  thresh : K
  /-- `np.sqrt` -/
  sqrt : K → K

/-- `np.clip` for one entry (the upper bound wins when bounds are reversed).
Part of the model of `algorithms/parameter_optimization.py:260-315`, `algorithms/parameter_optimization_utils.py:244-299`. -/
def clip1 (lo up x : K) : K := min (max x lo) up

/-- `np.clip`.
Part of the model of `algorithms/parameter_optimization.py:260-315`, `algorithms/parameter_optimization_utils.py:244-299`. -/
def clipAll : List K → List K → List K → List K
  | lo :: los, up :: ups, x :: xs => clip1 lo up x :: clipAll los ups xs
  | _, _, _ => []

/-- Entrywise division.
Part of the model of `algorithms/parameter_optimization.py:260-315`, `algorithms/parameter_optimization_utils.py:244-299`. -/
def divAll : List K → List K → Except Err (List K)
  | [], [] => .ok []
  | a :: as, b :: bs =>
    if b = 0 then .error .runtimeWarning
    else
      match divAll as bs with
      | .error e => .error e
      | .ok r => .ok (a / b :: r)
  | _, _ => .error .valueError

/-- Loop variables, with the points at which the gradient was taken.
Part of the model of `algorithms/parameter_optimization.py:260-315`, `algorithms/parameter_optimization_utils.py:244-299`. -/
structure AdamSt (K : Type) where
  x : List K
  m : List K
  v : List K
  /-- ghost: arguments of `grad` so far -/
  queries : List (List K)
deriving DecidableEq, Repr

/-- Lines 292-298: the moments and the step `step_size * mhat / (sqrt(vhat) + eps)`. -/
def adamMove (c : AdamCfg K) (i : Nat) (g m v : List K) : Except Err (List K × List K × List K) :=
  if g.length ≠ m.length ∨ g.length ≠ v.length then .error .valueError
  else
    let m' := List.zipWith (fun g m => (1 - c.b1) * g + c.b1 * m) g m
    let v' := List.zipWith (fun g v => (1 - c.b2) * g ^ 2 + c.b2 * v) g v
    if 1 - c.b1 ^ (i + 1) = 0 ∨ 1 - c.b2 ^ (i + 1) = 0 then .error .runtimeWarning
    else
      let mhat := m'.map (· / (1 - c.b1 ^ (i + 1)))
      let vhat := v'.map (· / (1 - c.b2 ^ (i + 1)))
      match divAll (mhat.map (c.stepSize * ·)) (vhat.map (fun v => c.sqrt v + c.eps)) with
      | .error e => .error e
      | .ok d => .ok (m', v', d)

/-- `np.linalg.norm`.
Part of the model of `algorithms/parameter_optimization.py:260-315`, `algorithms/parameter_optimization_utils.py:244-299`. -/
def norm2 (c : AdamCfg K) (d : List K) : K := c.sqrt (d.map (· ^ 2)).sum

/-- The loop (lines 289-313) from iteration `i` on, `left` iterations left, with the shrunk bounds.  `% 0` raises. -/
def adamLoop (c : AdamCfg K) (lo up : List K) (grad : Nat → List K → List K) (period : Nat) :
    Nat → Nat → AdamSt K → Except Err (AdamSt K × Nat)
  | i, 0, st => .ok (st, i)
  | i, left + 1, st =>
    match adamMove c i (grad i st.x) st.m st.v with
    | .error e => .error e
    | .ok (m, v, d) =>
      if d.length ≠ st.x.length ∨ lo.length ≠ st.x.length ∨ up.length ≠ st.x.length then .error .valueError
      else if period = 0 then .error .zeroDivision
      else
        let st' : AdamSt K := ⟨clipAll lo up (List.zipWith (· - ·) st.x d), m, v, st.queries ++ [st.x]⟩
        if i % period = period - 1 ∧ norm2 c d < c.thresh then .ok (st', i)
        else adamLoop c lo up grad period (i + 1) left st'

/-- `adam_bounded`: the new parameters and moments, with the number reported.
`algorithms/parameter_optimization.py:260-315`, `algorithms/parameter_optimization_utils.py:244-299`. -/
def adamBounded (c : AdamCfg K) (lo up : List K) (grad : Nat → List K → List K) (x : List K) (period : Option Nat)
    (numIters : Nat) (m v : Option (List K)) : Except Err (AdamSt K × Nat) :=
  if lo.length ≠ up.length then .error .valueError
  else
    let delta := List.zipWith (fun u l => (u - l) * (1 / 10 ^ 8)) up lo
    adamLoop c (List.zipWith (· + ·) lo delta) (List.zipWith (· - ·) up delta) grad (period.getD (numIters + 1)) 0 numIters
      ⟨x, m.getD (x.map (fun _ => 0)), v.getD (x.map (fun _ => 0)), []⟩

end Verif
