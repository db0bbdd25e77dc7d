import Verif.Model.Params
import Verif.Model.Components
import Mathlib.Analysis.Real.Sqrt
/-!
# Model of the mutation of one parameter with a triangular distribution (`lib/graph.py:644-669`)

Numbers are real numbers; the draw of numpy is a function of one number in `[0, 1)`.  `simulator/fiber/graph.py:654-680` is the same code.  The
line printed at the end is left out.
-/

namespace Verif

noncomputable section

/-- `np.random.triangular(left, mode, right)`, as numpy computes it from one uniform draw `u` in `[0, 1)`: `ValueError` unless `left ≤ mode ≤ right` and
`left ≠ right`. Part of the model of `lib/graph.py:644-669`, `simulator/fiber/graph.py:654-680`. -/
def numpyTriangular (left mode right u : ℝ) : Except Err ℝ :=
  if mode < left then .error .valueError
  else if right < mode then .error .valueError
  else if left = right then .error .valueError
  else if u ≤ (mode - left) / (right - left) then .ok (left + √(u * ((mode - left) * (right - left))))
  else .ok (right - √((1 - u) * ((right - mode) * (right - left))))

/-- Python's `int` of a number: towards zero. Part of the model of `lib/graph.py:644-669`, `simulator/fiber/graph.py:654-680`. -/
def intOf (x : ℝ) : ℤ := if 0 ≤ x then ⌊x⌋ else ⌈x⌉

/-- Line 653. -/
def triRadius (low up width : ℝ) : ℝ := width * (up - low) / 2

/-- Line 654. -/
def triLeft (p low up width : ℝ) : ℝ := if low < p - triRadius low up width then p - triRadius low up width else low

/-- Line 655. -/
def triRight (p low up width : ℝ) : ℝ := if p + triRadius low up width < up then p + triRadius low up width else up

/-- `triangle_sample` (lines 644-671).  No parameter is `none`; `roundEven` (`Model/Components`) is Python's `round`. -/
def triangleSample (parameter : Option ℝ) (low up : ℝ) (step : Option ℝ) (dt : DType) (width u : ℝ) : Except Err ℝ :=
  match parameter with
  | none => .error .runtimeError
  | some p =>
    match dt with
    | .float =>
      match numpyTriangular (triLeft p low up width) p (triRight p low up width) u with
      | .error e => .error e
      | .ok x =>
        match step with
        | none => .ok x
        | some s => if s = 0 then .error .zeroDivision else .ok (roundEven (x / s) * s)
    | .int =>
      match numpyTriangular (triLeft p low up width) p (triRight p low up width) u with
      | .error e => .error e
      | .ok x => .ok (intOf x)
    | .other => .error .valueError

/-- The mutation of an integer parameter, repeated: one draw for each time, the value found is the parameter of the next time.
Part of the model of `lib/graph.py:644-669`, `simulator/fiber/graph.py:654-680`. -/
def triangleRepeat (low up width : ℝ) : ℝ → List ℝ → Except Err ℝ
  | p, [] => .ok p
  | p, u :: us =>
    match triangleSample (some p) low up none .int width u with
    | .error e => .error e
    | .ok q => triangleRepeat low up width q us

end

end Verif
