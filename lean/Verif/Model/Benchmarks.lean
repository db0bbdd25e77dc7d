import Mathlib.Analysis.SpecialFunctions.Trigonometric.Deriv
import Mathlib.Analysis.SpecialFunctions.ExpDeriv
import Mathlib.Analysis.SpecialFunctions.Pow.Real
import Verif.Model.Graph
/-!
# Model of the benchmark functions (`testing/test_functions.py`)

The functions on which the Hessian analysis is tried out: each is given with the range to be plotted and a reference point.  `np.exp`, `np.cos`, `np.sqrt` are the functions
on the real numbers, arithmetic is exact.  Python's `function(x)` takes a list of two entries, here a point of the plane.
-/

namespace Verif
open Real

/-- What one of the functions returns: `function, x_range, y_range, xP` (`testing/test_functions.py:50`), the reference point missing where the tuple has only three entries. -/
structure BenchFn where
  function : ℝ × ℝ → ℝ
  xRange : List ℝ
  yRange : List ℝ
  xP : Option (ℝ × ℝ)

/-- `THETA` (line 37). -/
noncomputable def benchTheta : ℝ := 0.0 * π

/-- `rotate_coordinates` (lines 38-42). -/
noncomputable def rotateCoordinates (x : ℝ × ℝ) : ℝ × ℝ :=
  (x.1 * cos benchTheta - x.2 * sin benchTheta, x.1 * sin benchTheta + x.2 * cos benchTheta)

/-- `booth_function` (lines 44-50). -/
noncomputable def boothFunction : BenchFn where
  function := fun x => let x := rotateCoordinates x; (x.1 + 2 * x.2 - 7) ^ 2 + (2 * x.1 + x.2 - 5) ^ 2
  xRange := [-10, 10]
  yRange := [-10, 10]
  xP := some (1, 3)

/-- `matyas_function` (lines 52-58). -/
noncomputable def matyasFunction : BenchFn where
  function := fun x => 0.26 * (x.1 ^ 2 + x.2 ^ 2) - 0.48 * x.1 * x.2
  xRange := [-10, 10]
  yRange := [-10, 10]
  xP := some (0, 0)

/-- `ackley_function` (lines 62-73). -/
noncomputable def ackleyFunction : BenchFn where
  function := fun x => -20 * exp (-0.25 * √(0.5 * (x.1 ^ 2 + x.2 ^ 2))) - exp (0.5 * (cos (2 * π * x.1) + cos (2 * π * x.2))) + exp 1 + 20
  xRange := [-5, 5]
  yRange := [-5, 5]
  xP := some (0, 0)

/-- `easom_function` (lines 76-86). -/
noncomputable def easomFunction : BenchFn where
  function := fun x => -cos x.1 * cos x.2 * exp (-((x.1 - π) ^ 2 + (x.2 - π) ^ 2)) + 1
  xRange := [-10, 10]
  yRange := [-6, 6]
  xP := some (π, π)

/-- `rastrigin_function` (lines 90-97). -/
noncomputable def rastriginFunction : BenchFn where
  function := fun x => 10 * 2 + x.1 ^ 2 - 10 * cos (2 * π * x.1) + x.2 ^ 2 - 10 * cos (2 * π * x.2)
  xRange := [-5, 5]
  yRange := [-5, 5]
  xP := some (0, 0)

/-- `sphere_function` (lines 100-106). -/
noncomputable def sphereFunction : BenchFn where
  function := fun x => x.1 ^ 2 + x.2 ^ 2
  xRange := [-5, 5]
  yRange := [-5, 5]
  xP := some (0.1, 0.1)

/-- `rosenbrock_function` (lines 109-115). -/
noncomputable def rosenbrockFunction : BenchFn where
  function := fun x => 100 * (x.2 - x.1 ^ 2) ^ 2 + (1 - x.1) ^ 2
  xRange := [-5, 5]
  yRange := [-5, 5]
  xP := some (1, 1)

/-- `beale_function` (lines 119-126); the list on line 124 has three entries. -/
noncomputable def bealeFunction : BenchFn where
  function := fun x => (1.5 - x.1 + x.1 * x.2) ^ 2 + (2.25 - x.1 + x.1 * x.2 ^ 2) ^ 2 + (2.625 - x.1 + x.1 * x.2 ^ 3) ^ 2
  xRange := [-4.5, 4.5]
  yRange := [-4.5, 4, 5]
  xP := some (3, 0.5)

/-- `goldstein_price_function` (lines 129-137). -/
noncomputable def goldsteinPriceFunction : BenchFn where
  function := fun p => let x := p.1; let y := p.2;
    (1 + (x + y + 1) ^ 2 * (19 - 14 * x + 3 * x ^ 2 - 14 * y + 6 * x * y + 3 * y ^ 2)) *
      (30 + (2 * x - 3 * y) ^ 2 * (18 - 32 * x + 12 * x ^ 2 + 48 * y - 36 * x * y + 27 * y ^ 2))
  xRange := [-2, 2]
  yRange := [-2, 2]
  xP := some (0, -1)

/-- `levi13_function` (lines 140-149). -/
noncomputable def levi13Function : BenchFn where
  function := fun p => let x := p.1; let y := p.2;
    sin (3 * π * x) ^ 2 + (x - 1) ^ 2 * (1 + sin (3 * π * y) ^ 2) + (y - 1) ^ 2 * (1 + sin (2 * π * y) ^ 2)
  xRange := [-10, 10]
  yRange := [-10, 10]
  xP := some (1, 1)

/-- `eggholder_function` (lines 152-160): line 160 leaves out the reference point. -/
noncomputable def eggholderFunction : BenchFn where
  function := fun p => let x := p.1; let y := p.2;
    -(y + 47) * sin (√(abs (x / 2 + (y + 47)))) - x * sin (√(abs (x - (y + 47)))) + 959.6407
  xRange := [-512, 512]
  yRange := [-512, 512]
  xP := none

/-- `gaussian_function` (lines 162-167): line 167 leaves out the reference point. -/
noncomputable def gaussianFunction : BenchFn where
  function := fun x => exp (-0.5 * (1 * x.1 ^ 2 + 50 * x.2 ^ 2))
  xRange := [-5, 5]
  yRange := [-5, 5]
  xP := none

/-- The functions of the file by name. Part of the model of `testing/test_functions.py:1-167`. -/
noncomputable def benchNamed (name : String) : Option BenchFn :=
  match name with
  | "booth_function" => some boothFunction
  | "matyas_function" => some matyasFunction
  | "ackley_function" => some ackleyFunction
  | "easom_function" => some easomFunction
  | "rastrigin_function" => some rastriginFunction
  | "sphere_function" => some sphereFunction
  | "rosenbrock_function" => some rosenbrockFunction
  | "beale_function" => some bealeFunction
  | "goldstein_price_function" => some goldsteinPriceFunction
  | "levi13_function" => some levi13Function
  | "eggholder_function" => some eggholderFunction
  | "gaussian_function" => some gaussianFunction
  | _ => none

/-- Entry `i` of `np.linspace(a, b, 1000)` (lines 10, 15). -/
noncomputable def gridPoint (a b : ℝ) (i : Fin 1000) : ℝ := a + i * ((b - a) / 999)

/-- A `TestFunction` (lines 20-32).  `Z i j` is the value at column `i`, row `j` of the mesh. -/
structure TestFn where
  function : ℝ × ℝ → ℝ
  xRange : List ℝ
  yRange : List ℝ
  X : Fin 1000 → ℝ
  Y : Fin 1000 → ℝ
  Z : Fin 1000 → Fin 1000 → ℝ
  xP : ℝ × ℝ
  zP : ℝ

/-- `TestFunction(name)` (lines 12-34).  `eval` of anything but a function of this file is not modelled beyond the `NameError` of an unknown name; unpacking three values into
four variables is a `ValueError`. -/
noncomputable def testFunction (name : String) : Except Err TestFn :=
  match benchNamed name with
  | none => .error .nameError
  | some b =>
    match b.xP with
    | none => .error .valueError
    | some xP =>
      match b.xRange, b.yRange with
      | x0 :: x1 :: _, y0 :: y1 :: _ =>
        .ok ⟨b.function, b.xRange, b.yRange, gridPoint x0 x1, gridPoint y0 y1, fun i j => b.function (gridPoint x0 x1 i, gridPoint y0 y1 j), xP, b.function xP⟩
      | _, _ => .error .indexError

end Verif
