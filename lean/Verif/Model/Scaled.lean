import Verif.Model.Hessian
import Mathlib.Analysis.Calculus.Deriv.Basic
import Mathlib.Analysis.Real.Sqrt
/-!
# Model of the Hessian in units of the imprecisions (`lib/graph.py:137-149`, `lib/hessian.py:30-80`)

Parameters are real vectors of length `n`; the score is any real function of them. Automatic differentiation is exact differentiation.
-/

namespace Verif
open Graph

variable {n : Nat}

/-- `hessian(func)` of autograd (`lib/graph.py:140`): the Jacobian of the gradient; entry `(i, j)` is the derivative in `x j` of the derivative in `x i`. -/
noncomputable def autoHessian (f : (Fin n → ℝ) → ℝ) (x : Fin n → ℝ) : Hess ℝ :=
  { size := n
    entry := fun i j =>
      if h : i < n ∧ j < n then
        deriv (fun t => deriv (fun u => f (Function.update (Function.update x ⟨j, h.2⟩ t) ⟨i, h.1⟩ u)) (Function.update x ⟨j, h.2⟩ t ⟨i, h.1⟩)) (x ⟨j, h.2⟩)
      else 0 }

/-- The inner loop of `extract_attributes_to_list_experimental(['parameter_imprecisions'])` (`lib/graph.py:541-543`) for one component. -/
def imprecisionLoop (imp : List ℝ) : Nat → List Bool → Except Err (List ℝ)
  | _, [] => .ok []
  | i, l :: ls =>
    if l then imprecisionLoop imp (i + 1) ls
    else
      match imp[i]? with
      | none => .error .indexError
      | some s =>
        match imprecisionLoop imp (i + 1) ls with
        | .error e => .error e
        | .ok ss => .ok (s :: ss)

/-- `extract_attributes_to_list_experimental(['parameter_imprecisions'])['parameter_imprecisions']` (`lib/graph.py:145`, 525-550). -/
def imprecisions (h : Heap) (imp : ModelId → List ℝ) : List ModelId → Except Err (List ℝ)
  | [] => .ok []
  | m :: ms =>
    if (h m).nodeLock then imprecisions h imp ms
    else
      match imprecisionLoop (imp m) 0 (h m).locks with
      | .error e => .error e
      | .ok ss =>
        match imprecisions h imp ms with
        | .error e => .error e
        | .ok ts => .ok (ss ++ ts)

/-- `hess * matmul(s, s.T)` (`lib/graph.py:146-149`): elementwise, with numpy's rule for operands of different size (size one is stretched, otherwise
`ValueError`). -/
def scaleHess (s : List ℝ) (H : Hess ℝ) : Except Err (Hess ℝ) :=
  if H.size = s.length then .ok ⟨H.size, fun i j => H.entry i j * (s.getD i 0 * s.getD j 0)⟩
  else if s.length = 1 then .ok ⟨H.size, fun i j => H.entry i j * (s.getD 0 0 * s.getD 0 0)⟩
  else if H.size = 1 then .ok ⟨s.length, fun i j => H.entry 0 0 * (s.getD i 0 * s.getD j 0)⟩
  else .error .valueError

/-- `graph.scaled_hess(parameters)` (`lib/graph.py:143-149`), `f` being the objective `graph.func` was built from. -/
noncomputable def scaledHess (g : Graph) (h : Heap) (imp : ModelId → List ℝ) (f : (Fin n → ℝ) → ℝ) (x : Fin n → ℝ) : Except Err (Hess ℝ) :=
  match imprecisions h imp (getModels g) with
  | .error e => .error e
  | .ok s => scaleHess s (autoHessian f x)

/-- The matrix a run stores as `graph.scaled_hess_matrix` and takes its sensitivity scores from (`algorithms/topology_optimization.py:554`):
`graph.hess(parameters)`. -/
noncomputable def storedHess (f : (Fin n → ℝ) → ℝ) (x : Fin n → ℝ) : Hess ℝ := autoHessian f x

/-- Result of `lha_analysis`. `lib/hessian.py:43-61`. -/
structure Lha where
  warned : Prop
  diagonal : List ℝ
  values : List ℝ
  vectors : List (List ℝ)

/-- `lha_analysis` (`lib/hessian.py:43-61`); `eig` is what `np.linalg.eig` returns, eigenvalues with their columns of the eigenvector matrix (real, as for a
symmetric matrix). `warned` says whether the warning about asymmetry is given. -/
noncomputable def lhaAnalysis (H : Hess ℝ) (eig : List (ℝ × List ℝ)) : Lha :=
  let sorted := eig.mergeSort (fun a b => decide (|a.1| ≤ |b.1|))
  { warned := ∃ i j, i < H.size ∧ j < H.size ∧ H.entry i j - H.entry j i > 1 / 100000
    diagonal := (List.range H.size).map (fun i => H.entry i i)
    values := sorted.map (·.1)
    vectors := sorted.map (·.2) }

/-- The stems drawn by `plot_eigenvectors` (`lib/hessian.py:64-78`): iterating over a matrix gives its rows. The matrix is given by its columns. -/
def plottedVectors (cols : List (List ℝ)) (values : List ℝ) : List (List ℝ × ℝ) :=
  ((List.range cols.length).map (fun i => cols.map (fun c => c.getD i 0))).zip values

end Verif
