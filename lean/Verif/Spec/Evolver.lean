import Verif.Model.Evolver
import Verif.Spec.Evolution
/-! # Vocabulary for the evolver's probabilities -/

namespace Verif
open Graph Finset

/-- Number of legal mutations: over all operators, the number of offered locations. -/
def legalCount (lib : Library) (ops : List Op) (g : Graph) (order : List NodeId) : Nat :=
  (ops.map (fun o => (locs lib g order o).length)).sum

/-- Total weight of the operators that have at least one location. -/
def activeWeight (lib : Library) (ops : List Op) (w : Op → ℚ) (g : Graph) (order : List NodeId) : ℚ :=
  (ops.map (fun o => if locs lib g order o = [] then 0 else w o)).sum

/-- Probability that the matrix gives to operator number `j`, over all locations. -/
def PMat.opTotal (M : PMat) (j : Nat) : ℚ := ∑ i ∈ range M.locs.length, M.m i j

/-- The matrix is a probability distribution. -/
structure PMat.IsDistribution (M : PMat) : Prop where
  bounds : ∀ i < M.locs.length, ∀ j < M.ops.length, 0 ≤ M.m i j ∧ M.m i j ≤ 1
  total : M.total = 1

/-- A matrix that gives positive probability to offered pairs only. -/
def OnlyLegal (lib : Library) (g : Graph) (order : List NodeId) (M : PMat) : Prop :=
  ∀ i j l o, M.locs[i]? = some l → M.ops[j]? = some o → 0 < M.m i j → l ∈ locs lib g order o

/-- `k` is `n/2` rounded to the nearest integer, ties to the even one. -/
def IsRoundHalf (n k : Nat) : Prop := 2 * k = n ∨ ((2 * k = n + 1 ∨ 2 * k + 1 = n) ∧ k % 2 = 0)

/-- One call of `evolve_graph`: some matrix builder succeeds, an index of positive probability is drawn, the
random components are drawn from the library, the call returns `y` and operator `o`. -/
def EvoStep (lib : Library) (matrix : Graph → Except Err PMat) (x y : Ind) (l : Loc) (o : Op) (d : Draw) (uuid : Nat) :
    Prop :=
  ∃ M k, matrix x.graph = .ok M ∧ M.CanDraw k ∧ M.sample k = .ok (l, o) ∧ drawOk lib x.graph o l d ∧
    evolveGraph lib matrix x k d uuid = .ok (y, o)

/-- Any number of successive calls (each with its own matrix builder out of the family `ms`), most recent
individual first; `uuid4` never repeats an id. -/
inductive EvoRun (lib : Library) (ms : (Graph → Except Err PMat) → Prop) (x0 : Ind) : List Ind → List Op → Prop
  | start : EvoRun lib ms x0 [x0] []
  | step {x xs os matrix y l o d uuid} : EvoRun lib ms x0 (x :: xs) os → ms matrix →
      EvoStep lib matrix x y l o d uuid → uuid ∉ (x :: xs).map Ind.current → EvoRun lib ms x0 (y :: x :: xs) (o :: os)

/-- The generation dependent matrix of the Hessian evolver. -/
def hessianMatrix (lib : Library) (ops : List Op) (score : EdgeRef → Option ℚ) (shuffle : List Nat → List Nat)
    (gen : ℚ) (g : Graph) : Except Err PMat :=
  weightedMatrix lib ops (hessianScale score shuffle) (genWeight gen) g

end Verif
