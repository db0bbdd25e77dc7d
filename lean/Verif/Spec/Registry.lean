import Verif.Model.Registry
/-! # Vocabulary: operator registries and evolver objects (C101) -/

namespace Verif

/-- The classes declared as evolution operators, in the order of their class statements. -/
def declaredOps : List EvAct → List OpClass
  | [] => []
  | .declare ds c :: as => if RegDeco.evolution ∈ ds then c :: declaredOps as else declaredOps as
  | _ :: as => declaredOps as

/-- `c` is the latest of these classes that has its name. -/
def LatestOfName (cs : List OpClass) (c : OpClass) : Prop := ∃ before after, cs = before ++ c :: after ∧ ∀ d ∈ after, d.name ≠ c.name

/-- The first appearances in a list, in order. -/
def firsts : List String → List String
  | [] => []
  | a :: l => a :: (firsts l).filter (· ≠ a)

/-- The latest generation given to the `i`-th evolver. -/
def lastGen (i : Nat) (as : List EvAct) : Option ℚ :=
  (as.filterMap fun a => match a with
    | .update j gen => if j = i then gen else none
    | _ => none).getLast?

/-- The schedule of the Hessian evolver in one table: as constructed, or for the generation given last. -/
def scheduled : Option ℚ → String → Option ℚ
  | none, n => if n = "AddSeriesComponent" ∨ n = "AddParallelComponent" ∨ n = "SwapComponent" then some 1 else if n = "RemoveComponent" then some 4 else none
  | some t, n => if n = "AddSeriesComponent" ∨ n = "AddParallelComponent" then some (1 - t) else if n = "RemoveComponent" then some (2 * t)
    else if n = "SwapComponent" then some 1 else none

/-- The four names the Hessian evolver knows. -/
def KnownOperator (n : String) : Prop := n ∈ ["AddSeriesComponent", "AddParallelComponent", "RemoveComponent", "SwapComponent"]

/-- The name of an operator's class. -/
def Op.className : Op → String
  | .addSeries => "AddSeriesComponent"
  | .addParallel => "AddParallelComponent"
  | .remove => "RemoveComponent"
  | .swap => "SwapComponent"

end Verif
