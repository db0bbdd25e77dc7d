import Verif.Model.Graph
import Mathlib.Data.List.Sort
import Mathlib.Algebra.Order.Floor.Ring
import Mathlib.Data.Rat.Floor
/-!
# Model of the parameter genetic algorithm (`algorithms/parameter_optimization.py:318-406`)

Parameter vectors are lists over a linear order, the objective function and the generator of random vectors are functions of
the number of the call (so they may be noisy).  Every random number is drawn from a stream of natural numbers and reduced to the
range asked for.  Printing is left out.
-/

namespace Verif
variable {K : Type}

/-- Outside world of the algorithm. Part of the model of `algorithms/parameter_optimization.py:318-406`. -/
structure GaEnv (K : Type) where
  /-- `func`, by number of the call -/
  fn : Nat → List K → K
  /-- `generate_random_func`, by number of the call -/
  gen : Nat → List K
  /-- raw random numbers -/
  raw : Nat → Nat
  /-- `np.random.choice(range(len), num, replace=False)` with `num` drawn from `1..len`, by number of the call and `len` -/
  subset : Nat → Nat → List Nat

/-- `crossover_singlepoint` (lines 377-384); `randint(1, len)` raises for a length below two, the bare `except` returns the parents. -/
def crossoverSingle (raw : Nat) (p1 p2 : List K) : List K × List K :=
  if p1.length ≤ 1 then (p1, p2)
  else
    let c := 1 + raw % (p1.length - 1)
    (p1.take c ++ p2.drop c, p2.take c ++ p1.drop c)

/-- `crossover_doublepoint` (lines 387-392); `randint(2, len)` raises for a length below three. -/
def crossoverDouble (raw1 raw2 : Nat) (p1 p2 : List K) : Except Err (List K × List K) :=
  if p1.length ≤ 2 then .error .valueError
  else
    let r1 := 2 + raw1 % (p1.length - 2)
    let r2 := 2 + raw2 % (p1.length - 2)
    let a := min r1 r2
    let b := max r1 r2
    .ok (p1.take a ++ (p2.take b).drop a ++ p1.drop b, p2.take a ++ (p1.take b).drop a ++ p2.drop b)

/-- The comprehension in line 404, from index `i` on. -/
def mixFrom (inds : List Nat) : Nat → List K → List K → List K
  | i, p :: ps, m :: ms => (if i ∈ inds then m else p) :: mixFrom inds (i + 1) ps ms
  | _, _, _ => []

/-- `mutation` (lines 395-406); `random.randint(1, 0)` raises. -/
def mutate (inds : List Nat) (parent mutant : List K) : Except Err (List K) :=
  if mutant.length = 0 then .error .valueError else .ok (mixFrom inds 0 parent mutant)

/-- State of the algorithm: population, numbers of calls and draws so far.
Part of the model of `algorithms/parameter_optimization.py:318-406`. -/
structure GaSt (K : Type) where
  pop : List (Option K × List K)
  calls : Nat
  gens : Nat
  draws : Nat
  /-- ghost: every evaluation made, in order -/
  evals : List (K × List K)
  /-- scores handed to the logger -/
  log : List K

/-- Two different members of a population (`random.sample(population, 2)`), `ValueError` if it has fewer.
Part of the model of `algorithms/parameter_optimization.py:318-406`. -/
def sampleTwo (e : GaEnv K) (draw : Nat) (pop : List (Option K × List K)) : Except Err (List K × List K) :=
  let n := pop.length
  if n < 2 then .error .valueError
  else
    let i := e.raw draw % n
    let j := (i + 1 + e.raw (draw + 1) % (n - 1)) % n
    match pop[i]?, pop[j]? with
    | some a, some b => .ok (a.2, b.2)
    | _, _ => .error .indexError

/-- Crossover loop (lines 337-344). -/
def crossLoop (e : GaEnv K) : Nat → GaSt K → Except Err (GaSt K)
  | 0, st => .ok st
  | n + 1, st =>
    match sampleTwo e st.draws st.pop with
    | .error x => .error x
    | .ok (p1, p2) =>
      let (c1, c2) := crossoverSingle (e.raw (st.draws + 2)) p1 p2
      crossLoop e n { st with pop := st.pop ++ [(none, c1), (none, c2)], draws := st.draws + 3 }

/-- Mutation loop (lines 345-349). -/
def mutLoop (e : GaEnv K) : Nat → GaSt K → Except Err (GaSt K)
  | 0, st => .ok st
  | n + 1, st =>
    if st.pop.length = 0 then .error .valueError
    else
      match st.pop[e.raw st.draws % st.pop.length]? with
      | none => .error .indexError
      | some p =>
        let m := e.gen st.gens
        match mutate (e.subset (st.draws + 1) m.length) p.2 m with
        | .error x => .error x
        | .ok c => mutLoop e n { st with pop := st.pop ++ [(none, c)], draws := st.draws + 2, gens := st.gens + 1 }

/-- One evaluation. Part of the model of `algorithms/parameter_optimization.py:318-406`. -/
def GaSt.eval (st : GaSt K) (e : GaEnv K) (x : List K) : GaSt K × K :=
  let s := e.fn st.calls x
  ({ st with calls := st.calls + 1, evals := st.evals ++ [(s, x)] }, s)

/-- New random individuals (lines 351-355). -/
def newLoop (e : GaEnv K) : Nat → GaSt K → GaSt K
  | 0, st => st
  | n + 1, st =>
    let x := e.gen st.gens
    let (st', s) := st.eval e x
    newLoop e n { st' with pop := st'.pop ++ [(some s, x)], gens := st'.gens + 1 }

/-- Scoring loop (lines 358-362), over the rest of the population. -/
def scoreLoop (e : GaEnv K) : List (Option K × List K) → GaSt K → GaSt K × List (K × List K)
  | [], st => (st, [])
  | (some s, x) :: pop, st =>
    let (st', rest) := scoreLoop e pop st
    (st', (s, x) :: rest)
  | (none, x) :: pop, st =>
    let (st1, s) := st.eval e x
    let (st2, rest) := scoreLoop e pop st1
    (st2, (s, x) :: rest)

section
variable [LinearOrder K]

/-- Comparison of lists of numbers in python. Part of the model of `algorithms/parameter_optimization.py:318-406`. -/
def listLe : List K → List K → Bool
  | [], _ => true
  | _ :: _, [] => false
  | a :: as, b :: bs => if a = b then listLe as bs else decide (a < b)

/-- Comparison of `(score, vector)` in python: the vector decides between equal scores.
Part of the model of `algorithms/parameter_optimization.py:318-406`. -/
def tupleLe (a b : K × List K) : Bool := if a.1 = b.1 then listLe a.2 b.2 else decide (a.1 < b.1)

/-- Lines 365-367: sort, then `population[:-(len(population) - n) or None]`. -/
def survive (n : Nat) (pop : List (K × List K)) : List (K × List K) :=
  let sorted := pop.insertionSort (fun a b => tupleLe a b = true)
  if sorted.length - n = 0 then sorted else sorted.take (sorted.length - (sorted.length - n))

/-- One generation (lines 334-372; the numbers of crossovers and mutations are exact, where the code takes the floor of a float) with `crx` crossovers, `mu` mutations; the logger gets all scores of the survivors. -/
def gaGeneration (e : GaEnv K) (n crx mu : Nat) (st : GaSt K) : Except Err (GaSt K) :=
  match crossLoop e crx st with
  | .error x => .error x
  | .ok st1 =>
    match mutLoop e mu st1 with
    | .error x => .error x
    | .ok st2 =>
      let st3 := newLoop e (n / 20) st2
      let (st4, scored) := scoreLoop e st3.pop st3
      let kept := survive n scored
      .ok { st4 with pop := kept.map (fun p => (some p.1, p.2)), log := st4.log ++ kept.map (·.1) }

/-- Part of the model of `algorithms/parameter_optimization.py:318-406`. -/
def gaGenerations (e : GaEnv K) (n crx mu : Nat) : Nat → GaSt K → Except Err (GaSt K)
  | 0, st => .ok st
  | g + 1, st =>
    match gaGeneration e n crx mu st with
    | .error x => .error x
    | .ok st' => gaGenerations e n crx mu g st'

/-- Initial population (lines 328-331). -/
def gaInit (e : GaEnv K) (x0 : List K) : Nat → GaSt K → GaSt K
  | 0, st => st
  | n + 1, st =>
    let (st', s) := st.eval e x0
    gaInit e x0 n { st' with pop := st'.pop ++ [(some s, x0)] }

/-- `parameters_genetic_algorithm` (lines 318-374): vector, score and final state. -/
def parametersGA (e : GaEnv K) (x0 : List K) (nGen n : Nat) (rateMut rateCrx : ℚ) : Except Err (List K × K × GaSt K) :=
  match gaGenerations e n ⌊rateCrx * n⌋.toNat ⌊rateMut * n⌋.toNat nGen (gaInit e x0 n ⟨[], 0, 0, 0, [], []⟩) with
  | .error x => .error x
  | .ok st =>
    match st.pop with
    | (some s, x) :: _ => .ok (x, s, st)
    | _ => .error .indexError

end

end Verif
