import Verif.Model.Ga
import Verif.Model.Adam
import Verif.Model.Logger
/-!
# Model of the tuning utilities (`algorithms/parameter_optimization_utils.py:42-433`, `algorithms/functions.py:18-32`, `lib/hessian.py:82-96`)

A run acts on one graph and on the class variable `AdditiveNoise.simulate_with_noise`; both stay as they are when an exception leaves the
function, so runs are state transformers whose failures keep the state (`EStateM`).  The free parameters of the graph are one list of
numbers, the score and its gradient are functions of the noise switch, of the number of times the noise was drawn, and of these parameters;
the score and the renewal of the noise may raise.  Random numbers come from streams.  Numbers are exact; printing and the time and `best` columns of the log are left out.
Two strings of the source are arguments of the model (`TuneSrc`), so that the code as written can be compared with the code as meant.
-/

namespace Verif
variable {K : Type}

/-- Two strings of the source: the keyword under which the duration is handed to `logbook_update`
(`parameter_optimization_utils.py:229,428`), the key under which `function_wrapper` looks for the models (`lib/hessian.py:95`). -/
structure TuneSrc where
  logKeyword : String
  slotKey : String

/-- The source as it is.
Part of the model of `algorithms/parameter_optimization_utils.py:42-433`, `algorithms/functions.py:18-32`. -/
def TuneSrc.written : TuneSrc := ⟨"runtime", "node_edge_index"⟩

/-- The source with the parameter `time` of `logbook_update`, and with the key that the extraction uses for the models.
Part of the model of `algorithms/parameter_optimization_utils.py:42-433`, `algorithms/functions.py:18-32`. -/
def TuneSrc.mended : TuneSrc := ⟨"time", "models"⟩

/-- Keys of the dictionary returned by `extract_attributes_to_list_experimental` (`lib/graph.py:529-536`). -/
def extractionKeys (attributes : List String) (locations nodeEdge : Bool) : List String :=
  attributes ++ (if locations then ["models", "parameter_index"] else []) ++ (if nodeEdge then ["node_edge_index"] else [])

/-- Parameters of `logbook_update` (`algorithms/functions.py:18`). -/
def logbookParameters : List String := ["generation", "population", "log", "log_metrics", "time", "best", "verbose"]

/-- A row of the log book (`algorithms/functions.py:29-31`, without times and `best`). -/
structure BookRow (K : Type) where
  generation : Nat
  size : Nat
  mean : K
  variance : K
  maximum : K
  minimum : K
deriving DecidableEq, Repr

section
variable [Field K] [LinearOrder K]

/-- `logbook_update` (`algorithms/functions.py:18-26`), called with keyword arguments `kws` besides the first four.  An unknown keyword raises
`TypeError` at once; `np.max` of no scores raises `ValueError`. -/
def logbookUpdate (kws : List String) (g : Nat) (scores : List K) : Except Err (BookRow K) :=
  if kws.all (fun k => decide (k ∈ logbookParameters)) then
    match scores with
    | [] => .error .valueError
    | a :: l =>
      .ok { generation := g, size := l.length + 1, mean := meanOf (a :: l), variance := varOf (a :: l),
            maximum := l.foldl max a, minimum := l.foldl min a }
  else .error .typeError

end

/-- What the run depends on.
Part of the model of `algorithms/parameter_optimization_utils.py:42-433`, `algorithms/functions.py:18-32`. -/
structure TuneEnv (K : Type) where
  /-- `evaluator.evaluate_graph(graph, propagator)` by noise switch, number of noise draws and free parameters -/
  score : Bool → Nat → List K → Except Err K
  /-- the gradient, by noise switch, number of noise draws, iteration and point -/
  grad : Bool → Nat → Nat → List K → List K
  /-- `graph.sample_parameters_to_list(…)` by number of the call and current parameters -/
  gen : Nat → List K → List K
  /-- raw random numbers -/
  raw : Nat → Nat
  /-- outcome of `graph.resample_all_noise()` (`lib/graph.py:243-261`, modelled in `Model/Resample`) by noise switch and number of evaluations so far -/
  resample : Bool → Nat → Except Err Unit
  /-- `np.random.choice(range(len), num, replace=False)` by number of the draw, `len` and `num` -/
  subset : Nat → Nat → Nat → List Nat
  /-- `graph.get_parameter_bounds()` -/
  lower : List K
  upper : List K

/-- One evaluation of the graph.
Part of the model of `algorithms/parameter_optimization_utils.py:42-433`, `algorithms/functions.py:18-32`. -/
structure TuneEval (K : Type) where
  switch : Bool
  noise : Nat
  vec : List K
  score : K
deriving DecidableEq, Repr

/-- The state that a run changes.
Part of the model of `algorithms/parameter_optimization_utils.py:42-433`, `algorithms/functions.py:18-32`. -/
structure TuneSt (K : Type) where
  /-- free parameters in the graph -/
  vals : List K
  /-- number of calls of `graph.resample_all_noise` that returned -/
  noise : Nat
  /-- `AdditiveNoise.simulate_with_noise` -/
  switch : Bool
  /-- calls of `sample_parameters_to_list` so far -/
  gens : Nat
  /-- random numbers used so far -/
  draws : Nat
  /-- ghost: the evaluations that returned a score, in order -/
  evals : List (TuneEval K)

/-- Computations on that state which may raise; the state survives the exception.
Part of the model of `algorithms/parameter_optimization_utils.py:42-433`, `algorithms/functions.py:18-32`. -/
abbrev TuneM (K : Type) := EStateM Err (TuneSt K)

/-- `graph.distribute_parameters_from_list(x, …)` (`lib/graph.py:569-573`) with the slots of all free parameters: `zip` stops at the shorter
list. -/
def overlay (x vals : List K) : List K := x.take vals.length ++ vals.drop x.length

/-- `if c: graph.resample_all_noise()`.  An exception keeps the state: noise objects renewed before it are not told apart.
Part of the model of `algorithms/parameter_optimization_utils.py:42-433`, `algorithms/functions.py:18-32`. -/
def tuneResample (e : TuneEnv K) (c : Bool) : TuneM K Unit := fun s =>
  if c then
    match e.resample s.switch s.evals.length with
    | .error x => .error x s
    | .ok _ => .ok () { s with noise := s.noise + 1 }
  else .ok () s

/-- `AdditiveNoise.simulate_with_noise = b`.
Part of the model of `algorithms/parameter_optimization_utils.py:42-433`, `algorithms/functions.py:18-32`. -/
def tuneSwitch (b : Bool) : TuneM K Unit := fun s => .ok () { s with switch := b }

/-- `get_individual_score` (lines 107-131); the handler of `RuntimeWarning` prints and raises again. -/
def tuneScore (e : TuneEnv K) (x : List K) : TuneM K K := fun s =>
  let s1 := { s with vals := overlay x s.vals }
  match e.score s1.switch s1.noise s1.vals with
  | .error er => .error er s1
  | .ok v => .ok v { s1 with evals := s1.evals ++ [⟨s1.switch, s1.noise, s1.vals, v⟩] }

/-- `graph.sample_parameters_to_list()`.
Part of the model of `algorithms/parameter_optimization_utils.py:42-433`, `algorithms/functions.py:18-32`. -/
def tuneSample (e : TuneEnv K) : TuneM K (List K) := fun s => .ok (e.gen s.gens s.vals) { s with gens := s.gens + 1 }

/-- A raw random number.
Part of the model of `algorithms/parameter_optimization_utils.py:42-433`, `algorithms/functions.py:18-32`. -/
def tuneDraw (e : TuneEnv K) : TuneM K Nat := fun s => .ok (e.raw s.draws) { s with draws := s.draws + 1 }

/-- A result or exception of pure code.
Part of the model of `algorithms/parameter_optimization_utils.py:42-433`, `algorithms/functions.py:18-32`. -/
def tuneLift {α : Type} : Except Err α → TuneM K α
  | .ok a => fun s => .ok a s
  | .error x => fun s => .error x s

/-- The loop of `get_initial_population` (lines 91-105) after `pop`, with `n` rounds left. -/
def tuneInit (e : TuneEnv K) (perInd : Bool) : Nat → List (K × List K) → TuneM K (List (K × List K))
  | 0, pop => pure pop
  | n + 1, pop => do
    tuneResample e perInd
    let x ← tuneSample e
    let s ← tuneScore e x
    tuneInit e perInd n (pop ++ [(s, x)])

/-- The two crossovers offered (lines 42-60). -/
inductive TuneCross where
  | single
  | double
deriving DecidableEq, Repr

/-- `crossover(parent1, parent2)` with two random numbers.
Part of the model of `algorithms/parameter_optimization_utils.py:42-433`, `algorithms/functions.py:18-32`. -/
def tuneCrossover : TuneCross → Nat → Nat → List K → List K → Except Err (List K × List K)
  | .single, r, _, p1, p2 => .ok (crossoverSingle r p1 p2)
  | .double, r1, r2, p1, p2 => crossoverDouble r1 r2 p1 p2

/-- `mutation` (lines 63-74): `randint(1, len)` gives `1, …, len - 1` and raises for a length below two. -/
def tuneMutation (e : TuneEnv K) (draw raw : Nat) (parent mutant : List K) : Except Err (List K) :=
  if mutant.length ≤ 1 then .error .valueError
  else .ok (mixFrom (e.subset draw mutant.length (1 + raw % (mutant.length - 1))) 0 parent mutant)

/-- `random.sample(population, 2)` with two random numbers.
Part of the model of `algorithms/parameter_optimization_utils.py:42-433`, `algorithms/functions.py:18-32`. -/
def tuneTwo (r1 r2 : Nat) (pop : List (K × List K)) : Except Err (List K × List K) :=
  if pop.length < 2 then .error .valueError
  else
    match pop[r1 % pop.length]?, pop[(r1 % pop.length + 1 + r2 % (pop.length - 1)) % pop.length]? with
    | some a, some b => .ok (a.2, b.2)
    | _, _ => .error .indexError

/-- `random.sample(population, 1)` with a random number.
Part of the model of `algorithms/parameter_optimization_utils.py:42-433`, `algorithms/functions.py:18-32`. -/
def tuneOne (r : Nat) (pop : List (K × List K)) : Except Err (List K) :=
  if pop.length = 0 then .error .valueError
  else
    match pop[r % pop.length]? with
    | some a => .ok a.2
    | none => .error .indexError

/-- Crossover rounds (lines 190-200). -/
def tuneCrossLoop (e : TuneEnv K) (c : TuneCross) (perInd : Bool) : Nat → List (K × List K) → TuneM K (List (K × List K))
  | 0, pop => pure pop
  | n + 1, pop => do
    let r1 ← tuneDraw e
    let r2 ← tuneDraw e
    let ps ← tuneLift (tuneTwo r1 r2 pop)
    let r3 ← tuneDraw e
    let r4 ← tuneDraw e
    let cs ← tuneLift (tuneCrossover c r3 r4 ps.1 ps.2)
    tuneResample e perInd
    let s1 ← tuneScore e cs.1
    tuneResample e perInd
    let s2 ← tuneScore e cs.2
    tuneCrossLoop e c perInd n (pop ++ [(s1, cs.1), (s2, cs.2)])

/-- Mutation rounds (lines 202-211). -/
def tuneMutLoop (e : TuneEnv K) (perInd : Bool) : Nat → List (K × List K) → TuneM K (List (K × List K))
  | 0, pop => pure pop
  | n + 1, pop => do
    let r1 ← tuneDraw e
    let p ← tuneLift (tuneOne r1 pop)
    let m ← tuneSample e
    let r2 ← tuneDraw e
    let d ← tuneDraw e
    let c ← tuneLift (tuneMutation e d r2 p m)
    tuneResample e perInd
    let s ← tuneScore e c
    tuneMutLoop e perInd n (pop ++ [(s, c)])

/-- Arguments of `tuning_adam_gradient_descent` that do not change during a run (lines 332-335), with the numbers of `adam_bounded`. -/
structure TuneAdam (K : Type) where
  cfg : AdamCfg K
  nBatches : Nat
  batchSize : Nat
  /-- `convergence_check_period` -/
  checkPeriod : Option Nat
  noise : Bool
  perInd : Bool
  /-- `resample_period` -/
  period : Int

/-- An individual of `tuning_adam_gradient_descent`: entry of `pop`, of `saved_m_v` and of `has_converged`.
`algorithms/parameter_optimization_utils.py:332-433`. -/
structure AdamInd (K : Type) where
  score : K
  vec : List K
  m : Option (List K)
  v : Option (List K)
  done : Bool

section
variable [Field K] [LinearOrder K]

/-- The call of `adam_bounded` in lines 403-406.  The first gradient evaluates the function of `lib/hessian.py:82-96`, whose `info` has the keys of an
extraction without attributes and with locations; a missing key raises `KeyError` before the graph is touched.  Without iterations no
gradient is taken.  Afterwards the graph holds the point of the last gradient. -/
def tuneAdamCall (src : TuneSrc) (e : TuneEnv K) (a : TuneAdam K) (p : AdamInd K) : TuneM K (AdamSt K × Nat) := fun s =>
  if e.lower.length ≠ e.upper.length then .error .valueError s
  else if a.batchSize ≠ 0 ∧ src.slotKey ∉ extractionKeys [] true false then .error .keyError s
  else
    match adamBounded a.cfg e.lower e.upper (e.grad s.switch s.noise) p.vec a.checkPeriod a.batchSize p.m p.v with
    | .error er => .error er s
    | .ok r => .ok r (match r.1.queries.getLast? with
        | none => s
        | some q => { s with vals := overlay q s.vals })

/-- First loop of a batch (lines 393-411). -/
def tunePass (src : TuneSrc) (e : TuneEnv K) (a : TuneAdam K) : List (AdamInd K) → TuneM K (List (AdamInd K))
  | [] => pure []
  | p :: ps => do
    tuneResample e a.perInd
    if p.done then
      let rest ← tunePass src e a ps
      pure (p :: rest)
    else
      let r ← tuneAdamCall src e a p
      let rest ← tunePass src e a ps
      pure ({ score := p.score, vec := r.1.x, m := some r.1.m, v := some r.1.v, done := decide (r.2 ≠ a.batchSize) } :: rest)

/-- Second loop of a batch (lines 418-422). -/
def tuneRescore (e : TuneEnv K) (perInd : Bool) : List (AdamInd K) → TuneM K (List (AdamInd K))
  | [] => pure []
  | p :: ps => do
    tuneResample e perInd
    let s ← tuneScore e p.vec
    let rest ← tuneRescore e perInd ps
    pure ({ p with score := s } :: rest)

/-- The batches from number `b` on (lines 385-425), with `left` of them left. -/
def tuneBatches (src : TuneSrc) (e : TuneEnv K) (a : TuneAdam K) :
    Nat → Nat → List (AdamInd K) → List (BookRow K) → TuneM K (List (AdamInd K) × List (BookRow K))
  | _, 0, pop, log => pure (pop, log)
  | b, left + 1, pop, log => do
    tuneResample e (!a.perInd && decide (0 < a.period) && decide ((b : Int) % a.period = 0))
    let pop1 ← tunePass src e a pop
    let pop2 ← tuneRescore e a.perInd pop1
    let row ← tuneLift (logbookUpdate [src.logKeyword, "verbose"] (b + 1) (pop2.map (·.score)))
    tuneBatches src e a (b + 1) left pop2 (log ++ [row])

/-- `tuning_adam_gradient_descent` (lines 332-433) from line 357 on: the given or new population is known. -/
def tuneAdamFrom (src : TuneSrc) (e : TuneEnv K) (a : TuneAdam K) (pop : List (K × List K)) :
    TuneM K (List (K × List K) × List (BookRow K)) := do
  let row ← tuneLift (logbookUpdate ["verbose"] 0 (pop.map (·.1)))
  let r ← tuneBatches src e a 0 a.nBatches (pop.map (fun p => ⟨p.1, p.2, none, none, false⟩)) [row]
  pure ((r.1.map (fun p => (p.score, p.vec))).insertionSort (fun x y => x.1 ≤ y.1), r.2)

/-- `tuning_adam_gradient_descent` (lines 332-433); `pop` is the optional population. -/
def tuneAdam (src : TuneSrc) (e : TuneEnv K) (a : TuneAdam K) (nPop : Nat) (pop : Option (List (K × List K))) :
    TuneM K (List (K × List K) × List (BookRow K)) := do
  tuneSwitch a.noise
  match pop with
  | none => do
    let start ← tuneInit e false nPop []
    tuneAdamFrom src e a start
  | some given =>
    if given.length ≠ nPop then tuneLift (.error .valueError)
    else tuneAdamFrom src e a given

/-- Arguments of `tuning_genetic_algorithm` (lines 134-138). -/
structure TuneGa (K : Type) where
  nGen : Nat
  n : Nat
  rateMut : ℚ
  rateCrx : ℚ
  noise : Bool
  crossover : TuneCross
  perInd : Bool
  /-- `resample_period_gen` -/
  periodGen : Int
  /-- `optimize_top_X` -/
  top : Nat
  /-- arguments of the gradient descent on the top (its `noise` and `perInd` are those of the genetic algorithm) -/
  adam : TuneAdam K

/-- `population.sort(reverse=False)`.
Part of the model of `algorithms/parameter_optimization_utils.py:42-433`, `algorithms/functions.py:18-32`. -/
def tuneSort (pop : List (K × List K)) : List (K × List K) := pop.insertionSort (fun a b => tupleLe a b = true)

/-- `population[:-(len(population) - n) or None]` (line 225). -/
def tuneCut (n : Nat) (pop : List (K × List K)) : List (K × List K) :=
  if pop.length - n = 0 then pop else pop.take (pop.length - (pop.length - n))

/-- Lines 213-225: sort, gradient descent on the best if asked for, cut. -/
def tuneSelect (src : TuneSrc) (e : TuneEnv K) (g : TuneGa K) (pop : List (K × List K)) : TuneM K (List (K × List K)) :=
  if 0 < g.top then do
    let sorted := tuneSort pop
    let r ← tuneAdam src e { g.adam with noise := g.noise, perInd := g.perInd } g.top (some (sorted.take g.top))
    pure (tuneCut g.n (tuneSort (sorted ++ r.1)))
  else pure (tuneCut g.n (tuneSort pop))

/-- Lines 180-229: generation `k` with the population so far. -/
def tuneGeneration (src : TuneSrc) (e : TuneEnv K) (g : TuneGa K) (k : Nat) (pop : List (K × List K)) :
    TuneM K (List (K × List K) × BookRow K) := do
  tuneResample e (!g.perInd && decide (0 < g.periodGen) && decide ((k : Int) % g.periodGen = 0))
  let pop1 ← tuneCrossLoop e g.crossover g.perInd ⌊g.rateCrx * g.n⌋.toNat pop
  let pop2 ← tuneMutLoop e g.perInd ⌊g.rateMut * g.n⌋.toNat pop1
  let pop3 ← tuneSelect src e g pop2
  let row ← tuneLift (logbookUpdate [src.logKeyword, "verbose"] k (pop3.map (·.1)))
  pure (pop3, row)

/-- The generations from `k` on, with `left` of them left.
Part of the model of `algorithms/parameter_optimization_utils.py:42-433`, `algorithms/functions.py:18-32`. -/
def tuneGenerations (src : TuneSrc) (e : TuneEnv K) (g : TuneGa K) :
    Nat → Nat → List (K × List K) → List (BookRow K) → TuneM K (List (K × List K) × List (BookRow K))
  | _, 0, pop, log => pure (pop, log)
  | k, left + 1, pop, log => do
    let r ← tuneGeneration src e g k pop
    tuneGenerations src e g (k + 1) left r.1 (log ++ [r.2])

/-- `tuning_genetic_algorithm` (lines 134-234); the logs of the gradient descents are left out. -/
def tuneGa (src : TuneSrc) (e : TuneEnv K) (g : TuneGa K) : TuneM K (List (K × List K) × List (BookRow K)) := do
  tuneSwitch g.noise
  let pop ← tuneInit e g.perInd g.n []
  let row ← tuneLift (logbookUpdate ["verbose"] 0 (pop.map (·.1)))
  tuneGenerations src e g 1 g.nGen pop [row]

end

end Verif
