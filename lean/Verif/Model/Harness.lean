import Verif.Model.Files
import Verif.Model.Logging
/-!
# Model of the benchmark scripts (`scripts/compare_evolvers.py:39-84`, `scripts/benchmark_elitism.py:38-78`, `scripts/benchmark_selection_rules.py:43-74`)

Which runs are made, with which sizes, in which folder, and what a run that fails does to the others.  A run is given by the calls on `io` which it makes; what it computes is the
subject of other models.  Not modelled: `random.seed`, `np.random.seed` (C109), the figures apart from the call which saves them.
-/

namespace Verif

/-- A run of the plan: name of the folder of its setting, number of the repetition, `n_population` and `n_hof` of the options it gets.
Part of the model of `scripts/compare_evolvers.py:39-84`, `scripts/benchmark_elitism.py:38-78`. -/
structure PlannedRun where
  setting : List Char
  rep : Nat
  nPop : Nat
  nHof : Nat
deriving DecidableEq, Repr

/-- The two sizes in the dictionary `ga_opts`, which all runs share.
Part of the model of `scripts/compare_evolvers.py:39-84`, `scripts/benchmark_elitism.py:38-78`. -/
structure GaSizes where
  nPop : Option Nat
  nHof : Nat
deriving DecidableEq, Repr

/-- Setting the sizes (`compare_evolvers.py:57-61`, `benchmark_elitism.py:54-58`); `hof` is `hof_size`, read once before the loops. -/
def GaSizes.setup (hof pop : Nat) (_ : GaSizes) : GaSizes := if hof > pop then ⟨some pop, pop⟩ else ⟨some pop, hof⟩

/-- `f"popSize{pop_size}_evolver{evolver.__class__.__name__}"` (`compare_evolvers.py:49`). -/
def evolverFolder (pop : Nat) (cls : List Char) : List Char := "popSize".toList ++ decimal pop ++ "_evolver".toList ++ cls

/-- `f"popSize{pop_size}_elitismRatio{str(elitism_ratio).replace('.', '_')}"` (`benchmark_elitism.py:46`); the ratio as `str` writes it. -/
def elitismFolder (pop : Nat) (ratio : List Char) : List Char :=
  "popSize".toList ++ decimal pop ++ "_elitismRatio".toList ++ ratio.map (fun c => if c = '.' then '_' else c)

/-- `f"selectionRule_{selection_rule}"` (`benchmark_selection_rules.py:49`). -/
def ruleFolder (rule : List Char) : List Char := "selectionRule_".toList ++ rule

/-- `f"iteration_{i}"`. Part of the model of `scripts/compare_evolvers.py:39-84`, `scripts/benchmark_elitism.py:38-78`. -/
def repFolder (i : Nat) : List Char := "iteration_".toList ++ decimal i

/-- A plan is carried out with one dictionary for all runs: each run sees the sizes as they are after its setup.
Part of the model of `scripts/compare_evolvers.py:39-84`, `scripts/benchmark_elitism.py:38-78`. -/
def withSizes (hof : Nat) : List (List Char × Nat × Nat) → GaSizes → List PlannedRun
  | [], _ => []
  | (s, i, pop) :: l, g =>
    let g' := g.setup hof pop
    ⟨s, i, g'.nPop.getD 0, g'.nHof⟩ :: withSizes hof l g'

/-- The loops of `benchmark_evolvers` (`compare_evolvers.py:44-46`), `g` being `ga_opts` as it is given. -/
def evolverPlan (reps : Nat) (classes : List (List Char)) (pops : List Nat) (g : GaSizes) : List PlannedRun :=
  withSizes g.nHof ((List.range reps).flatMap (fun i => classes.flatMap (fun c => pops.map (fun p => (evolverFolder p c, i, p))))) g

/-- The loops of `benchmark_elitism` (`benchmark_elitism.py:43-49`). -/
def elitismPlan (reps : Nat) (pops : List Nat) (ratios : List (List Char)) (g : GaSizes) : List PlannedRun :=
  withSizes g.nHof (pops.flatMap (fun p => ratios.flatMap (fun r => (List.range reps).map (fun i => (elitismFolder p r, i, p))))) g

/-- The loops of `benchmark_selection_rules` (`benchmark_selection_rules.py:47-52`), the sizes being those of `ga_opts` throughout. -/
def selectionPlan (reps : Nat) (rules : List (List Char)) (pop hof : Nat) : List PlannedRun :=
  rules.flatMap (fun r => (List.range reps).map (fun i => ⟨ruleFolder r, i, pop, hof⟩))

section
variable {O D B : Type}

/-- `io.path = p`. Part of the model of `scripts/compare_evolvers.py:39-84`, `scripts/benchmark_elitism.py:38-78`. -/
def IoWorld.setPath (w : IoWorld B) (k : Nat) (p : List FName) : IoWorld B := ⟨w.disk, fun j => if j = k then { w.ios k with path := p } else w.ios j⟩

/-- A run as far as `io` is concerned: its folders, the calls which `topology_optimization`, `save_hof`, `plot_hof` and `save_fig` make up to the end or to an exception of the run itself,
and whether there is one. Part of the model of `scripts/compare_evolvers.py:39-84`, `scripts/benchmark_elitism.py:38-78`. -/
structure BenchRun (O D B : Type) where
  setting : List Char
  rep : Nat
  cmds : List (IoCmd O D B)
  raises : Bool

/-- The folder of the setting (`compare_evolvers.py:48-51`, `benchmark_elitism.py:45-47`, `benchmark_selection_rules.py:48-50`); true if no exception is raised. -/
def benchSetting (C : Coding O D B) (k : Nat) (top : List FName) (s : List Char) (w : IoWorld B) : IoWorld B × Bool :=
  match (w.setPath k top).exec C (.initSave k (some s) none) with
  | (w1, .error _) => (w1, false)
  | (w1, .ok _) => (w1.setPath k (w1.ios k).savePath, true)

/-- The folder of the repetition and the run in it (`compare_evolvers.py:55-82`, `benchmark_elitism.py:52-78`, `benchmark_selection_rules.py:55-74`). -/
def benchRep (C : Coding O D B) (k : Nat) (r : BenchRun O D B) (w : IoWorld B) : IoWorld B × Bool :=
  match w.exec C (.initSave k (some (repFolder r.rep)) none) with
  | (w1, .error _) => (w1, false)
  | (w1, .ok _) =>
    match w1.script C r.cmds with
    | (w2, .error _) => (w2, false)
    | (w2, .ok _) => (w2, !r.raises)

/-- The `try` block of `benchmark_evolvers` (`compare_evolvers.py:47-82`). -/
def evolverRun (C : Coding O D B) (k : Nat) (top : List FName) (r : BenchRun O D B) (w : IoWorld B) : IoWorld B × Bool :=
  match benchSetting C k top r.setting w with
  | (w1, false) => (w1, false)
  | (w1, true) => benchRep C k r w1

/-- `benchmark_evolvers` (`compare_evolvers.py:39-84`): `except:` catches whatever a run raises. -/
def evolverBench (C : Coding O D B) (k : Nat) (top : List FName) : List (BenchRun O D B) → IoWorld B → IoWorld B
  | [], w => w
  | r :: rs, w => evolverBench C k top rs (evolverRun C k top r w).1

/-- The repetitions of one setting, up to the first exception (`benchmark_elitism.py:49-78`, `benchmark_selection_rules.py:52-74`). -/
def benchReps (C : Coding O D B) (k : Nat) : List (BenchRun O D B) → IoWorld B → IoWorld B × Bool
  | [], w => (w, true)
  | r :: rs, w =>
    match benchRep C k r w with
    | (w1, false) => (w1, false)
    | (w1, true) => benchReps C k rs w1

/-- `benchmark_elitism` and `benchmark_selection_rules`: one setting after the other, nothing is caught.
`scripts/benchmark_elitism.py:38-78`. -/
def groupBench (C : Coding O D B) (k : Nat) (top : List FName) : List (List Char × List (BenchRun O D B)) → IoWorld B → IoWorld B × Bool
  | [], w => (w, true)
  | (s, rs) :: gs, w =>
    match benchSetting C k top s w with
    | (w1, false) => (w1, false)
    | (w1, true) =>
      match benchReps C k rs w1 with
      | (w2, false) => (w2, false)
      | (w2, true) => groupBench C k top gs w2

end

section
variable {α : Type}

/-- A run as far as the log is concerned: its log file, what it does between `init_logging` and its end (`close_logging` included if it gets there), and the message printed by the script
if it fails (`compare_evolvers.py:84`). -/
structure LoggedRun (α : Type) where
  path : Nat
  body : List (LogOp α)
  message : List α

/-- One pass of the loop of `benchmark_evolvers`. `scripts/compare_evolvers.py:39-84`. -/
def benchLog (nl : List α) (io : Nat) (r : LoggedRun α) (w : LogWorld α) : LogWorld α :=
  match w.run nl (.start io r.path :: r.body) with
  | (w1, .ok _) => w1
  | (w1, .error _) => (w1.run nl [.say r.message]).1

/-- All of them. Part of the model of `scripts/compare_evolvers.py:39-84`, `scripts/benchmark_elitism.py:38-78`. -/
def benchLogs (nl : List α) (io : Nat) : List (LoggedRun α) → LogWorld α → LogWorld α
  | [], w => w
  | r :: rs, w => benchLogs nl io rs (benchLog nl io r w)

end

end Verif
