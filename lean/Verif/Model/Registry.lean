import Verif.Model.Evolver
import Verif.Model.Save
/-!
# Model of the operator registries and of the evolver objects

`config/config.py:10-14`, `lib/decorators.py:11-49`, the constructors of the evolvers (`simulator/fiber/evolver.py:35-42`, 220-233, 257-274), the weights they keep
(`evolver.py:276-288`) and `CrossoverMaker` (`evolver.py:759-781`).  What a matrix does with the weights is in `Model/Evolver.lean`.
-/

namespace Verif

/-- A class object: its identity and `cls.__name__`. Part of the model of `config/config.py:10-14`, `lib/decorators.py:11-49`. -/
structure OpClass where
  cid : Nat
  name : String
deriving DecidableEq, Repr

/-- The dictionaries of `config/config.py:10-14`. -/
structure Registries where
  evolution : List (String × OpClass)
  growth : List (String × OpClass)
  reduction : List (String × OpClass)
  pathReduction : List (String × OpClass)
  crossover : List (String × OpClass)

/-- The decorators of `lib/decorators.py` for operators. -/
inductive RegDeco where
  | evolution | growth | reduction | pathReduction | crossover
deriving DecidableEq, Repr

/-- `configuration.X[cls.__name__] = cls` (`lib/decorators.py:15`, 23, 31, 39, 48). -/
def Registries.register (r : Registries) (c : OpClass) : RegDeco → Registries
  | .evolution => { r with evolution := dictSet r.evolution c.name c }
  | .growth => { r with growth := dictSet r.growth c.name c }
  | .reduction => { r with reduction := dictSet r.reduction c.name c }
  | .pathReduction => { r with pathReduction := dictSet r.pathReduction c.name c }
  | .crossover => { r with crossover := dictSet r.crossover c.name c }

/-- A class statement with decorators above it, the lowest applied first.
Part of the model of `config/config.py:10-14`, `lib/decorators.py:11-49`. -/
def Registries.declare (r : Registries) (ds : List RegDeco) (c : OpClass) : Registries := ds.reverse.foldl (fun r d => r.register c d) r

/-- An evolver object: `evo_op_list` (the classes of the instances in it) and `op_to_prob`; `sensitive` tells a `HessianProbabilityEvolver`.
Part of the model of `config/config.py:10-14`, `lib/decorators.py:11-49`. -/
structure EvolverObj where
  sensitive : Bool
  ops : List OpClass
  weights : List (OpClass × ℚ)

/-- The literal dictionary in the constructor of the Hessian evolver (line 268). -/
def initialProbs : List (String × ℚ) := [("AddSeriesComponent", 1), ("AddParallelComponent", 1), ("RemoveComponent", 4), ("SwapComponent", 1)]

/-- The literal dictionary of lines 282-285. -/
def scheduleProbs (gen : ℚ) : List (String × ℚ) :=
  [("AddSeriesComponent", 1 - gen), ("AddParallelComponent", 1 - gen), ("RemoveComponent", 2 * gen), ("SwapComponent", 1)]

/-- `for evo_op_id, evo_op in EVOLUTION_OPERATORS.items(): op_to_prob[evo_op] = probs[evo_op_id]` (lines 269-270, 286-287): the dictionary afterwards, and
whether it raised. -/
def setWeights (probs : List (String × ℚ)) : List (String × OpClass) → List (OpClass × ℚ) → List (OpClass × ℚ) × Except Err Unit
  | [], w => (w, .ok ())
  | (n, c) :: cs, w =>
    match dictGet probs n with
    | .error e => (w, .error e)
    | .ok p => setWeights probs cs (dictSet w c p)

/-- Which evolver is constructed, with which argument. Part of the model of `config/config.py:10-14`, `lib/decorators.py:11-49`. -/
inductive EvolverCall where
  | uniform
  | weighted (opToProb : Option (List (OpClass × ℚ)))
  | sensitive

/-- The constructors (lines 37-42, 222-233, 259-274). -/
def Registries.construct (r : Registries) : EvolverCall → Except Err EvolverObj
  | .uniform => .ok ⟨false, r.evolution.map (·.2), []⟩
  | .weighted none =>
    .ok ⟨false, r.evolution.map (·.2), (r.evolution.map (·.2)).foldl (fun w c => dictSet w c (1 / (r.evolution.length : ℚ))) []⟩
  | .weighted (some d) => .ok ⟨false, r.evolution.map (·.2), d⟩
  | .sensitive =>
    match setWeights initialProbs r.evolution [] with
    | (_, .error e) => .error e
    | (w, .ok ()) => .ok ⟨true, r.evolution.map (·.2), w⟩

/-- `update_graph_matrix` (lines 107-111, 276-290) as far as the evolver object is concerned. -/
def EvolverObj.update (e : EvolverObj) (r : Registries) (gen : Option ℚ) : EvolverObj × Except Err Unit :=
  match e.sensitive, gen with
  | true, some t =>
    match setWeights (scheduleProbs t) r.evolution e.weights with
    | (w, o) => ({ e with weights := w }, o)
  | _, _ => (e, .ok ())

/-- `self.op_to_prob[evo_op.__class__]` (line 242). -/
def EvolverObj.weight (e : EvolverObj) (c : OpClass) : Except Err ℚ := dictGet e.weights c

/-- What a program does: a class statement, constructing an evolver, a call of `update_graph_matrix` of the `i`-th evolver made.
`simulator/fiber/evolver.py:107-111`, `simulator/fiber/evolver.py:275-290`. -/
inductive EvAct where
  | declare (ds : List RegDeco) (c : OpClass)
  | make (call : EvolverCall)
  | update (i : Nat) (gen : Option ℚ)

/-- Registries and evolvers. Part of the model of `config/config.py:10-14`, `lib/decorators.py:11-49`. -/
structure EvSession where
  regs : Registries
  evolvers : List EvolverObj

/-- Before anything is imported. Part of the model of `config/config.py:10-14`, `lib/decorators.py:11-49`. -/
def EvSession.start : EvSession := ⟨⟨[], [], [], [], []⟩, []⟩

/-- One action: the state afterwards and whether it raised.
Part of the model of `config/config.py:10-14`, `lib/decorators.py:11-49`. -/
def EvSession.exec (s : EvSession) : EvAct → EvSession × Except Err Unit
  | .declare ds c => ({ s with regs := s.regs.declare ds c }, .ok ())
  | .make call =>
    match s.regs.construct call with
    | .error e => (s, .error e)
    | .ok x => ({ s with evolvers := s.evolvers ++ [x] }, .ok ())
  | .update i gen =>
    match s.evolvers[i]? with
    | none => (s, .error .indexError)
    | some x =>
      match x.update s.regs gen with
      | (y, o) => ({ s with evolvers := s.evolvers.set i y }, o)

/-- A program that goes on after an exception. Part of the model of `config/config.py:10-14`, `lib/decorators.py:11-49`. -/
def EvSession.run (s : EvSession) (as : List EvAct) : EvSession := as.foldl (fun s a => (s.exec a).1) s

/-- The class statements of `simulator/fiber/evolution_operators/evolution_operators.py` (lines 19-21, 79-81, 122-124, 175-176). -/
def repoOperators : List EvAct :=
  [.declare [.growth, .evolution] ⟨0, "AddSeriesComponent"⟩, .declare [.growth, .evolution] ⟨1, "AddParallelComponent"⟩,
   .declare [.reduction, .evolution] ⟨2, "RemoveComponent"⟩, .declare [.evolution] ⟨3, "SwapComponent"⟩]

/-- `CrossoverMaker.crossover_graphs` (lines 766-783): `verify` and `apply` are the operators' `verify_evolution` and `apply_evolution` on the two graphs at
hand, `pick` what `np.random.choice` draws. -/
def crossoverGraphs {G : Type} (registered : List (String × OpClass)) (verify : OpClass → Except Err Bool) (apply : OpClass → Except Err (G × G)) (pick : Nat) :
    Except Err (G × G × OpClass) := do
  let verification ← registered.mapM (fun x => verify x.2)
  let possible := ((verification.zip (registered.map (·.2))).filter (·.1)).map (·.2)
  if possible.length = 0 then .error .runtimeError
  else
    match possible[pick]? with
    | none => .error .indexError
    | some c => do
      let (a, b) ← apply c
      .ok (a, b, c)

end Verif
