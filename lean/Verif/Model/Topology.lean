import Verif.Model.Hof
import Verif.Model.Speciation
import Verif.Model.Params
/-!
# Model of `topology_optimization` and the population update rules (`algorithms/topology_optimization.py`)

Graph objects are numbers (identities) with contents `C` in a `Pool`; evolution works in place on the object it is given,
`copy.deepcopy` allocates.  Evolving, checking, optimising and comparing graphs are arguments (they are modelled in
detail in other files); what is modelled here is how the main loop and the update rules use them.  A `while True` loop gets
a number of rounds as fuel and ends in `Err.diverges` when it runs out.  Printing, saving and timing are left out.
-/

namespace Verif

/-- Objects alive, and a counter of the calls made so far (the randomness of a call depends on its number only).
Objects live in the loop of `algorithms/topology_optimization.py:95-130`. -/
structure Pool (C : Type) where
  heap : Nat → C
  next : Nat
  calls : Nat

/-- `(score, graph)`; the score is `None` until optimised. `algorithms/topology_optimization.py:82`. -/
abbrev Indiv (K : Type) := Option K × Nat

variable {C K : Type}

/-- Objects live in the loop of `algorithms/topology_optimization.py:95-130`. -/
def Pool.write (w : Pool C) (i : Nat) (c : C) : Pool C := { w with heap := fun j => if j = i then c else w.heap j }

/-- A new object. Objects live in the loop of `algorithms/topology_optimization.py:95-130`. -/
def Pool.alloc (w : Pool C) (c : C) : Pool C :=
  { w with heap := fun j => if j = w.next then c else w.heap j, next := w.next + 1 }

/-- Objects live in the loop of `algorithms/topology_optimization.py:95-130`. -/
def Pool.tick (w : Pool C) : Pool C := { w with calls := w.calls + 1 }

/-- `algorithms/topology_optimization.py:33-58`. -/
inductive Rule (K : Type) where
  | random
  /-- `root` is `x ** (1 / preferentiality_param)`, `none` for nan -/
  | preferential (root : K → Option K)
  | roulette (p : Nat)
  | tournament (divisor : Nat)

/-- The arguments of a run, and everything the loop calls. `algorithms/topology_optimization.py:23-29`. -/
structure TopCfg (C K : Type) where
  nPop : Nat
  nGen : Nat
  nHof : Nat
  rule : Rule K
  ratio : ℚ
  /-- `evolver.evolve_graph`, by number of the call -/
  ev : Nat → C → Except Err C
  /-- `assert_number_of_edges` passes -/
  chk : C → Bool
  /-- `len(x0) != 0` -/
  hasParams : C → Bool
  /-- `over p c`: contents of `c` after the parameters of `p` have been written to the parameter slots of `c` -/
  over : C → C → C
  /-- `parameters_optimize` and what surrounds it (lines 545-558): score and optimised graph -/
  opt : Nat → C → Except Err (K × C)
  /-- the similarity test of `update_hof`, by generation -/
  sim : Nat → C → C → Bool
  /-- `random.random()` / `np.random.uniform`, by number of the call -/
  u : Nat → K
  /-- `np.random.choice(np.arange(0, n), size=m)`: raw numbers, reduced modulo `n` -/
  draw : Nat → Nat → Nat
  /-- the distance function of the speciation manager, `np.sqrt`, set orders, and the decay factor of a half-life -/
  dist : C → C → K
  sqrt : Nat → K
  specRnd : Nat → SpecRnd Nat
  decay : Nat → Option K
  /-- manager installed by the setup function of the update rule, if it has one (lines 433-490) -/
  setup : Option (Spec Nat K)
  fuel : Nat

/-- `l[0:k]`. `algorithms/topology_optimization.py:260`, `algorithms/topology_optimization.py:341`. -/
def slice0 {α : Type} (l : List α) (k : ℤ) : List α := if 0 ≤ k then l.take k.toNat else l.take (l.length - k.natAbs)

/-- `population[0:population_pass_index]` (lines 256-260, 336-341 and so on; the correcting statement in line 258 is a
comparison, not an assignment). -/
def elite (cfg : TopCfg C K) (pop : List (Indiv K)) : List (Indiv K) := slice0 pop (pyRound (cfg.ratio * pop.length))

/-! ### update rule `random` (lines 254-280) -/

/-- The `while True` loop (lines 264-277): the graph is evolved in place, again if the result is rejected. -/
def evolveUntil (cfg : TopCfg C K) : Nat → Pool C → Nat → Except Err (Pool C)
  | 0, _, _ => .error .diverges
  | f + 1, w, i =>
    match cfg.ev w.calls (w.heap i) with
    | .error e => .error e
    | .ok c =>
      if cfg.chk c && cfg.hasParams c then .ok (w.write i c).tick
      else evolveUntil cfg f (w.write i c).tick i

/-- `algorithms/topology_optimization.py:263-278`. -/
def randomLoop (cfg : TopCfg C K) : Pool C → List (Indiv K) → Except Err (Pool C × List (Indiv K))
  | w, [] => .ok (w, [])
  | w, (_, i) :: pop =>
    match evolveUntil cfg cfg.fuel w i with
    | .error e => .error e
    | .ok w1 =>
      match randomLoop cfg w1 pop with
      | .error e => .error e
      | .ok (w2, rest) => .ok (w2, (none, i) :: rest)

/-- `copy.deepcopy` of a list of individuals. `algorithms/topology_optimization.py:260`. -/
def copyAll : Pool C → List (Indiv K) → Pool C × List (Indiv K)
  | w, [] => (w, [])
  | w, (s, i) :: pop =>
    let (w2, rest) := copyAll (w.alloc (w.heap i)) pop
    (w2, (s, w.next) :: rest)

/-- `algorithms/topology_optimization.py:254-280`. -/
def updateRandom (cfg : TopCfg C K) (w : Pool C) (pop : List (Indiv K)) : Except Err (Pool C × List (Indiv K)) :=
  let (w1, pass) := copyAll w (elite cfg pop)
  match randomLoop cfg w1 pop with
  | .error e => .error e
  | .ok (w2, pop') => .ok (w2, pop' ++ pass)

/-! ### a child: `evolver.evolve_graph(copy.deepcopy(graph), ...)` -/

/-- `algorithms/topology_optimization.py:372-373`. -/
def child (cfg : TopCfg C K) (w : Pool C) (parent : Nat) : Except Err (Pool C) :=
  match cfg.ev w.calls (w.heap parent) with
  | .error e => .error e
  | .ok c => .ok (w.alloc c).tick

/-! ### update rule `preferential` (lines 283-341) -/

section
variable [Field K] [LinearOrder K]

/-- All scores, `TypeError` from numpy arithmetic if one is missing.
`algorithms/topology_optimization.py:295-296`, `algorithms/topology_optimization.py:355-356`. -/
def allScores : List (Indiv K) → Except Err (List K)
  | [] => .ok []
  | (none, _) :: _ => .error .typeError
  | (some s, _) :: pop =>
    match allScores pop with
    | .error e => .error e
    | .ok l => .ok (s :: l)

/-- `algorithms/topology_optimization.py:307`. -/
def listMin : K → List K → K
  | m, [] => m
  | m, x :: xs => listMin (min m x) xs

/-- `random.random() < break_probability[i]` (lines 309, 331) for score `s` and least score `m`; a division by zero gives
inf or nan, a comparison with nan is false. -/
def breaks (root : K → Option K) (m s u : K) : Bool :=
  if m = 0 then decide (0 < s)
  else
    match root (s / m) with
    | none => false
    | some r => decide (u < 1 / 2 * r)

/-- The inner `while True` (lines 315-332) for one parent.  `prev` is the child whose parameter slots `node_edge_index` refers
to; in the first round it refers to the parent's own and the write-back changes nothing. -/
def prefInner (cfg : TopCfg C K) (stop : K → Bool) (parent : Nat) :
    Nat → Pool C → Option Nat → Except Err (Pool C × List (Indiv K))
  | 0, _, _ => .error .diverges
  | f + 1, w, prev =>
    match child cfg w parent with
    | .error e => .error e
    | .ok w1 =>
      let c := w.next
      let w2 := match prev with
        | none => w1
        | some s => w1.write s (cfg.over (w1.heap parent) (w1.heap s))
      if cfg.chk (w2.heap c) && cfg.hasParams (w2.heap c) then
        if stop (cfg.u w2.calls) then .ok (w2.tick, [(none, c)])
        else
          match prefInner cfg stop parent f w2.tick (some c) with
          | .error e => .error e
          | .ok (w3, rest) => .ok (w3, (none, c) :: rest)
      else prefInner cfg stop parent f w2 (some c)

/-- `algorithms/topology_optimization.py:311-335`. -/
def prefLoop (cfg : TopCfg C K) (stop : Option K → K → Bool) : Pool C → List (Indiv K) → Except Err (Pool C × List (Indiv K))
  | w, [] => .ok (w, [])
  | w, (s, i) :: pop =>
    match prefInner cfg (stop s) i cfg.fuel w none with
    | .error e => .error e
    | .ok (w1, cs) =>
      match prefLoop cfg stop w1 pop with
      | .error e => .error e
      | .ok (w2, rest) => .ok (w2, cs ++ rest)

/-- Unscored population: break probability one (lines 297-299, 309). -/
def updatePreferential (cfg : TopCfg C K) (root : K → Option K) (w : Pool C) (pop : List (Indiv K)) :
    Except Err (Pool C × List (Indiv K)) :=
  match pop with
  | [] => .error .indexError
  | (none, _) :: _ =>
    match prefLoop cfg (fun _ u => decide (u < 1)) w pop with
    | .error e => .error e
    | .ok (w', new) => .ok (w', new ++ elite cfg pop)
  | (some s0, _) :: _ =>
    match allScores pop with
    | .error e => .error e
    | .ok scores =>
      let m := listMin s0 scores
      match prefLoop cfg (fun s u => breaks root m (s.getD 0) u) w pop with
      | .error e => .error e
      | .ok (w', new) => .ok (w', new ++ elite cfg pop)

/-! ### update rules `roulette` and `tournament` (lines 344-428) -/

/-- The sampling loops (lines 366-377, 410-420): `n` children, parent number given by `choose`. -/
def reproduce (cfg : TopCfg C K) (choose : Nat → Nat) (pop : List (Indiv K)) :
    Nat → Pool C → Except Err (Pool C × List (Indiv K))
  | 0, w => .ok (w, [])
  | n + 1, w =>
    match pop[choose w.calls]? with
    | none => .error .indexError
    | some (_, i) =>
      match child cfg w i with
      | .error e => .error e
      | .ok w1 =>
        if cfg.chk (w1.heap w.next) then
          match reproduce cfg choose pop n w1 with
          | .error e => .error e
          | .ok (w2, rest) => .ok (w2, (none, w.next) :: rest)
        else .error .assertion

/-- `np.random.choice(np.arange(0, n), p=probs)`: the first index whose cumulated probability exceeds the uniform draw.
`algorithms/topology_optimization.py:370`. -/
def cdfPick : List K → K → K → Nat
  | [], _, _ => 0
  | p :: ps, acc, u => if u < acc + p then 0 else cdfPick ps (acc + p) u + 1

/-- Line 361-362, with the checks `np.random.choice` makes on its probabilities: `ValueError` on nan or negative ones.  A zero
score (to a positive power) or a zero sum gives inf and nan. -/
def rouletteProbs (p : Nat) (scores : List K) : Except Err (List K) :=
  let raw := scores.map (fun s => 1 / s ^ p)
  let total := raw.sum
  if (∃ s ∈ scores, s ^ p = 0) ∨ total = 0 then .error .valueError
  else
    let probs := raw.map (fun x => x / total)
    if ∃ x ∈ probs, x < 0 then .error .valueError else .ok probs

/-- An unscored population makes the probabilities two-dimensional: `ValueError` from `np.random.choice`.
`algorithms/topology_optimization.py:344-384`. -/
def updateRoulette (cfg : TopCfg C K) (p : Nat) (w : Pool C) (pop : List (Indiv K)) : Except Err (Pool C × List (Indiv K)) :=
  match pop with
  | [] => .error .indexError
  | (none, _) :: _ => .error .valueError
  | (some _, _) :: _ =>
    match allScores pop with
    | .error e => .error e
    | .ok scores =>
      match rouletteProbs p scores with
      | .error e => .error e
      | .ok probs =>
        match reproduce cfg (fun n => cdfPick probs 0 (cfg.u n)) pop pop.length w with
        | .error e => .error e
        | .ok (w', new) => .ok (w', new ++ elite cfg pop)

/-- Lines 405-408. -/
def tourneySize (divisor n : Nat) : Nat := if n / divisor = 0 then 1 else n / divisor

/-- The sampled indices (line 412). -/
def tourneyIdx (cfg : TopCfg C K) (divisor n call : Nat) : List Nat :=
  (List.range (tourneySize divisor n)).map (fun j => cfg.draw call j % n)

/-- `min(...)` (line 413). -/
def minIdx : List Nat → Nat
  | [] => 0
  | i :: is => is.foldl min i

/-- `algorithms/topology_optimization.py:387-428`. -/
def updateTournament (cfg : TopCfg C K) (divisor : Nat) (w : Pool C) (pop : List (Indiv K)) :
    Except Err (Pool C × List (Indiv K)) :=
  if pop.length = 0 then .error .indexError
  else if divisor = 0 then .error .zeroDivision
  else
    match reproduce cfg (fun n => minIdx (tourneyIdx cfg divisor pop.length n)) pop pop.length w with
    | .error e => .error e
    | .ok (w', new) => .ok (w', new ++ elite cfg pop)

/-- `algorithms/topology_optimization.py:33-58`. -/
def updatePop (cfg : TopCfg C K) (w : Pool C) (pop : List (Indiv K)) : Except Err (Pool C × List (Indiv K)) :=
  match cfg.rule with
  | .random => updateRandom cfg w pop
  | .preferential root => updatePreferential cfg root w pop
  | .roulette p => updateRoulette cfg p w pop
  | .tournament d => updateTournament cfg d w pop

/-! ### parameter optimisation of the population (lines 108-113, 539-569) -/

/-- `parameters_optimize_complete` on every individual; results are new objects (they come back serialised).
`algorithms/topology_optimization.py:115-120`, `algorithms/topology_optimization.py:539-564`. -/
def optimiseAll (cfg : TopCfg C K) : Pool C → List (Indiv K) → Except Err (Pool C × List (K × Nat))
  | w, [] => .ok (w, [])
  | _, (some _, _) :: _ => .error .runtimeError
  | w, (none, i) :: pop =>
    match cfg.opt w.calls (w.heap i) with
    | .error e => .error e
    | .ok (s, c) =>
      match optimiseAll cfg (w.alloc c).tick pop with
      | .error e => .error e
      | .ok (w2, rest) => .ok (w2, (s, w.next) :: rest)

/-! ### selection (lines 118-122) -/

/-- `population.sort(key=score); population[0:n_population]`; the sort is stable, as is `insertionSort`.
`algorithms/topology_optimization.py:126-127`. -/
def selectBest {G : Type} (n : Nat) (pop : List (K × G)) : List (K × G) := (pop.insertionSort (fun a b => a.1 ≤ b.1)).take n

/-- Forget that all scores are present. `algorithms/topology_optimization.py:126-127`. -/
def asInd {G : Type} (pop : List (K × G)) : List (Option K × G) := pop.map (fun p => (some p.1, p.2))

/-- All scores present, or the sort raises `TypeError`. `algorithms/topology_optimization.py:126-127`. -/
def scored {G : Type} : List (Option K × G) → Except Err (List (K × G))
  | [] => .ok []
  | (none, _) :: _ => .error .typeError
  | (some s, g) :: pop =>
    match scored pop with
    | .error e => .error e
    | .ok l => .ok ((s, g) :: l)

/-- Selection under a speciation manager `S` that has just speciated the population.
`algorithms/topology_optimization.py:124-128`. -/
def selectShared (S : Spec Nat K) (decay : Option K) (n : Nat) (pop : List (K × Nat)) : Except Err (List (Indiv K)) :=
  match S.share decay true (asInd pop) with
  | .error e => .error e
  | .ok shared =>
    match scored shared with
    | .error e => .error e
    | .ok l => S.unshare decay true (asInd (selectBest n l))

/-! ### the main loop (lines 89-137) -/

/-- `algorithms/topology_optimization.py:76-95`. -/
structure RunSt (C K : Type) where
  w : Pool C
  pop : List (Indiv K)
  hof : Hof K C
  /-- `SPECIATION_MANAGER`: `none` is `NoSpeciation` -/
  mgr : Option (Spec Nat K)
  /-- column `best` of the log -/
  bests : List (Option K)
  /-- ghost: individuals offered to the hall of fame, generation by generation -/
  trace : List (List (K × C))

/-- Distances between graph objects are computed from their current contents.
Objects live in the loop of `algorithms/topology_optimization.py:95-130`. -/
def heapDist (cfg : TopCfg C K) (w : Pool C) (a b : Nat) : K := cfg.dist (w.heap a) (w.heap b)

/-- Lines 92-105: speciation and sharing, the update, and the reversal. -/
def breed (cfg : TopCfg C K) (gen : Nat) (st : RunSt C K) : Except Err (RunSt C K) :=
  if gen = 0 then
    match updatePop cfg st.w st.pop with
    | .error e => .error e
    | .ok (w, pop) => .ok { st with w := w, pop := pop, mgr := cfg.setup.or st.mgr }
  else
    match st.mgr with
    | none =>
      match updatePop cfg st.w st.pop with
      | .error e => .error e
      | .ok (w, pop) => .ok { st with w := w, pop := pop }
    | some S =>
      let S' := S.speciate (heapDist cfg st.w) cfg.sqrt (cfg.specRnd (2 * gen)) (st.pop.map (·.2))
      match S'.share (cfg.decay gen) true st.pop with
      | .error e => .error e
      | .ok shared =>
        match updatePop cfg st.w shared with
        | .error e => .error e
        | .ok (w, pop) =>
          match S'.unshare (cfg.decay gen) true pop with
          | .error e => .error e
          | .ok pop' => .ok { st with w := w, pop := pop', mgr := some S' }

/-- Lines 118-123: speciation and sharing, selection, and the reversal. -/
def select (cfg : TopCfg C K) (gen : Nat) (w : Pool C) (mgr : Option (Spec Nat K)) (pop : List (K × Nat)) :
    Except Err (Option (Spec Nat K) × List (Indiv K)) :=
  match mgr with
  | none => .ok (none, asInd (selectBest cfg.nPop pop))
  | some S =>
    let S' := S.speciate (heapDist cfg w) cfg.sqrt (cfg.specRnd (2 * gen + 1)) (pop.map (·.2))
    match selectShared S' (cfg.decay gen) cfg.nPop pop with
    | .error e => .error e
    | .ok kept => .ok (some S', kept)

/-- One generation (lines 89-137).  `generation / (n_generations - 1)` raises for a single generation; `hof[0][0]` raises for an
empty hall of fame. -/
def generation (cfg : TopCfg C K) (gen : Nat) (st : RunSt C K) : Except Err (RunSt C K) :=
  if cfg.nGen = 1 then .error .zeroDivision
  else
    match breed cfg gen st with
    | .error e => .error e
    | .ok st1 =>
      match optimiseAll cfg st1.w st1.pop with
      | .error e => .error e
      | .ok (w2, pop2) =>
        let offered := pop2.map (fun p => (p.1, w2.heap p.2))
        let hof := updateHof (cfg.sim gen) st1.hof offered
        match select cfg gen w2 st1.mgr pop2 with
        | .error e => .error e
        | .ok (mgr, kept) =>
          match hof with
          | [] => .error .indexError
          | best :: _ =>
            .ok ⟨w2, kept, hof, mgr, st1.bests ++ [best.map (·.1)], st1.trace ++ [offered]⟩

/-- `algorithms/topology_optimization.py:95-138`. -/
def generations (cfg : TopCfg C K) : Nat → Nat → RunSt C K → Except Err (RunSt C K)
  | 0, _, st => .ok st
  | n + 1, gen, st =>
    match generation cfg gen st with
    | .error e => .error e
    | .ok st' => generations cfg n (gen + 1) st'

/-- Lines 74-78: `n_population` copies of the optimised start graph.  The manager is whatever the process last used. -/
def initialState (cfg : TopCfg C K) (w : Pool C) (start : C) (mgr : Option (Spec Nat K)) : Except Err (RunSt C K) :=
  match cfg.opt w.calls start with
  | .error e => .error e
  | .ok (s, c) =>
    let (w', pop) := copyAll (w.alloc c).tick (List.replicate cfg.nPop (some s, w.next))
    .ok ⟨w', pop, initHof cfg.nHof, mgr, [], []⟩

/-- `topology_optimization` (lines 23-144). -/
def topologyOptimization (cfg : TopCfg C K) (w : Pool C) (start : C) (mgr : Option (Spec Nat K)) : Except Err (RunSt C K) :=
  match initialState cfg w start mgr with
  | .error e => .error e
  | .ok st => generations cfg cfg.nGen 0 st

end

end Verif
