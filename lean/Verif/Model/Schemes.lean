import Verif.Model.Topology
import Verif.Model.Distance
/-!
# Update rules by name and their schemes of species (`algorithms/topology_optimization.py`)

The setup of the schemes, which marks the graphs of the first population; the names of the update rules; and `Speciation.speciate` with
distances that may raise.  A graph object is its contents together with its `speciation_descriptor`.
-/

namespace Verif
variable {C K : Type}

/-- The base rules, without their numbers. `algorithms/topology_optimization.py:254-428`. -/
inductive BaseRule where
  | random | preferential | roulette | tournament
deriving DecidableEq, Repr

/-- The choice of `update_population` by `update_rule` (lines 31-56, with the functions of lines 489-536): base rule and scheme. -/
def ruleByName (s : String) : Except Err (BaseRule × Option SpecName) :=
  if s = "random" then .ok (.random, none)
  else if s = "preferential" then .ok (.preferential, none)
  else if s = "roulette" then .ok (.roulette, none)
  else if s = "tournament" then .ok (.tournament, none)
  else if s = "roulette edit distance" then .ok (.roulette, some .editDistance)
  else if s = "tournament edit distance" then .ok (.tournament, some .editDistance)
  else if s = "random simple subpop scheme" then .ok (.random, some .simpleSubpopulation)
  else if s = "preferential simple subpop scheme" then .ok (.preferential, some .simpleSubpopulation)
  else if s = "random vectorDIFF" then .ok (.random, some .vectorDiff)
  else if s = "preferential vectorDIFF" then .ok (.preferential, some .vectorDiff)
  else if s = "random photoNEAT" then .ok (.random, some .photoNeat)
  else if s = "preferential photoNEAT" then .ok (.preferential, some .photoNeat)
  else .error .notImplemented

/-- The descriptor a setup gives to individual number `i` (lines 442-443, 455-456, 484-485). -/
def setupMark (s : SpecName) (target i : Nat) : Descriptor :=
  match s with
  | .simpleSubpopulation => ⟨s, some (i % target)⟩
  | _ => ⟨s, none⟩

/-- `for i, (_, graph) in enumerate(population): graph.speciation_descriptor = ...`.
`algorithms/topology_optimization.py:433-485`. -/
def markFrom (s : SpecName) (target : Nat) : Nat → Pool (C × Option Descriptor) → List (Indiv K) → Pool (C × Option Descriptor)
  | _, w, [] => w
  | i, w, (_, g) :: pop => markFrom s target (i + 1) (w.write g ((w.heap g).1, some (setupMark s target i))) pop

section
variable [Field K] [LinearOrder K]

/-- `Speciation(target_species_num=..., distance_func=...)` with the default threshold 0.4 (`algorithms/speciation.py:37-58`); no target for edit distances
(line 480). -/
def setupManager (s : SpecName) (target : Nat) : Spec Nat K :=
  ⟨match s with
    | .editDistance => none
    | _ => some target, 2 / 5, [], fun _ => none⟩

/-- `_simple_subpopulation_setup`, `_vectorDIFF_setup`, `_photoNEAT_setup`, `_edit_distance_setup` (lines 433-485), or nothing for a rule without
scheme: the objects, and the manager of the process afterwards.  `photoNEAT()` raises (`algorithms/speciation.py:329-330`); `i % 0` raises. -/
def setupScheme (s : Option SpecName) (target : Nat) (w : Pool (C × Option Descriptor)) (pop : List (Indiv K)) (mgr : Option (Spec Nat K)) :
    Except Err (Pool (C × Option Descriptor) × Option (Spec Nat K)) :=
  match s with
  | none => .ok (w, mgr)
  | some s =>
    match pop with
    | [] => .error .indexError
    | (_, g) :: _ =>
      match (w.heap g).2 with
      | some _ => .ok (w, mgr)
      | none =>
        if s = .photoNeat then .error .valueError
        else if s = .simpleSubpopulation ∧ target = 0 then .error .zeroDivision
        else .ok (markFrom s target 0 w pop, some (setupManager s target))

/-- A generation of `topology_optimization` (lines 89-137) with the setup made explicit.  The setup is called in every generation, by the update of the population; before
generation 0 nothing has been speciated, so it comes first there. In later generations the population was marked or found marked in generation 0
(`C87_marked`), and it does nothing. -/
def generationOf (cfg : TopCfg (C × Option Descriptor) K) (s : Option SpecName) (target : Nat) (gen : Nat) (st : RunSt (C × Option Descriptor) K) :
    Except Err (RunSt (C × Option Descriptor) K) :=
  if gen = 0 then
    match setupScheme s target st.w st.pop st.mgr with
    | .error e => .error e
    | .ok (w, mgr) => generation { cfg with setup := none } gen { st with w := w, mgr := mgr }
  else generation { cfg with setup := none } gen st

/-- `algorithms/topology_optimization.py:95-138`. -/
def generationsOf (cfg : TopCfg (C × Option Descriptor) K) (s : Option SpecName) (target : Nat) :
    Nat → Nat → RunSt (C × Option Descriptor) K → Except Err (RunSt (C × Option Descriptor) K)
  | 0, _, st => .ok st
  | n + 1, gen, st =>
    match generationOf cfg s target gen st with
    | .error e => .error e
    | .ok st' => generationsOf cfg s target n (gen + 1) st'

/-- `topology_optimization` in a process whose manager is `mgr`. `algorithms/topology_optimization.py:23-144`. -/
def runOf (cfg : TopCfg (C × Option Descriptor) K) (s : Option SpecName) (target : Nat) (w : Pool (C × Option Descriptor)) (start : C × Option Descriptor)
    (mgr : Option (Spec Nat K)) : Except Err (RunSt (C × Option Descriptor) K) :=
  match initialState cfg w start mgr with
  | .error e => .error e
  | .ok st => generationsOf cfg s target cfg.nGen 0 st

end

/-! ## `speciate` with distances that raise -/

section
variable {G : Type} [DecidableEq G] [LinearOrder K]

/-- `bestRep` (`algorithms/speciation.py:79-86`). -/
def bestRepE (d : G → G → Except Err K) (thr : K) (keys : List G) (rep : G) : List G → Option G × K → Except Err (Option G × K)
  | [], acc => .ok acc
  | g :: gs, acc =>
    if g ∉ keys then
      match d rep g with
      | .error e => .error e
      | .ok score =>
        if score < acc.2 ∧ score < thr then bestRepE d thr keys rep gs (some g, score)
        else bestRepE d thr keys rep gs acc
    else bestRepE d thr keys rep gs acc

/-- `repLoop` (lines 74-91). -/
def repLoopE [OfNat K 5] (d : G → G → Except Err K) (thr : K) (shuf : Nat → List G → List G) :
    Nat → List G → List G → List (G × Nat) → Except Err (List (G × Nat))
  | _, [], _, sp => .ok sp
  | n, rep :: reps, gs, sp =>
    if rep ∈ gs then repLoopE d thr shuf (n + 1) reps (gs.erase rep) (dset sp rep 0)
    else
      match bestRepE d thr (sp.map (·.1)) rep (shuf n gs) (none, 5) with
      | .error e => .error e
      | .ok (none, _) => repLoopE d thr shuf (n + 1) reps gs (dpop sp rep)
      | .ok (some b, _) => repLoopE d thr shuf (n + 1) reps (gs.erase b) (dset (dpop sp rep) b 0)

/-- `redInner` (lines 97-99): the distance is the last of the conditions and only computed when the others hold. -/
def redInnerE (d : G → G → Except Err K) (thr : K) (s0 : G) : List G → List G → Except Err (List G)
  | [], red => .ok red
  | s1 :: ss, red =>
    if s0 ≠ s1 ∧ s0 ∉ red ∧ s1 ∉ red then
      match d s0 s1 with
      | .error e => .error e
      | .ok x => if x < thr then redInnerE d thr s0 ss (s1 :: red) else redInnerE d thr s0 ss red
    else redInnerE d thr s0 ss red

/-- `algorithms/speciation.py:96-99`. -/
def redOuterE (d : G → G → Except Err K) (thr : K) (keys : List G) : List G → List G → Except Err (List G)
  | [], red => .ok red
  | s0 :: ss, red =>
    match redInnerE d thr s0 keys red with
    | .error e => .error e
    | .ok red' => redOuterE d thr keys ss red'

/-- The first species within the threshold (lines 117-121). -/
def findRepE (d : G → G → Except Err K) (thr : K) (g : G) : List G → Except Err (Option G)
  | [] => .ok none
  | r :: rs =>
    match d r g with
    | .error e => .error e
    | .ok x => if x < thr then .ok (some r) else findRepE d thr g rs

/-- `assign1` (lines 112-126). -/
def assignE (d : G → G → Except Err K) (thr : K) : List G → List (G × Nat) × (G → Option G) → Except Err (List (G × Nat) × (G → Option G))
  | [], st => .ok st
  | g :: gs, st =>
    let upd (r : G) : G → Option G := fun x => if x = g then some r else st.2 x
    if g ∈ st.1.map (·.1) then assignE d thr gs (dinc st.1 g, upd g)
    else
      match findRepE d thr g (st.1.map (·.1)) with
      | .error e => .error e
      | .ok (some r) => assignE d thr gs (dinc st.1 r, upd r)
      | .ok none => assignE d thr gs (if st.2 g = none then (dset st.1 g 1, upd g) else st)

end

/-- `speciate` (lines 60-142). -/
def Spec.speciateE {G : Type} [DecidableEq G] [Field K] [LinearOrder K] (d : G → G → Except Err K) (sqrt : Nat → K) (r : SpecRnd G) (S : Spec G K)
    (pop : List G) : Except Err (Spec G K) :=
  match repLoopE d S.thr r.graphOrder 0 (r.repOrder (S.species.map (·.1))) pop.dedup S.species with
  | .error e => .error e
  | .ok sp1 =>
    match redOuterE d S.thr (sp1.map (·.1)) (sp1.map (·.1)) [] with
    | .error e => .error e
    | .ok red =>
      match assignE d S.thr pop (red.foldl dpop sp1, fun _ => none) with
      | .error e => .error e
      | .ok st =>
        .ok { S with
          species := st.1
          imap := st.2
          thr := match S.target with
            | none => S.thr
            | some t => adjust S.thr t st.1.length (sqrt pop.length) }

end Verif
