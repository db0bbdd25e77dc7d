import Verif.Model.Graph
import Mathlib.Algebra.Order.Field.Basic
import Mathlib.Data.List.Dedup
import Mathlib.Data.List.Sort
/-!
# Model of `Speciation` (`algorithms/speciation.py:26-228`)

Graphs are compared by identity (`nx.MultiDiGraph` defines no equality): any type `G` with decidable equality.  Scores,
distances and the threshold are elements of an ordered field `K`.  The order in which Python iterates over sets is
an argument.  Distance functions are total (the descriptor checks of the concrete distances are in `Model/Distance`).
-/

namespace Verif

variable {G K : Type} [DecidableEq G]

/-! ### dictionaries in insertion order -/

/-- `d[k] = v`. Part of the model of `algorithms/speciation.py:26-228`. -/
def dset (s : List (G × Nat)) (k : G) (v : Nat) : List (G × Nat) :=
  if k ∈ s.map (·.1) then s.map (fun p => if p.1 = k then (k, v) else p) else s ++ [(k, v)]

/-- `d[k] += 1` for a present key. Part of the model of `algorithms/speciation.py:26-228`. -/
def dinc (s : List (G × Nat)) (k : G) : List (G × Nat) := s.map (fun p => if p.1 = k then (p.1, p.2 + 1) else p)

/-- `d.pop(k, None)`. Part of the model of `algorithms/speciation.py:26-228`. -/
def dpop (s : List (G × Nat)) (k : G) : List (G × Nat) := s.filter (fun p => p.1 ≠ k)

/-- `d[k]` (`KeyError`: `none`). Part of the model of `algorithms/speciation.py:26-228`. -/
def dget (s : List (G × Nat)) (k : G) : Option Nat := (s.find? (fun p => p.1 = k)).map (·.2)

/-! ### state -/

/-- Attributes of a `Speciation` object (lines 46-58; `imap` is `individual_species_map`). -/
structure Spec (G K : Type) where
  target : Option Nat
  thr : K
  species : List (G × Nat)
  imap : G → Option G

/-- `__init__` (lines 37-58). -/
def Spec.init [LinearOrder K] [Zero K] [One K] (target : Option Nat) (thr : K) : Except Err (Spec G K) :=
  if thr ≤ 0 ∨ thr ≥ 1 then .error .valueError
  else .ok ⟨target, thr, [], fun _ => none⟩

/-! ### step 1: representatives (lines 71-91) -/

/-- Lines 79-86: the closest available graph, over the given iteration order of `graph_set`. -/
def bestRep [LinearOrder K] (d : G → G → K) (thr : K) (keys : List G) (rep : G) : List G → Option G × K → Option G × K
  | [], acc => acc
  | g :: gs, acc =>
    if g ∉ keys then
      let score := d rep g
      if score < acc.2 ∧ score < thr then bestRep d thr keys rep gs (some g, score)
      else bestRep d thr keys rep gs acc
    else bestRep d thr keys rep gs acc

/-- The loop over `rep_set` (lines 74-91); `shuf n` is the order in which the set is iterated in round `n`. -/
def repLoop [LinearOrder K] [OfNat K 5] (d : G → G → K) (thr : K) (shuf : Nat → List G → List G) :
    Nat → List G → List G → List (G × Nat) → List (G × Nat)
  | _, [], _, sp => sp
  | n, rep :: reps, gs, sp =>
    if rep ∈ gs then repLoop d thr shuf (n + 1) reps (gs.erase rep) (dset sp rep 0)
    else
      match (bestRep d thr (sp.map (·.1)) rep (shuf n gs) (none, 5)).1 with
      | none => repLoop d thr shuf (n + 1) reps gs (dpop sp rep)
      | some b => repLoop d thr shuf (n + 1) reps (gs.erase b) (dset (dpop sp rep) b 0)

/-! ### step 2: redundant species (lines 95-102) -/

/-- Inner loop for a fixed `species0` (lines 97-99). -/
def redInner [LinearOrder K] (d : G → G → K) (thr : K) (s0 : G) : List G → List G → List G
  | [], red => red
  | s1 :: ss, red =>
    if s0 ≠ s1 ∧ s0 ∉ red ∧ s1 ∉ red ∧ d s0 s1 < thr then redInner d thr s0 ss (s1 :: red)
    else redInner d thr s0 ss red

/-- Outer loop (lines 96-99). -/
def redOuter [LinearOrder K] (d : G → G → K) (thr : K) (keys : List G) : List G → List G → List G
  | [], red => red
  | s0 :: ss, red => redOuter d thr keys ss (redInner d thr s0 keys red)

/-- Lines 95-102; the set of redundant keys is popped in some order, which does not matter. -/
def dropRedundant [LinearOrder K] (d : G → G → K) (thr : K) (sp : List (G × Nat)) : List (G × Nat) :=
  let keys := sp.map (·.1)
  (redOuter d thr keys keys []).foldl dpop sp

/-! ### step 3: assignment (lines 112-126) -/

/-- One round of the loop over the population (lines 112-126). -/
def assign1 [LinearOrder K] (d : G → G → K) (thr : K) (st : List (G × Nat) × (G → Option G)) (g : G) :
    List (G × Nat) × (G → Option G) :=
  let upd (r : G) : G → Option G := fun x => if x = g then some r else st.2 x
  if g ∈ st.1.map (·.1) then (dinc st.1 g, upd g)
  else
    match (st.1.map (·.1)).find? (fun r => d r g < thr) with
    | some r => (dinc st.1 r, upd r)
    | none => if st.2 g = none then (dset st.1 g 1, upd g) else st

/-! ### step 4: threshold (lines 133-140) -/

/-- `np.clip`. Part of the model of `algorithms/speciation.py:26-228`. -/
def clip [LinearOrder K] (x lo hi : K) : K := min hi (max lo x)

/-- Lines 137-140; `sq` is `np.sqrt(len(population))`. -/
def adjust [Field K] [LinearOrder K] (thr : K) (target count : Nat) (sq : K) : K :=
  let prop := (1 / 10) / sq
  let delta := clip (-1 * ((target : K) - count) * prop) (-1 * (3 / 10)) (3 / 10)
  max (1 / 20) (min (delta + thr) (19 / 20))

/-- Everything outside the program's control in one call of `speciate`.
`algorithms/speciation.py:60-142`, `algorithms/speciation.py:240-241`. -/
structure SpecRnd (G : Type) where
  /-- order of `set(self.species.keys())` -/
  repOrder : List G → List G
  /-- order of `graph_set` in each round -/
  graphOrder : Nat → List G → List G

/-- `speciate` (lines 60-142; the scores are not looked at, printing is left out). -/
def Spec.speciate [Field K] [LinearOrder K] (d : G → G → K) (sqrt : Nat → K) (r : SpecRnd G) (S : Spec G K)
    (pop : List G) : Spec G K :=
  let sp1 := repLoop d S.thr r.graphOrder 0 (r.repOrder (S.species.map (·.1))) pop.dedup S.species
  let sp2 := dropRedundant d S.thr sp1
  let st := pop.foldl (assign1 d S.thr) (sp2, fun _ => none)
  { S with
    species := st.1
    imap := st.2
    thr := match S.target with
      | none => S.thr
      | some t => adjust S.thr t st.1.length (sqrt pop.length) }

/-! ### fitness sharing (lines 144-204) -/

/-- Lines 153-167: `species_size`, or `max(1, exp(-generation/coeff) * species_size)` with a half-life; `decay` is
that exponential. -/
def scaling [Field K] [LinearOrder K] (decay : Option K) (size : Nat) : K :=
  match decay with
  | none => (size : K)
  | some x => max 1 (x * size)

/-- `self.species[self.individual_species_map[graph]]` (line 162). -/
def Spec.sizeOf (S : Spec G K) (g : G) : Option Nat := (S.imap g).bind (dget S.species)

/-- `execute_fitness_sharing` (lines 144-176): missing graph `KeyError`, missing score `TypeError`. -/
def Spec.share [Field K] [LinearOrder K] (S : Spec G K) (decay : Option K) (minim : Bool) :
    List (Option K × G) → Except Err (List (Option K × G))
  | [] => .ok []
  | (s, g) :: pop =>
    match S.sizeOf g with
    | none => .error .keyError
    | some n =>
      match s with
      | none => .error .typeError
      | some x =>
        match S.share decay minim pop with
        | .error e => .error e
        | .ok rest => .ok ((some (if minim then x * scaling decay n else x / scaling decay n), g) :: rest)

/-- `reverse_fitness_sharing` (lines 178-204): a `KeyError` is swallowed, a missing score of a known graph is a
`TypeError`. -/
def Spec.unshare [Field K] [LinearOrder K] (S : Spec G K) (decay : Option K) (minim : Bool) :
    List (Option K × G) → Except Err (List (Option K × G))
  | [] => .ok []
  | (s, g) :: pop =>
    match S.sizeOf g with
    | none =>
      match S.unshare decay minim pop with
      | .error e => .error e
      | .ok rest => .ok ((s, g) :: rest)
    | some n =>
      match s with
      | none => .error .typeError
      | some x =>
        match S.unshare decay minim pop with
        | .error e => .error e
        | .ok rest => .ok ((some (if minim then x / scaling decay n else x * scaling decay n), g) :: rest)

/-- Filter loop of `get_crossover_candidates` (lines 219-222). -/
def Spec.candidatesLoop (S : Spec G K) (g : G) : List (K × G) → Except Err (List (K × G))
  | [] => .ok []
  | (s, c) :: pop =>
    match S.imap c, S.imap g with
    | some a, some b =>
      match S.candidatesLoop g pop with
      | .error e => .error e
      | .ok rest => .ok (if a = b ∧ c ≠ g then (s, c) :: rest else rest)
    | _, _ => .error .keyError

/-- `get_crossover_candidates` (lines 206-228); `list.sort` is stable, so is `insertionSort`. -/
def Spec.candidates [LinearOrder K] (S : Spec G K) (g : G) (pop : List (K × G)) : List (K × G) :=
  match S.candidatesLoop g pop with
  | .error _ => []
  | .ok l => l.insertionSort (fun a b => a.1 ≤ b.1)

end Verif
