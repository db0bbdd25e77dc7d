import Verif.Model.Graph
/-!
# Model of the cached filter and noise objects (`simulator/fiber/assets/filter.py:11-101`, `simulator/fiber/assets/additive_noise.py:23-205`)

Propagators are objects, identified by a number; what a filter or noise vector depends on is the grid of the propagator, which can be
changed in place (`simulator/fiber/assets/propagator.py:41-45`).  The formulas themselves (transfer functions, shapes and scaling of noise,
the way noise vectors are combined with a signal) are functions given from outside.
-/

namespace Verif

/-- Part of the model of `simulator/fiber/assets/filter.py:11-101`, `simulator/fiber/assets/additive_noise.py:23-205`. -/
abbrev PropId := Nat

/-! ### Filters -/

/-- `_propagator` and `_filter`.
Part of the model of `simulator/fiber/assets/filter.py:11-101`, `simulator/fiber/assets/additive_noise.py:23-205`. -/
structure FilterSt (F : Type) where
  cur : Option PropId
  cache : Option F

section
variable {G F : Type}

/-- `get_filtered_freq` (`filter.py:40-50`) up to the multiplication: the transfer function used.  The setter forgets the cached filter
(91-94), the property computes it when there is none (96-101); `tf` is `Filter.get_filter` with the shape of the object, by grid. -/
def filterFor (tf : G → Except Err F) (grid : PropId → G) (st : FilterSt F) (p : PropId) : FilterSt F × Except Err F :=
  let st1 : FilterSt F := if st.cur = some p then st else ⟨some p, none⟩
  match st1.cache with
  | some f => (st1, .ok f)
  | none =>
    match tf (grid p) with
    | .error e => (st1, .error e)
    | .ok f => ({ st1 with cache := some f }, .ok f)

/-- What can happen: a call with a propagator, or a change of a propagator.
Part of the model of `simulator/fiber/assets/filter.py:11-101`, `simulator/fiber/assets/additive_noise.py:23-205`. -/
inductive FOp (G : Type) where
  | apply (p : PropId)
  | change (p : PropId) (g : G)

/-- Grids and filter object.
Part of the model of `simulator/fiber/assets/filter.py:11-101`, `simulator/fiber/assets/additive_noise.py:23-205`. -/
structure FWorld (G F : Type) where
  grid : PropId → G
  st : FilterSt F

/-- One event. Part of the model of `simulator/fiber/assets/filter.py:11-101`, `simulator/fiber/assets/additive_noise.py:23-205`. -/
def FWorld.step (tf : G → Except Err F) (w : FWorld G F) : FOp G → FWorld G F
  | .apply p => { w with st := (filterFor tf w.grid w.st p).1 }
  | .change p g => { w with grid := fun q => if q = p then g else w.grid q }

/-- A history. Part of the model of `simulator/fiber/assets/filter.py:11-101`, `simulator/fiber/assets/additive_noise.py:23-205`. -/
def FWorld.run (tf : G → Except Err F) (w : FWorld G F) (ops : List (FOp G)) : FWorld G F := ops.foldl (FWorld.step tf) w

end

/-! ### Noise -/

/-- `supported_noise_types`.
Part of the model of `simulator/fiber/assets/filter.py:11-101`, `simulator/fiber/assets/additive_noise.py:23-205`. -/
inductive NoiseKind where
  | osnr | absolutePower | edfaAse | rms | shot | fwhm | phase
deriving DecidableEq, Repr

/-- An entry of `noise_sources`; `par` stands for distribution, parameter and filter.
Part of the model of `simulator/fiber/assets/filter.py:11-101`, `simulator/fiber/assets/additive_noise.py:23-205`. -/
structure NoiseSrc (P V : Type) where
  kind : NoiseKind
  par : P
  vec : Option V
deriving DecidableEq, Repr

/-- An `AdditiveNoise` object. `simulator/fiber/assets/additive_noise.py:23-373`. -/
structure NoiseObj (P V : Type) where
  prop : Option PropId
  seed : Option Nat
  srcs : List (NoiseSrc P V)
  on : Bool
deriving DecidableEq, Repr

/-- The formulas: `_get_noise_vector` with the random generator, seeding, and the combination of signal and vectors in
`add_noise_to_propagation` (lines 122-154). -/
structure NoiseRules (P V R S : Type) where
  draw : NoiseKind → P → PropId → R → V × R
  reseed : Nat → R
  mix : PropId → S → List (NoiseKind × P × V) → S

/-- Object, class variable `simulate_with_noise`, and the random generator of numpy.
Part of the model of `simulator/fiber/assets/filter.py:11-101`, `simulator/fiber/assets/additive_noise.py:23-205`. -/
structure NoiseWorld (P V R : Type) where
  obj : NoiseObj P V
  simulate : Bool
  rng : R
deriving DecidableEq, Repr

section
variable {P V R S : Type}

/-- Loop of `resample_noise` (lines 203-205). -/
def drawAll (N : NoiseRules P V R S) (p : PropId) : List (NoiseSrc P V) → R → List (NoiseSrc P V) × R
  | [], r => ([], r)
  | s :: ss, r =>
    let (v, r1) := N.draw s.kind s.par p r
    let (rest, r2) := drawAll N p ss r1
    ({ s with vec := some v } :: rest, r2)

/-- `resample_noise` (lines 188-205). -/
def resampleNoise (N : NoiseRules P V R S) (w : NoiseWorld P V R) (seed : Option Nat) : NoiseWorld P V R × Except Err Unit :=
  if !w.simulate then (w, .ok ())
  else
    match w.obj.prop with
    | none => (w, .error .valueError)
    | some p =>
      let r := match seed with | some s => N.reseed s | none => w.rng
      let (srcs, r') := drawAll N p w.obj.srcs r
      ({ w with obj := { w.obj with srcs := srcs }, rng := r' }, .ok ())

/-- The propagator setter (lines 183-186). -/
def setPropagator (N : NoiseRules P V R S) (w : NoiseWorld P V R) (p : PropId) : NoiseWorld P V R :=
  (resampleNoise N { w with obj := { w.obj with prop := some p } } w.obj.seed).1

/-- `if self.propagator is None or propagator is not self.propagator: self.propagator = propagator`.
Part of the model of `simulator/fiber/assets/filter.py:11-101`, `simulator/fiber/assets/additive_noise.py:23-205`. -/
def usePropagator (N : NoiseRules P V R S) (w : NoiseWorld P V R) (p : PropId) : NoiseWorld P V R :=
  if w.obj.prop = some p then w else setPropagator N w p

/-- The vectors the loop at lines 125-152 works with; arithmetic with `None` raises `TypeError`.  Phase noise is skipped. -/
def gatherVecs : List (NoiseSrc P V) → Except Err (List (NoiseKind × P × V))
  | [] => .ok []
  | s :: ss =>
    if s.kind = .phase then gatherVecs ss
    else
      match s.vec with
      | none => .error .typeError
      | some v =>
        match gatherVecs ss with
        | .error e => .error e
        | .ok r => .ok ((s.kind, s.par, v) :: r)

/-- `add_noise_to_propagation` (lines 109-154). -/
def addNoise (N : NoiseRules P V R S) (w : NoiseWorld P V R) (signal : S) (p : PropId) : NoiseWorld P V R × Except Err S :=
  if !w.obj.on || !w.simulate then (w, .ok signal)
  else
    let w1 := usePropagator N w p
    match gatherVecs w1.obj.srcs with
    | .error e => (w1, .error e)
    | .ok vs => (w1, .ok (N.mix p signal vs))

/-- `get_phase_noise` (lines 156-177): `none` stands for zeros. -/
def phaseNoise (N : NoiseRules P V R S) (w : NoiseWorld P V R) (p : PropId) : NoiseWorld P V R × Except Err (Option V) :=
  if !w.simulate then (w, .ok none)
  else
    let w1 := usePropagator N w p
    match w1.obj.srcs.find? (fun s => s.kind = .phase) with
    | none => (w1, .error .valueError)
    | some s => (w1, .ok s.vec)

/-- `add_noise_source` (lines 64-107) with a supported distribution and type. -/
def addSource (N : NoiseRules P V R S) (w : NoiseWorld P V R) (k : NoiseKind) (par : P) : NoiseWorld P V R :=
  match w.obj.prop with
  | none => { w with obj := { w.obj with srcs := w.obj.srcs ++ [⟨k, par, none⟩] } }
  | some p =>
    let (v, r) := N.draw k par p w.rng
    { w with obj := { w.obj with srcs := w.obj.srcs ++ [⟨k, par, some v⟩] }, rng := r }

/-- What can happen to the object.
Part of the model of `simulator/fiber/assets/filter.py:11-101`, `simulator/fiber/assets/additive_noise.py:23-205`. -/
inductive NoiseOp (P R S : Type) where
  | source (k : NoiseKind) (par : P)
  | noise (signal : S) (p : PropId)
  | phase (p : PropId)
  | resample (seed : Option Nat)
  | switch (on : Bool)
  | simulate (on : Bool)
  /-- other use of the random generator -/
  | random (r : R)

/-- One event. Part of the model of `simulator/fiber/assets/filter.py:11-101`, `simulator/fiber/assets/additive_noise.py:23-205`. -/
def NoiseWorld.step (N : NoiseRules P V R S) (w : NoiseWorld P V R) : NoiseOp P R S → NoiseWorld P V R
  | .source k par => addSource N w k par
  | .noise s p => (addNoise N w s p).1
  | .phase p => (phaseNoise N w p).1
  | .resample seed => (resampleNoise N w seed).1
  | .switch b => { w with obj := { w.obj with on := b } }
  | .simulate b => { w with simulate := b }
  | .random r => { w with rng := r }

/-- A history. Part of the model of `simulator/fiber/assets/filter.py:11-101`, `simulator/fiber/assets/additive_noise.py:23-205`. -/
def NoiseWorld.run (N : NoiseRules P V R S) (w : NoiseWorld P V R) (ops : List (NoiseOp P R S)) : NoiseWorld P V R :=
  ops.foldl (NoiseWorld.step N) w

/-- The constructor (lines 34-62). -/
def NoiseObj.new (k : NoiseKind) (par : P) (seed : Option Nat) (on : Bool) : NoiseObj P V := ⟨none, seed, [⟨k, par, none⟩], on⟩

end

end Verif
