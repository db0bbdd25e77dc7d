import Verif.Model.Graph
/-!
# Model of parameter list objects and what a component makes of them
(`lib/base_classes.py:15-97`, constructors, `propagate` and `update_noise_model` of the component classes)

A component holds a *reference* to a list of parameter values.  Beside it the object has `_name` attributes, a noise object and, in a
photodiode, a filter, all of them made from the values the list had at some earlier time.  Here list objects live in a store and components
refer to them by position, so that sharing of a list and staleness of what was made from it are part of the model.  Which values a component
works with is what is modelled; what it computes from them is modelled in `Model/Components.lean` and `Model/Devices.lean`.
Parameter values are of any type.  Negative Python indices are not modelled.
-/

namespace Verif

/-- The component classes, as far as their handling of parameters differs.  `plain` are the classes whose `propagate` reads
`self.parameters` and that have no noise object: fibre, attenuator, intensity modulator, wave shaper, split-and-delay line, programmable and
square filter, delay lines, waveguide, phase shifter, splitters (`single_path.py`, `multi_path.py`), and the power meters and the impulse, which have no parameters. -/
inductive PartKind where
  | pulsed | cw | noisySignal | phaseMod | amplifier | photodiode
  | plain (names : List String)
deriving DecidableEq, Repr

/-- `parameter_names` (`inputs.py:37,100,139`, `single_path.py:152,439`, `outputs.py:109`). -/
def PartKind.names : PartKind → List String
  | .pulsed => ["pulse_shape", "pulse_width", "peak_power", "t_rep", "central_wl", "train", "FWHM_linewidth"]
  | .noisySignal => ["pulse_shape", "pulse_width", "peak_power", "t_rep", "central_wl", "train", "FWHM_linewidth"]
  | .cw => ["peak_power", "central_wl", "osnr_dB", "FWHM_linewidth"]
  | .phaseMod => ["depth", "frequency", "shift", "FWHM_linewidth"]
  | .amplifier => ["max_small_signal_gain_dB", "peak_wl", "band_lower", "band_upper", "P_in_max", "P_out_max", "gain_flatness_dB", "alpha",
      "max_noise_fig_dB"]
  | .photodiode => ["responsivity", "bandwidth", "filter_order", "max_photocurrent", "load_resistance", "temp_K", "dark_current"]
  | .plain ns => ns

/-- Positions of the parameters that `propagate` reads (`inputs.py:76-77,111,193-194`, `single_path.py:176-178,503,515,532-542`,
`outputs.py:123,132-134`).  The amplifier reads the peak and band only when its gain is not flat; here always. -/
def PartKind.reads : PartKind → List Nat
  | .pulsed => [1, 3, 2, 0]
  | .noisySignal => [1, 3, 2, 0]
  | .cw => [0]
  | .phaseMod => [0, 1, 2]
  | .amplifier => [0, 6, 1, 3, 2, 5, 7, 8]
  | .photodiode => [0, 3, 4]
  | .plain ns => List.range ns.length

/-- How `propagate` gets at them: `self.parameters[i]`; `self._name` after `self.set_parameters_as_attr()` (`inputs.py:75,192`,
`single_path.py:457`); or `self._name` as it is (`outputs.py:118-134`). -/
inductive ReadMode where
  | list | refreshed | attrs
deriving DecidableEq, Repr

/-- See `ReadMode`. Part of the model of `lib/base_classes.py:15-97`. -/
def PartKind.mode : PartKind → ReadMode
  | .pulsed | .noisySignal | .amplifier => .refreshed
  | .cw | .phaseMod | .plain _ => .list
  | .photodiode => .attrs

/-- Positions of the parameters given to the noise object when it is made (`inputs.py:44,116-117,147`, `single_path.py:190`,
`outputs.py:140-150`).  The noise object of the amplifier refers to the amplifier (`single_path.py:445`). -/
def PartKind.noiseReads : PartKind → List Nat
  | .pulsed => [6]
  | .noisySignal => []
  | .cw => [3, 2]
  | .phaseMod => [3]
  | .amplifier => []
  | .photodiode => [5, 1, 4, 6]
  | .plain _ => []

/-- Whether the class overrides `update_noise_model` (`inputs.py:115`, `single_path.py:189`, `outputs.py:136`); the inherited method does
nothing (`base_classes.py:95-96`). -/
def PartKind.renewsNoise : PartKind → Bool
  | .cw | .phaseMod | .photodiode => true
  | _ => false

/-- Whether the class has a noise object. Part of the model of `lib/base_classes.py:15-97`. -/
def PartKind.noisy : PartKind → Bool
  | .plain _ => false
  | _ => true

/-- Whether the constructor first assigns the defaults (`inputs.py:41,103,144`). -/
def PartKind.assignsFirst : PartKind → Bool
  | .pulsed | .cw | .noisySignal => true
  | _ => false

/-- Positions of the parameters the filter of a photodiode is made from (`outputs.py:115`). -/
def PartKind.filterReads : PartKind → List Nat
  | .photodiode => [1, 2]
  | _ => []

/-- A component object: `_parameters`, `default_parameters`, the `_name` attributes by position of the name, the noise object (its serial
number and the values it was made from), the values the filter was made from, and the values of the last `propagate` (`_last_gain`,
`_last_noise_factor` of the amplifier). Part of the model of `lib/base_classes.py:15-97`. -/
structure BenchPart (V : Type) where
  kind : PartKind
  list : Nat
  dflt : Nat
  attrs : List (Option V)
  noise : Option (Nat × List V)
  filt : List V
  last : Option (List V)
deriving DecidableEq, Repr

/-- List objects, components, and a counter for noise objects. Part of the model of `lib/base_classes.py:15-97`. -/
structure Bench (V : Type) where
  lists : List (List V)
  parts : List (BenchPart V)
  serial : Nat
deriving DecidableEq, Repr

/-- The values in `default_parameters` as the constructors write them: one per name.
Part of the model of `lib/base_classes.py:15-97`. -/
structure Defaults (V : Type) where
  vals : PartKind → List V
  full : ∀ k, (vals k).length = k.names.length

section
variable {V : Type}

/-- The list object. Part of the model of `lib/base_classes.py:15-97`. -/
def Bench.deref (w : Bench V) (r : Nat) : List V := (w.lists[r]?).getD []

/-- `set_parameters_as_attr` (`base_classes.py:76-80`): `zip` stops at the end of the shorter list; attributes not reached keep their
value. -/
def setAttrs : List (Option V) → List V → List (Option V)
  | [], _ => []
  | as, [] => as
  | _ :: as, v :: vs => some v :: setAttrs as vs

/-- Read `self._name` for several names; a missing one raises `AttributeError`. Part of the model of `lib/base_classes.py:15-97`. -/
def readAttrs (as : List (Option V)) : List Nat → Except Err (List V)
  | [] => .ok []
  | i :: is =>
    match as[i]? with
    | some (some v) =>
      match readAttrs as is with
      | .error e => .error e
      | .ok vs => .ok (v :: vs)
    | _ => .error .attributeError

/-- Read `self.parameters[i]` for several positions. Part of the model of `lib/base_classes.py:15-97`. -/
def readList (l : List V) : List Nat → Except Err (List V)
  | [] => .ok []
  | i :: is =>
    match l[i]? with
    | some v =>
      match readList l is with
      | .error e => .error e
      | .ok vs => .ok (v :: vs)
    | none => .error .indexError

/-- The values for a new noise object: attributes, in a phase modulator the list (`single_path.py:190`). -/
def noiseValues (k : PartKind) (as : List (Option V)) (l : List V) : Except Err (List V) :=
  match k with
  | .phaseMod => readList l k.noiseReads
  | _ => readAttrs as k.noiseReads

/-- `update_noise_model` of a class overriding it: a new noise object. `lib/base_classes.py:95-96`. -/
def Bench.renew (w : Bench V) (q : BenchPart V) : Except Err (Bench V × BenchPart V) :=
  match noiseValues q.kind q.attrs (w.deref q.list) with
  | .error e => .error e
  | .ok vs => .ok ({ w with serial := w.serial + 1 }, { q with noise := some (w.serial, vs) })

/-- `set_parameters` (`base_classes.py:44-47`), which is also the setter of `parameters`: keep the reference, set the attributes, update the
noise object.  When the last step fails the list and the attributes are already changed.  A component or list that does not exist is a
`NameError` of the caller, here and below. -/
def Bench.assign (w : Bench V) (p : Nat) (r : Nat) : Bench V × Except Err Unit :=
  match w.parts[p]? with
  | none => (w, .error .nameError)
  | some q =>
    if w.lists.length ≤ r then (w, .error .nameError) else
    let q1 : BenchPart V := { q with list := r, attrs := setAttrs q.attrs (w.deref r) }
    if q.kind.renewsNoise then
      match w.renew q1 with
      | .error e => ({ w with parts := w.parts.set p q1 }, .error e)
      | .ok (w1, q2) => ({ w1 with parts := w1.parts.set p q2 }, .ok ())
    else ({ w with parts := w.parts.set p q1 }, .ok ())

/-- Element assignment in a list object. Part of the model of `lib/base_classes.py:15-97`. -/
def Bench.poke (w : Bench V) (r : Nat) (i : Nat) (v : V) : Bench V × Except Err Unit :=
  if i < (w.deref r).length then ({ w with lists := w.lists.set r ((w.deref r).set i v) }, .ok ())
  else (w, .error .indexError)

/-- `part.parameters[i] = v`, as `distribute_parameters_from_list` does it (`lib/graph.py:569-573`). -/
def Bench.write (w : Bench V) (p i : Nat) (v : V) : Bench V × Except Err Unit :=
  match w.parts[p]? with
  | none => (w, .error .nameError)
  | some q => w.poke q.list i v

/-- `parameter_names.index(name)`: `ValueError` when it is not there. Part of the model of `lib/base_classes.py:15-97`. -/
def nameIndex (ns : List String) (name : String) : Except Err Nat :=
  match ns.findIdx? (· = name) with
  | some i => .ok i
  | none => .error .valueError

/-- `set_parameter_from_name` (`base_classes.py:69-74`). -/
def Bench.byName (w : Bench V) (p : Nat) (name : String) (v : V) : Bench V × Except Err Unit :=
  match w.parts[p]? with
  | none => (w, .error .nameError)
  | some q =>
    match nameIndex q.kind.names name with
    | .error e => (w, .error e)
    | .ok i => w.poke q.list i v

/-- `get_parameter_from_name` (`base_classes.py:64-66`). -/
def Bench.shownByName (w : Bench V) (p : Nat) (name : String) : Except Err V :=
  match w.parts[p]? with
  | none => .error .nameError
  | some q =>
    match nameIndex q.kind.names name with
    | .error e => .error e
    | .ok i => match (w.deref q.list)[i]? with
      | some v => .ok v
      | none => .error .indexError

/-- The keyword arguments of a constructor. Part of the model of `lib/base_classes.py:15-97`. -/
inductive Given (V : Type) where
  | nothing
  | list (r : Nat)
  | names (l : List (String × V))
deriving DecidableEq, Repr

/-- The loop over `parameters_from_name` (`base_classes.py:25-27`), writing to list `r`. -/
def Bench.pokeNames (w : Bench V) (ns : List String) (r : Nat) : List (String × V) → Bench V × Except Err Unit
  | [] => (w, .ok ())
  | (name, v) :: rest =>
    match nameIndex ns name with
    | .error e => (w, .error e)
    | .ok i =>
      match w.poke r i v with
      | (w1, .error e) => (w1, .error e)
      | (w1, .ok ()) => w1.pokeNames ns r rest

/-- `NodeType.__init__` (`base_classes.py:15-32`) after the class has written its defaults to a new list: which list becomes
`_parameters`. -/
def Bench.initParams (D : Defaults V) (w : Bench V) (k : PartKind) (g : Given V) : Bench V × Except Err Nat :=
  let r0 := w.lists.length
  let w0 : Bench V := { w with lists := w.lists ++ [D.vals k] }
  match g with
  | .nothing => (w0, .ok r0)
  | .list r => if w.lists.length ≤ r then (w, .error .nameError) else (w0, .ok r)
  | .names l =>
    match w0.pokeNames k.names r0 l with
    | (w1, .error e) => (w1, .error e)
    | (w1, .ok ()) => (w1, .ok r0)

/-- The `_name` attributes when the constructor ends: three sources first assign the defaults, and all classes but the phase modulator and
the plain ones end with `set_parameters_as_attr` (`inputs.py:41-43,103-106,144-146`, `single_path.py:452`, `outputs.py:113`). -/
def builtAttrs (D : Defaults V) (k : PartKind) (l : List V) : List (Option V) :=
  let a0 := if k.assignsFirst then setAttrs (k.names.map (fun _ => none)) (D.vals k) else k.names.map (fun _ => none)
  match k with
  | .phaseMod => a0
  | .plain _ => a0
  | _ => setAttrs a0 l

/-- A constructor: defaults and `NodeType.__init__`, then attributes, filter and noise object where the class has them.  (The noise object
that the laser makes while it assigns its defaults is thrown away.) Part of the model of `lib/base_classes.py:15-97`. -/
def Bench.make (D : Defaults V) (w : Bench V) (k : PartKind) (g : Given V) : Bench V × Except Err Nat :=
  match w.initParams D k g with
  | (w1, .error e) => (w1, .error e)
  | (w1, .ok r) =>
    match readAttrs (builtAttrs D k (w1.deref r)) k.filterReads with
    | .error e => (w1, .error e)
    | .ok fs =>
      let q : BenchPart V := ⟨k, r, w.lists.length, builtAttrs D k (w1.deref r), none, fs, none⟩
      if k.noisy then
        match w1.renew q with
        | .error e => (w1, .error e)
        | .ok (w2, q2) => ({ w2 with parts := w2.parts ++ [q2] }, .ok w2.parts.length)
      else ({ w1 with parts := w1.parts ++ [q] }, .ok w1.parts.length)

/-- `d[key] = v` on a dictionary. Part of the model of `lib/base_classes.py:15-97`. -/
def dictPut (l : List (String × V)) (key : String) (v : V) : List (String × V) :=
  if l.any (fun e => e.1 = key) then l.map (fun e => if e.1 = key then (key, v) else e) else l ++ [(key, v)]

/-- `PhaseModulator(phase_noise_points=…, …)` (`single_path.py:130-137`): the linewidth fitted to the points is written into the list or
dictionary that was passed, and dropped when there is none. -/
def Bench.makePoints (D : Defaults V) (w : Bench V) (g : Given V) (fwhm : V) : Bench V × Except Err Nat :=
  match g with
  | .nothing => w.make D .phaseMod .nothing
  | .list r =>
    match w.poke r 3 fwhm with
    | (w1, .error e) => (w1, .error e)
    | (w1, .ok ()) => w1.make D .phaseMod (.list r)
  | .names l => w.make D .phaseMod (.names (dictPut l "FWHM_linewidth" fwhm))

/-- What one `propagate` works with: the parameters it reads, in the order of `PartKind.reads`, and the filter.
Part of the model of `lib/base_classes.py:15-97`. -/
structure Uses (V : Type) where
  signal : List V
  filter : List V
deriving DecidableEq, Repr

/-- `propagate`.  Classes that refresh their attributes change the object. Part of the model of `lib/base_classes.py:15-97`. -/
def Bench.propagate (w : Bench V) (p : Nat) : Bench V × Except Err (Uses V) :=
  match w.parts[p]? with
  | none => (w, .error .nameError)
  | some q =>
    let l := w.deref q.list
    let q1 : BenchPart V := if q.kind.mode = .refreshed then { q with attrs := setAttrs q.attrs l } else q
    let res := if q.kind.mode = .list then readList l q.kind.reads else readAttrs q1.attrs q.kind.reads
    match res with
    | .error e => ({ w with parts := w.parts.set p q1 }, .error e)
    | .ok vs => ({ w with parts := w.parts.set p { q1 with last := some vs } }, .ok ⟨vs, q.filt⟩)

/-- What the noise that is added after `propagate` works with: the values its object was made from; in the amplifier, those of the last
`propagate` (`single_path.py:470-491`), without which the product of `None` raises. -/
def Bench.noiseUses (w : Bench V) (p : Nat) : Except Err (List V) :=
  match w.parts[p]? with
  | none => .error .nameError
  | some q =>
    match q.noise with
    | none => .error .attributeError
    | some (_, vs) =>
      match q.kind with
      | .amplifier => match q.last with | none => .error .typeError | some us => .ok us
      | _ => .ok vs

/-- `copy.deepcopy(part)`: new list objects; one list that is both `_parameters` and `default_parameters` stays one; the noise object is
copied. Part of the model of `lib/base_classes.py:15-97`. -/
def Bench.clone (w : Bench V) (p : Nat) : Bench V × Except Err Nat :=
  match w.parts[p]? with
  | none => (w, .error .nameError)
  | some q =>
    let r := w.lists.length
    let ls := w.lists ++ [w.deref q.list]
    let n' := q.noise.map (fun nv => (w.serial, nv.2))
    if q.dflt = q.list then
      ({ lists := ls, parts := w.parts ++ [{ q with list := r, dflt := r, noise := n' }], serial := w.serial + 1 }, .ok w.parts.length)
    else
      ({ lists := ls ++ [w.deref q.dflt], parts := w.parts ++ [{ q with list := r, dflt := r + 1, noise := n' }],
         serial := w.serial + 1 }, .ok w.parts.length)

/-- What can happen. Part of the model of `lib/base_classes.py:15-97`. -/
inductive BenchOp (V : Type) where
  /-- the user makes a list -/
  | alloc (vs : List V)
  | make (k : PartKind) (g : Given V)
  | makePoints (g : Given V) (fwhm : V)
  | assign (p : Nat) (r : Nat)
  | write (p i : Nat) (v : V)
  | byName (p : Nat) (name : String) (v : V)
  /-- the user writes to a list they hold -/
  | poke (r : Nat) (i : Nat) (v : V)
  | propagate (p : Nat)
  | clone (p : Nat)
deriving DecidableEq, Repr

/-- One event; an exception leaves what was done before it. Part of the model of `lib/base_classes.py:15-97`. -/
def Bench.step (D : Defaults V) (w : Bench V) : BenchOp V → Bench V
  | .alloc vs => { w with lists := w.lists ++ [vs] }
  | .make k g => (w.make D k g).1
  | .makePoints g x => (w.makePoints D g x).1
  | .assign p r => (w.assign p r).1
  | .write p i v => (w.write p i v).1
  | .byName p name v => (w.byName p name v).1
  | .poke r i v => (w.poke r i v).1
  | .propagate p => (w.propagate p).1
  | .clone p => (w.clone p).1

/-- A history. Part of the model of `lib/base_classes.py:15-97`. -/
def Bench.run (D : Defaults V) (w : Bench V) (ops : List (BenchOp V)) : Bench V := ops.foldl (Bench.step D) w

end

end Verif
