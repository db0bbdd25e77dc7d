import Verif.Model.Settings
/-!
# Model of the switches of noise (`simulator/fiber/assets/additive_noise.py:30,62,116,167`, `inputs.py:150-158`, `lib/base_classes.py:41-48`)

Python looks an attribute up on the object first and on the class then; an assignment to `AdditiveNoise.x` changes the class, one to `noise_model.x` the object.  What is
modelled is which components have which noise objects, and the values of the two switches on objects and class.  The settings of the noise are modelled in
`Model/Settings`, its samples in `Model/Caches`.
-/

namespace Verif

/-- The two switches. Part of the model of `simulator/fiber/assets/additive_noise.py:30,62,116,167`, `inputs.py:150-158`. -/
inductive SwAttr where
  | noiseOn | simulate
deriving DecidableEq, Repr

/-- The attributes an object or a class has itself.
Part of the model of `simulator/fiber/assets/additive_noise.py:30,62,116,167`, `inputs.py:150-158`. -/
abbrev SwDict := SwAttr → Option Bool

/-- Assignment of an attribute.
Part of the model of `simulator/fiber/assets/additive_noise.py:30,62,116,167`, `inputs.py:150-158`. -/
def SwDict.put (d : SwDict) (a : SwAttr) (b : Bool) : SwDict := fun x => if x = a then some b else d x

/-- The class `AdditiveNoise`, all its objects, and the components: kind and `noise_model`.
`simulator/fiber/assets/additive_noise.py:23-373`. -/
structure SwWorld where
  cls : SwDict
  objs : List SwDict
  parts : List (PartKind × Option Nat)

/-- After the import: the class has `simulate_with_noise = True` (line 30) and no `noise_on`. -/
def SwWorld.start : SwWorld := ⟨fun a => if a = .simulate then some true else none, [], []⟩

/-- `self.noise_on` of the noise object a component of this kind gets when it is made: `True` by default (line 34), `False` for a phase modulator (`single_path.py:190`); the
other single-path components and the splitters have no noise object (`lib/base_classes.py:34`). -/
def PartKind.freshOn : PartKind → Option Bool
  | .pulsed | .cw | .noisySignal | .amplifier | .photodiode => some true
  | .phaseMod => some false
  | .plain _ => none

/-- Whether the class has an `update_noise_model` of its own (`inputs.py:115-117`, `single_path.py:189-190`, `outputs.py:136-150`). -/
def PartKind.renews : PartKind → Bool
  | .cw | .phaseMod | .photodiode => true
  | _ => false

/-- The constructor of a component makes a noise object (line 62 sets its switch). -/
def SwWorld.make (w : SwWorld) (k : PartKind) : SwWorld :=
  match k.freshOn with
  | none => { w with parts := w.parts ++ [(k, none)] }
  | some b => { w with objs := w.objs ++ [SwDict.put (fun _ => none) .noiseOn b], parts := w.parts ++ [(k, some w.objs.length)] }

/-- `component.parameters = …` (`lib/base_classes.py:41-48`): `update_noise_model` puts a new noise object in the place of the old one. -/
def SwWorld.assign (w : SwWorld) (p : Nat) : SwWorld × Except Err Unit :=
  match w.parts[p]? with
  | none => (w, .error .nameError)
  | some (k, o) =>
    if k.renews then
      match k.freshOn with
      | none => (w, .ok ())
      | some b => (⟨w.cls, w.objs ++ [SwDict.put (fun _ => none) .noiseOn b], w.parts.set p (k, some w.objs.length)⟩, .ok ())
    else ({ w with parts := w.parts.set p (k, o) }, .ok ())

/-- `component.noise_model.a = b`: `AttributeError` without a noise object (`None.a = b`).
Part of the model of `simulator/fiber/assets/additive_noise.py:30,62,116,167`, `inputs.py:150-158`. -/
def SwWorld.setObj (w : SwWorld) (p : Nat) (a : SwAttr) (b : Bool) : SwWorld × Except Err Unit :=
  match w.parts[p]? with
  | none => (w, .error .nameError)
  | some (_, none) => (w, .error .attributeError)
  | some (_, some i) => ({ w with objs := w.objs.modify i (fun d => d.put a b) }, .ok ())

/-- `enable_noise`, `disable_noise` (`inputs.py:150-158`); other classes have no such method. -/
def SwWorld.turn (w : SwWorld) (p : Nat) (b : Bool) : SwWorld × Except Err Unit :=
  match w.parts[p]? with
  | none => (w, .error .nameError)
  | some (k, _) =>
    if k = .noisySignal then
      match w.setObj p .noiseOn b with
      | (w1, .error e) => (w1, .error e)
      | (w1, .ok ()) => w1.setObj p .simulate b
    else (w, .error .attributeError)

/-- `copy.deepcopy(component)`: the copy has a copy of the noise object.
Part of the model of `simulator/fiber/assets/additive_noise.py:30,62,116,167`, `inputs.py:150-158`. -/
def SwWorld.copy (w : SwWorld) (p : Nat) : SwWorld × Except Err Unit :=
  match w.parts[p]? with
  | none => (w, .error .nameError)
  | some (k, none) => ({ w with parts := w.parts ++ [(k, none)] }, .ok ())
  | some (k, some i) => ({ w with objs := w.objs ++ (w.objs[i]?).toList, parts := w.parts ++ [(k, some w.objs.length)] }, .ok ())

/-- What a user does; components are named by the order in which they were made.
Part of the model of `simulator/fiber/assets/additive_noise.py:30,62,116,167`, `inputs.py:150-158`. -/
inductive SwEvent where
  | make (k : PartKind)
  | assign (p : Nat)
  | setClass (a : SwAttr) (b : Bool)
  | setObj (p : Nat) (a : SwAttr) (b : Bool)
  | turn (p : Nat) (b : Bool)
  | copy (p : Nat)

/-- One event; what raises changes nothing here.
Part of the model of `simulator/fiber/assets/additive_noise.py:30,62,116,167`, `inputs.py:150-158`. -/
def SwWorld.step (w : SwWorld) : SwEvent → SwWorld
  | .make k => w.make k
  | .assign p => (w.assign p).1
  | .setClass a b => { w with cls := w.cls.put a b }
  | .setObj p a b => (w.setObj p a b).1
  | .turn p b => (w.turn p b).1
  | .copy p => (w.copy p).1

/-- A history, oldest event first.
Part of the model of `simulator/fiber/assets/additive_noise.py:30,62,116,167`, `inputs.py:150-158`. -/
def SwWorld.run (w : SwWorld) (es : List SwEvent) : SwWorld := es.foldl SwWorld.step w

/-- `object.a`: on the object, then on the class.
Part of the model of `simulator/fiber/assets/additive_noise.py:30,62,116,167`, `inputs.py:150-158`. -/
def SwWorld.getObj (w : SwWorld) (d : SwDict) (a : SwAttr) : Except Err Bool :=
  match d a with
  | some b => .ok b
  | none =>
    match w.cls a with
    | some b => .ok b
    | none => .error .attributeError

/-- `AdditiveNoise.a`. Part of the model of `simulator/fiber/assets/additive_noise.py:30,62,116,167`, `inputs.py:150-158`. -/
def SwWorld.getClass (w : SwWorld) (a : SwAttr) : Except Err Bool :=
  match w.cls a with
  | some b => .ok b
  | none => .error .attributeError

/-- Whether `add_noise_to_propagation` of a component's noise object gets past line 116 (`if not self.noise_on or not AdditiveNoise.simulate_with_noise: return signal`);
without a noise object it is not called (`lib/graph.py:322`). -/
def SwWorld.addsNoise (w : SwWorld) (p : Nat) : Except Err Bool :=
  match w.parts[p]? with
  | none => .error .nameError
  | some (_, none) => .ok false
  | some (_, some i) =>
    match w.objs[i]? with
    | none => .error .nameError
    | some d =>
      match w.getObj d .noiseOn with
      | .error e => .error e
      | .ok false => .ok false
      | .ok true => w.getClass .simulate

/-- Whether the phase of a modulator gets noise: `get_phase_noise` (line 167) asks the class only. -/
def SwWorld.addsPhase (w : SwWorld) (p : Nat) : Except Err Bool :=
  match w.parts[p]? with
  | none => .error .nameError
  | some (k, _) => if k = .phaseMod then w.getClass .simulate else .ok false

end Verif
