import Verif.Model.Switches
/-!
# What decides about noise: the history, last event first
-/

namespace Verif

/-- The last assignment to `AdditiveNoise.simulate_with_noise`; true if there was none. -/
def lastSimulate : List SwEvent → Bool
  | [] => true
  | .setClass .simulate b :: _ => b
  | _ :: h => lastSimulate h

/-- The number of components that were made. -/
def madeParts : List SwEvent → Nat
  | [] => 0
  | .make _ :: h => madeParts h + 1
  | .copy q :: h => if q < madeParts h then madeParts h + 1 else madeParts h
  | _ :: h => madeParts h

/-- Kind and own switch of component `p` (no switch: a kind without noise): what was last said about this component, but an assignment of parameters puts the switch back for
lasers, phase modulators and photodiodes. -/
def ownSwitch : List SwEvent → Nat → Option (PartKind × Option Bool)
  | [], _ => none
  | .make k :: h, p => if p = madeParts h then some (k, k.freshOn) else ownSwitch h p
  | .copy q :: h, p => if p = madeParts h then ownSwitch h q else ownSwitch h p
  | .assign q :: h, p => (ownSwitch h p).map (fun (k, b) => (k, if q = p ∧ k.renews then k.freshOn else b))
  | .setObj q .noiseOn c :: h, p => (ownSwitch h p).map (fun (k, b) => (k, if q = p then b.map (fun _ => c) else b))
  | .turn q c :: h, p => (ownSwitch h p).map (fun (k, b) => (k, if q = p ∧ k = .noisySignal then b.map (fun _ => c) else b))
  | .setObj _ .simulate _ :: h, p => ownSwitch h p
  | .setClass _ _ :: h, p => ownSwitch h p

/-- The assignments that look like switches and are none. -/
def SwEvent.idle : SwEvent → Bool
  | .setClass .noiseOn _ => true
  | .setObj _ .simulate _ => true
  | _ => false

end Verif
