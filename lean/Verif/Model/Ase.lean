import Verif.Model.Noise
/-!
# Noise of the amplifier (`simulator/fiber/node_types_subclasses/single_path.py:395-517`)

An amplifier remembers gain and noise factor of its last `propagate`; its noise model (`noise_param=self`, line 445) asks for them with
`get_ASE_filter` when it adds noise to what `propagate` returned (`lib/graph.py:315-323`).
-/

namespace Verif
open Complex

variable {n : Nat}

/-- `scipy.constants.Planck`.
Part of the model of `simulator/fiber/node_types_subclasses/single_path.py:395-517`, `lib/graph.py:315-323`. -/
noncomputable def planck : ℝ := 662607015 / 10 ^ 42

/-- `_last_gain` and `_last_noise_factor` (lines 448-449), `None` at first. -/
structure AmpMemory (n : Nat) where
  lastGain : Option (Fin n → ℝ)
  lastFactor : Option ℝ

/-- After the constructor (lines 448-449). -/
def AmpMemory.fresh : AmpMemory n := ⟨none, none⟩

/-- `_noise_factor` (lines 506-517). -/
noncomputable def Edfa.noiseFactor (E : Edfa) : ℝ := (10 : ℝ) ^ (E.noiseFigDb / 10)

/-- `propagate` (lines 454-468) with what it remembers. -/
noncomputable def Edfa.amplify (E : Edfa) (P : Prop_ n) (x : Signal n) (_m : AmpMemory n) : AmpMemory n × Signal n :=
  (⟨some (E.gain P x), some E.noiseFactor⟩, E.propagate P x)

/-- `expected_power_dist` (lines 486-488). -/
noncomputable def asePower (P : Prop_ n) (F : ℝ) (G : Fin n → ℝ) (k : Fin n) : ℝ :=
  planck * (ifftShift P.f k + P.central) / 2 * (F * G k) * P.df

open Classical in
/-- `get_ASE_filter` (lines 470-490).  `None * None` raises.  Where the power is negative `np.sqrt` warns and returns `nan`: here an error.
The remembered gain has as many samples as the propagator (otherwise numpy raises). -/
noncomputable def aseFilter (P : Prop_ n) (m : AmpMemory n) : Except Err (Fin n → ℝ) :=
  match m.lastFactor, m.lastGain with
  | some F, some G =>
    if ∃ k, asePower P F G k < 0 then .error .runtimeWarning
    else .ok (fun k => Real.sqrt (asePower P F G k))
  | _, _ => .error .typeError

/-- Calls on one amplifier, whose parameters may have changed in between.
Part of the model of `simulator/fiber/node_types_subclasses/single_path.py:395-517`, `lib/graph.py:315-323`. -/
inductive AmpCall (n : Nat)
  | propagate (E : Edfa) (P : Prop_ n) (x : Signal n)
  | filter (P : Prop_ n)

/-- The memory after some calls (`get_ASE_filter` leaves it as it is).
`simulator/fiber/node_types_subclasses/single_path.py:470-490`. -/
noncomputable def AmpMemory.after (m : AmpMemory n) : List (AmpCall n) → AmpMemory n
  | [] => m
  | .propagate E P x :: cs => (E.amplify P x m).1.after cs
  | .filter _ :: cs => m.after cs

/-- An amplifier with noise: `propagate`, then `add_noise_to_propagation` (`lib/graph.py:319-323`, `additive_noise.py:141-144`); `g`, `r` are the numbers drawn. -/
noncomputable def Edfa.noisy (E : Edfa) (P : Prop_ n) (g : Signal n) (r : Fin n → ℝ) (x : Signal n) (m : AmpMemory n) : Except Err (Signal n) :=
  let (m', y) := E.amplify P x m
  match aseFilter P m' with
  | .error e => .error e
  | .ok F =>
    match sampleNoise P none (.edfaAse F) g r with
    | .error e => .error e
    | .ok s => mixNoise P [s] y

end Verif
