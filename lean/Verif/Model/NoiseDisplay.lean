import Verif.Model.Caches
import Verif.Model.Propagate
import Verif.Model.Signal
import Mathlib.Analysis.SpecialFunctions.Log.Base
/-!
# Model of the displays of noise (`simulator/fiber/assets/additive_noise.py:311-373`, `lib/graph.py:263-283`)

A figure is the data of its curves: powers over `propagator.t`, decibels over `propagator.f`.  Not modelled: line styles, labels and titles.
-/

namespace Verif

/-- A plotted number; dividing by zero and `log10(0)` do not raise in numpy. -/
inductive Plotted where
  | num (r : ℝ)
  | negInf | posInf | nan

/-- `10 * np.log10(p / m)` for `p` and `m` that are not negative. -/
noncomputable def decibelOf (p m : ℝ) : Plotted :=
  if m = 0 then (if p = 0 then .nan else .posInf)
  else if p = 0 then .negInf
  else .num (10 * Real.logb 10 (p / m))

/-- `np.max(v)`: `ValueError` for no samples.
Part of the model of `simulator/fiber/assets/additive_noise.py:311-373`, `lib/graph.py:263-283`. -/
noncomputable def npMax {n : Nat} (v : Fin n → ℝ) : Except Err ℝ :=
  if h : 0 < n then .ok (Finset.univ.sup' ⟨⟨0, h⟩, Finset.mem_univ _⟩ v) else .error .valueError

/-- The two curves of one state. Part of the model of `simulator/fiber/assets/additive_noise.py:311-373`, `lib/graph.py:263-283`. -/
structure NoiseCurve (n : Nat) where
  time : Fin n → ℝ
  level : Fin n → Plotted

/-- `display_noise_contributions` (`lib/graph.py:263-283`): three readings of the output (the third, `get_output_noise`, propagates twice), all spectra in decibels
relative to the largest value of the noisy one. -/
noncomputable def displayContributions {n : Nat} (P : Prop_ n) (g : Graph) (B : Bool → Behav (Signal n)) (inp : Signal n) (node : Option Key) (w : World (Signal n)) :
    World (Signal n) × Except Err (List (NoiseCurve n)) :=
  match getOutput true g B inp node w with
  | (w1, .error e) => (w1, .error e)
  | (w1, .ok noisy) =>
    match getOutput false g B inp node w1 with
    | (w2, .error e) => (w2, .error e)
    | (w2, .ok noiseless) =>
      match getNoise g B inp node w2 with
      | (w3, .error e) => (w3, .error e)
      | (w3, .ok noise) =>
        match npMax (psd_ noisy P.dt P.df) with
        | .error e => (w3, .error e)
        | .ok m => (w3, .ok ([noisy, noiseless, noise].map (fun s => ⟨power_ s, fun i => decibelOf (psd_ s P.dt P.df i) m⟩)))

/-- The curves of `display_noisy_signal` and `display_noise` (`additive_noise.py:321-323`, 340-342): the power over time goes through `ifft_shift_`, the spectrum is in
decibels relative to its own largest value. -/
noncomputable def ownCurve {n : Nat} (P : Prop_ n) (s : Signal n) : Except Err (NoiseCurve n) :=
  match npMax (psd_ s P.dt P.df) with
  | .error e => .error e
  | .ok m => .ok ⟨ifftShift (power_ s), fun i => decibelOf (psd_ s P.dt P.df i) m⟩

section
variable {n : Nat} {Q R : Type}

/-- `display_noisy_signal` (`additive_noise.py:311-328`); `grid p` is the propagator with identity `p`. -/
noncomputable def displayNoisy (N : NoiseRules Q (Signal n) R (Signal n)) (grid : PropId → Prop_ n) (w : NoiseWorld Q (Signal n) R) (x : Signal n) (p : PropId) :
    NoiseWorld Q (Signal n) R × Except Err (NoiseCurve n) :=
  match addNoise N w x p with
  | (w1, .error e) => (w1, .error e)
  | (w1, .ok y) => (w1, ownCurve (grid p) y)

/-- `display_noise` (`additive_noise.py:330-347`). -/
noncomputable def displayNoise (N : NoiseRules Q (Signal n) R (Signal n)) (grid : PropId → Prop_ n) (w : NoiseWorld Q (Signal n) R) (x : Signal n) (p : PropId) :
    NoiseWorld Q (Signal n) R × Except Err (NoiseCurve n) :=
  match addNoise N w x p with
  | (w1, .error e) => (w1, .error e)
  | (w1, .ok y) => (w1, ownCurve (grid p) (y - x))

/-- `noise['noise_vector']` of all sources; `psd_(None, …)` is a `TypeError`.
Part of the model of `simulator/fiber/assets/additive_noise.py:311-373`, `lib/graph.py:263-283`. -/
def allVecs : List (NoiseSrc Q (Signal n)) → Except Err (List (Signal n))
  | [] => .ok []
  | s :: ss =>
    match s.vec with
    | none => .error .typeError
    | some v =>
      match allVecs ss with
      | .error e => .error e
      | .ok vs => .ok (v :: vs)

/-- The largest value of the spectra of several vectors (`max([…])`, line 362; `ValueError` for no sources). -/
noncomputable def maxOfMax (P : Prop_ n) : List (Signal n) → Except Err ℝ
  | [] => .error .valueError
  | v :: vs =>
    match npMax (psd_ v P.dt P.df) with
    | .error e => .error e
    | .ok m =>
      match vs with
      | [] => .ok m
      | _ :: _ =>
        match maxOfMax P vs with
        | .error e => .error e
        | .ok m' => .ok (max m m')

/-- `display_noise_sources_absolute` (`additive_noise.py:349-373`): the vectors as they were drawn; only an object without a propagator takes the given one (and draws).
All propagators have `n` samples here; with another number of samples the plot would raise. -/
noncomputable def displaySources (N : NoiseRules Q (Signal n) R (Signal n)) (grid : PropId → Prop_ n) (w : NoiseWorld Q (Signal n) R) (p : PropId) :
    NoiseWorld Q (Signal n) R × Except Err (List (NoiseCurve n)) :=
  let w1 := if w.obj.prop = none then setPropagator N w p else w
  match allVecs w1.obj.srcs with
  | .error e => (w1, .error e)
  | .ok vs =>
    match maxOfMax (grid p) vs with
    | .error e => (w1, .error e)
    | .ok m => (w1, .ok (vs.map (fun v => ⟨power_ v, fun i => decibelOf (psd_ v (grid p).dt (grid p).df i) m⟩)))

end

end Verif
