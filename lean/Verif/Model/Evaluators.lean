import Verif.Model.Noise
/-!
# The evaluators (`simulator/fiber/evaluator_subclasses/`)

Score functions of all evaluators, as functions of the state that `graph.measure_propagator(evaluation_node)` returns.  All scores are minimised by the optimisers
(`algorithms/parameter_optimization.py`).  Floats are reals; where numpy divides by zero and returns `inf`/`nan` the model raises `zeroDivision`.
-/

namespace Verif
open Complex

variable {n : Nat}

/-! ### Similarity functions (the same text in most evaluators) -/

/-- `similarity_cosine` (`evaluator_notgate.py:43-45` and others). -/
noncomputable def simCosine (x y : Fin n → ℝ) : Except Err ℝ :=
  let d := (∑ i, Real.sqrt (x i ^ 2)) * (∑ i, Real.sqrt (y i ^ 2))
  if d = 0 then .error .zeroDivision else .ok ((∑ i, x i * y i) / d)

/-- `similarity_l1_norm` (`evaluator_pulserep.py:50-52` and others). -/
noncomputable def simL1 (x y : Fin n → ℝ) : ℝ := ∑ i, |x i - y i|

/-- `similarity_l2_norm` (`evaluator_pulserep.py:54-57` and others). -/
noncomputable def simL2 (x y : Fin n → ℝ) : ℝ := ∑ i, (x i - y i) ^ 2

/-- `similarity_l2_norm` of the waveform evaluator (`evaluator_rfawg.py:70-72`): the mean. -/
noncomputable def simL2mean (x y : Fin n → ℝ) : ℝ := npMean (fun i => (x i - y i) ^ 2)

/-- `similarity_mask` (`evaluator_filter_design.py:45-46`), with its operator precedence: `… * 1-y_` is `(… * 1) - y_`. -/
noncomputable def simMask (duty : ℝ) (x y : Fin n → ℝ) : ℝ :=
  (∑ i, (x i - y i) ^ 2 * y i) + duty * ∑ i, ((x i - y i) ^ 2 * 1 - y i)

/-- `percent_of_total_power` (`evaluator_filter_design.py:51-52`). -/
noncomputable def percentTotal (x y : Fin n → ℝ) : Except Err ℝ :=
  if (∑ i, x i) = 0 then .error .zeroDivision else .ok (-(∑ i, x i * y i) / ∑ i, x i)

/-! ### Scores -/

/-- `FilterDesign.evaluate_graph` (`evaluator_filter_design.py:24-39`) on the measured state. -/
noncomputable def filterDesignScore (P : Prop_ n) (target : Fin n → ℝ) (state : Signal n) : Except Err ℝ :=
  percentTotal (fun i => ‖fftShift (fft_ state P.dt) i‖) target

/-- `NoiseSuppression.evaluate_graph` (`evaluator_noise_suppression.py:43-50`). -/
noncomputable def noiseSuppressionScore (trueSignal state : Signal n) : ℝ := simL2 (power_ state) (power_ trueSignal)

/-- `OpticalNotGate.evaluate_graph` (`evaluator_notgate.py:33-41`, 55-62). -/
noncomputable def notGateScore (target state : Signal n) : Except Err ℝ := simCosine (power_ state) (power_ target)

/-- `np.max` and `np.min` of `x[a:b]`; an empty slice raises `ValueError`.
`simulator/fiber/evaluator_subclasses/evaluator_discrete_time_lens.py:23-50`. -/
noncomputable def sliceIdx (n a b : Nat) : Finset (Fin n) := Finset.univ.filter (fun i => a ≤ i.val ∧ i.val < b)

/-- `DiscreteTimeLens.evaluate_graph` (`evaluator_discrete_time_lens.py:23-50`): `osc` is `target_psd_osc`, `input` the state on the edge `(0, 1, 0)`. -/
noncomputable def timeLensScore (P : Prop_ n) (osc : Fin n → ℝ) (input state : Signal n) : Except Err ℝ :=
  let target : Fin n → ℝ := fun i => osc i * ‖fftShift (fft_ input P.dt) i‖
  let resp : Fin n → ℝ := fun i => ‖fftShift (fft_ state P.dt) i‖
  let sl := sliceIdx n (n / 4) (3 * n / 4)
  if h0 : (Finset.univ : Finset (Fin n)).Nonempty then
    let top := Finset.univ.sup' h0 target
    if top = 0 then .error .zeroDivision
    else if h1 : sl.Nonempty then
      let r : Fin n → ℝ := fun i => resp i / top
      let mx := sl.sup' h1 r
      let mn := sl.inf' h1 r
      if mx + mn = 0 then .error .zeroDivision
      else if (mx - mn) / (mx + mn) = 0 then .error .zeroDivision
      else .ok (simL2 r (fun i => target i / top) / ((mx - mn) / (mx + mn)))
    else .error .valueError
  else .error .valueError

/-! ### Waveform alignment -/

/-- `target_harmonic_ind` (`evaluator_pulserep.py:34-36`, `evaluator_rfawg.py:49-51`); `astype('int')` truncates, which is the floor for positive frequencies. -/
noncomputable def harmonicInd (P : Prop_ n) (freq : ℝ) : ℕ :=
  let k := ⌊freq / P.df⌋₊ + 1
  if n ≤ k then n else k

/-- `scale_array` of `PulseRepetition` (`evaluator_pulserep.py:30-32`). -/
noncomputable def pulseScale (n : Nat) : Fin n → ℝ := fun k => fftShift (fun j : Fin n => (j.val : ℝ)) k / n

/-- `PulseRepetition.shift_function` (`evaluator_pulserep.py:65-86`): `tp` is `target_power`.  The first branch returns the state as it is. -/
noncomputable def pulseShift (P : Prop_ n) (tp : Fin n → ℝ) (repF : ℝ) (state : Signal n) : Except Err (Signal n) :=
  if h : harmonicInd P repF < n then
    let m : Fin n := ⟨harmonicInd P repF, h⟩
    let X := npFft state
    let T := npFft (fun i => ((tp i : ℝ) : ℂ))
    if X m = 0 then .ok state
    else if T m = 0 then .error .zeroDivision
    else
      let phase := (X m / T m).arg
      let shift := phase / (repF * P.dt)
      .ok (fun i => ((‖npIfft (fun k => X k * exp (-I * ((shift * pulseScale n k : ℝ) : ℂ))) i‖ : ℝ) : ℂ))
  else .error .indexError

/-- `PulseRepetition.evaluate_graph` (`evaluator_pulserep.py:39-63`); `np.sum(np.power(…, 2))` of complex numbers is complex. -/
noncomputable def pulseScore (P : Prop_ n) (tp : Fin n → ℝ) (repF : ℝ) (state : Signal n) : Except Err ℂ :=
  match pulseShift P tp repF state with
  | .error e => .error e
  | .ok y => .ok (∑ i, (y i - (tp i : ℂ)) ^ 2)

/-- `RadioFrequencyWaveformGeneration.shift_function` (`evaluator_rfawg.py:82-97`). -/
noncomputable def rfShift (P : Prop_ n) (target : Fin n → ℝ) (harmonic : ℝ) (state : Signal n) : Except Err (Fin n → ℝ) :=
  if h : harmonicInd P harmonic < n then
    let m : Fin n := ⟨harmonicInd P harmonic, h⟩
    let X := fft_ state P.dt
    let T := fft_ (fun i => ((target i : ℝ) : ℂ)) P.dt
    if T m = 0 then .error .zeroDivision
    else
      let phase := (X m / T m).arg
      .ok (fun i => ‖ifft_ (fun k => exp (I * ((phase * (ifftShift P.f k / harmonic) : ℝ) : ℂ)) * fft_ state P.dt k) P.dt i‖)
  else .error .indexError

/-- `RadioFrequencyWaveformGeneration.evaluate_graph` (`evaluator_rfawg.py:55-60`, 74-80). -/
noncomputable def rfScore (P : Prop_ n) (target : Fin n → ℝ) (amplitude harmonic : ℝ) (state : Signal n) : Except Err ℝ :=
  match rfShift P target harmonic state with
  | .error e => .error e
  | .ok y => if amplitude ^ 2 = 0 then .error .zeroDivision else .ok (simL2mean y target / amplitude ^ 2)

end Verif
