import Verif.Lemmas.Components
/-!
# Properties of the single-path components (C55 - C58)
-/

namespace Verif
open Complex Finset

variable {n : Nat}

theorem fiber_eq (P : Prop_ n) (len : ℝ) (x : Signal n) :
    fiber P len false x = .ok (freqMul (ifftShift (fun j => exp (I * ((len * beta2 * (2 * Real.pi * P.f j) ^ 2 : ℝ) : ℂ)))) P.dt x) := by
  unfold fiber
  rw [if_neg (by simp)]
  simp only [zero_mul, zero_div, dbScale_zero]

/-- **C55.** A fibre of any length keeps the energy of every signal.  Fibre lengths add up, in either order, and a fibre of length zero
does nothing.  With `save_transforms` it always raises `NameError`. -/
theorem C55_fiber (hn : 2 ≤ n) {P : Prop_ n} (hw : 0 < P.window) (a b : ℝ) (x : Signal n) :
    (∃ y, fiber P a false x = .ok y ∧ energy y = energy x ∧ fiber P b false y = fiber P (a + b) false x) ∧
    fiber P 0 false x = .ok x ∧ fiber P a true x = .error .nameError := by
  have hd := dt_ne_zero hn hw
  refine ⟨⟨_, fiber_eq P a x, ?_, ?_⟩, ?_, rfl⟩
  · have := energy_freqMul_eq hd (c := 1)
      (H := ifftShift (fun j => exp (I * ((a * beta2 * (2 * Real.pi * P.f j) ^ 2 : ℝ) : ℂ)))) (fun k => norm_expI _) x
    rw [this]; ring
  · rw [fiber_eq, fiber_eq, freqMul_comp _ _ hd]
    congr 2
    funext k
    simp only [ifftShift]
    rw [← expI_add]; congr 3; ring
  · rw [fiber_eq]
    congr 1
    have : (ifftShift (fun j => exp (I * ((0 * beta2 * (2 * Real.pi * P.f j) ^ 2 : ℝ) : ℂ)))) = fun _ => (1 : ℂ) := by
      funext k; simp [ifftShift]
    rw [this, freqMul_const _ hd]; funext i; ring

theorem delayLine_eq (P : Prop_ n) (d : ℝ) (x : Signal n) :
    delayLine P d x = freqMul (fun k => exp (I * ((ifftShift (delayPhase P d) k : ℝ) : ℂ))) P.dt x := by
  unfold delayLine; rw [dbScale_zero]

theorem delayPhase_eq (P : Prop_ n) (d : ℝ) (j : Fin n) : delayPhase P d j = 2 * Real.pi * (P.f j + P.central) * d := by
  unfold delayPhase refIndex lightSpeed; field_simp

/-- **C55.** A delay line keeps the energy of every signal; delays add up, in either order, and no delay does nothing.  The integrated
delay line is the same with the delay in picoseconds. -/
theorem C55_delay_line (hn : 2 ≤ n) {P : Prop_ n} (hw : 0 < P.window) (a b : ℝ) (x : Signal n) :
    energy (delayLine P a x) = energy x ∧ delayLine P b (delayLine P a x) = delayLine P (a + b) x ∧
    delayLine P 0 x = x ∧
    energy (intDelayLine P a x) = energy x ∧ intDelayLine P b (intDelayLine P a x) = intDelayLine P (a + b) x ∧
    intDelayLine P (a * 10 ^ 12) x = delayLine P a x := by
  have hd := dt_ne_zero hn hw
  have e : ∀ a, energy (delayLine P a x) = energy x := fun a => by
    rw [delayLine_eq, energy_freqMul_eq hd (c := 1) (fun k => norm_expI _)]; ring
  have c : ∀ a b, delayLine P b (delayLine P a x) = delayLine P (a + b) x := fun a b => by
    simp only [delayLine_eq, freqMul_comp _ _ hd]
    congr 1
    funext k
    rw [← expI_add]
    simp only [ifftShift, delayPhase_eq]
    congr 3; ring
  refine ⟨e a, c a b, ?_, e _, ?_, ?_⟩
  · rw [delayLine_eq]
    have : (fun k => exp (I * ((ifftShift (delayPhase P 0) k : ℝ) : ℂ))) = fun _ => (1 : ℂ) := by
      funext k; simp [ifftShift, delayPhase_eq]
    rw [this, freqMul_const _ hd]; funext i; ring
  · unfold intDelayLine; rw [c]; congr 1; ring
  · unfold intDelayLine; congr 1; ring

/-- **C55.** A phase shifter multiplies every sample by `exp(i phase)`: power is unchanged everywhere, phases add up and are `2π`
periodic.  With `save_transforms` it always raises `NameError`. -/
theorem C55_phase_shifter (hn : 2 ≤ n) {P : Prop_ n} (hw : 0 < P.window) (a b : ℝ) (x : Signal n) :
    (∃ y, phaseShifter P a false x = .ok y ∧ (∀ i, y i = exp (I * (a : ℂ)) * x i) ∧ power_ y = power_ x ∧
      phaseShifter P b false y = phaseShifter P (a + b) false x ∧ phaseShifter P (a + 2 * Real.pi) false x = .ok y) ∧
    phaseShifter P a true x = .error .nameError := by
  have hd := dt_ne_zero hn hw
  have key : ∀ (a : ℝ) (x : Signal n), phaseShifter P a false x = .ok (fun i => exp (I * (a : ℂ)) * x i) := fun a x => by
    unfold phaseShifter; rw [if_neg (by simp), freqMul_const _ hd]
  refine ⟨⟨_, key a x, fun _ => rfl, ?_, ?_, ?_⟩, rfl⟩
  · funext i; unfold power_; rw [norm_mul, norm_expI, one_mul]
  · rw [key, key]; congr 1; funext i; rw [expI_add]; ring
  · rw [key]; congr 1; funext i; rw [expI_add]
    have : exp (I * ((2 * Real.pi : ℝ) : ℂ)) = 1 := by
      rw [show I * ((2 * Real.pi : ℝ) : ℂ) = 2 * Real.pi * I by push_cast; ring]; exact exp_two_pi_mul_I
    rw [this, mul_one]

/-- **C56.** A phase modulator with any parameters and any phase noise leaves the power at every instant unchanged, so a power meter
behind it reads the same. -/
theorem C56_phase_modulator (P : Prop_ n) (depth freq shift : ℝ) (noise : Fin n → ℝ) (x : Signal n) :
    power_ (phaseMod P depth freq shift noise x) = power_ x := by
  funext i
  unfold phaseMod
  rw [dbScale_zero]
  unfold power_; rw [norm_mul, norm_expI, mul_one]

/-- **C56.** Phase modulators on one radio-frequency line: the field's phase at each instant moves by `depth * cos(2π f t + shift + noise)`;
two modulators at one shift act like one whose depth is the sum; a modulator half a period later undoes the first; and a whole
period of shift makes no difference. -/
theorem C56_phase_law (P : Prop_ n) (d d' freq shift : ℝ) (noise : Fin n → ℝ) (x : Signal n) :
    (∀ j, phaseMod P d freq shift noise x j = exp (I * ((d * Real.cos (2 * Real.pi * freq * P.t j + shift + noise j) : ℝ) : ℂ)) * x j) ∧
    phaseMod P d' freq shift noise (phaseMod P d freq shift noise x) = phaseMod P (d + d') freq shift noise x ∧
    phaseMod P d freq (shift + Real.pi) noise (phaseMod P d freq shift noise x) = x ∧
    phaseMod P d freq (shift + 2 * Real.pi) noise x = phaseMod P d freq shift noise x := by
  have h0 : ∀ d s (y : Signal n) j, phaseMod P d freq s noise y j = exp (I * ((d * Real.cos (2 * Real.pi * freq * P.t j + s + noise j) : ℝ) : ℂ)) * y j := by
    intro d s y j
    unfold phaseMod
    rw [dbScale_zero, mul_comm]
  refine ⟨fun j => h0 d shift x j, ?_, ?_, ?_⟩
  · funext j
    rw [h0, h0, h0, ← mul_assoc, ← Complex.exp_add]
    congr 2
    push_cast
    ring
  · funext j
    rw [h0, h0, ← mul_assoc, ← Complex.exp_add]
    have : 2 * Real.pi * freq * P.t j + (shift + Real.pi) + noise j = 2 * Real.pi * freq * P.t j + shift + noise j + Real.pi := by ring
    rw [this, Real.cos_add_pi]
    have e : I * ((d * -Real.cos (2 * Real.pi * freq * P.t j + shift + noise j) : ℝ) : ℂ) +
        I * ((d * Real.cos (2 * Real.pi * freq * P.t j + shift + noise j) : ℝ) : ℂ) = 0 := by push_cast; ring
    rw [e, Complex.exp_zero, one_mul]
  · funext j
    rw [h0, h0]
    have : 2 * Real.pi * freq * P.t j + (shift + 2 * Real.pi) + noise j = 2 * Real.pi * freq * P.t j + shift + noise j + 2 * Real.pi := by ring
    rw [this, Real.cos_add_two_pi]

/-- Two modulators at half a period's distance on four samples. -/
example (x : Signal 4) : phaseMod demoProp 2 3 (1 + Real.pi) 0 (phaseMod demoProp 2 3 1 0 x) = x := (C56_phase_law demoProp 2 0 3 1 0 x).2.2.1

theorem half_exp_sq (φ : ℝ) (z : ℂ) : ‖z / 2 + z / 2 * exp (I * (φ : ℂ))‖ ^ 2 = (1 + Real.cos φ) / 2 * ‖z‖ ^ 2 := by
  have h1 : z / 2 + z / 2 * exp (I * (φ : ℂ)) = z * ((1 + exp ((φ : ℂ) * I)) / 2) := by rw [mul_comm I]; ring
  rw [h1, norm_mul, mul_pow, mul_comm]
  congr 1
  rw [← Complex.normSq_eq_norm_sq, exp_mul_I, ← ofReal_cos, ← ofReal_sin]
  have h2 : (1 + (((Real.cos φ : ℝ) : ℂ) + ((Real.sin φ : ℝ) : ℂ) * I)) / 2 =
      (((1 + Real.cos φ) / 2 : ℝ) : ℂ) + ((Real.sin φ / 2 : ℝ) : ℂ) * I := by push_cast; ring
  rw [h2, normSq_add_mul_I]
  have := Real.sin_sq_add_cos_sq φ
  nlinarith

/-- **C56.** An intensity modulator transmits at each instant the fraction `10^(-0.4) * (1 + cos φ(t)) / 2` of the power, with
`φ(t) = depth * cos(2π f t) + bias`; never more than `10^(-0.4)` of it. -/
theorem C56_intensity_modulator (P : Prop_ n) (depth freq bias : ℝ) (x : Signal n) (i : Fin n) :
    power_ (intensityMod P depth freq bias x) i =
      (10 : ℝ) ^ (-(4 : ℝ) / 10) * ((1 + Real.cos (depth * Real.cos (2 * Real.pi * freq * P.t i) + bias)) / 2) * power_ x i ∧
    0 ≤ power_ (intensityMod P depth freq bias x) i ∧
    power_ (intensityMod P depth freq bias x) i ≤ (10 : ℝ) ^ (-(4 : ℝ) / 10) * power_ x i := by
  have key : power_ (intensityMod P depth freq bias x) i =
      (10 : ℝ) ^ (-(4 : ℝ) / 10) * ((1 + Real.cos (depth * Real.cos (2 * Real.pi * freq * P.t i) + bias)) / 2) * power_ x i := by
    unfold intensityMod
    rw [power_dbScale, mul_assoc ((10 : ℝ) ^ (-(4 : ℝ) / 10))]
    congr 1
    exact half_exp_sq _ _
  refine ⟨key, by unfold power_; positivity, ?_⟩
  rw [key]
  have h1 := Real.cos_le_one (depth * Real.cos (2 * Real.pi * freq * P.t i) + bias)
  have h2 : (0 : ℝ) ≤ (10 : ℝ) ^ (-(4 : ℝ) / 10) := by positivity
  have h3 : 0 ≤ power_ x i := by unfold power_; positivity
  nlinarith [mul_nonneg h2 h3]

/-- **C57.** An attenuator multiplies the power at every instant by `10^(dB/10)`; settings add up, zero does nothing, a setting
within the bounds `[-60, 0]` never raises the power, and a smaller setting lets through less. -/
theorem C57_attenuator (a b : ℝ) (x : Signal n) :
    (∀ i, power_ (voa a x) i = (10 : ℝ) ^ (a / 10) * power_ x i) ∧ voa b (voa a x) = voa (a + b) x ∧ voa 0 x = x ∧
    (-60 ≤ a → a ≤ 0 → ∀ i, (1 / 10 ^ 6) * power_ x i ≤ power_ (voa a x) i ∧ power_ (voa a x) i ≤ power_ x i) ∧
    (a ≤ b → ∀ i, power_ (voa a x) i ≤ power_ (voa b x) i) := by
  have hp : ∀ i, 0 ≤ power_ x i := fun i => by unfold power_; positivity
  refine ⟨power_dbScale a x, by unfold voa; rw [dbScale_dbScale, add_comm], dbScale_zero x, fun h1 h2 i => ?_, fun h i => ?_⟩
  · unfold voa; rw [power_dbScale]
    have e1 : (10 : ℝ) ^ (a / 10) ≤ 1 := Real.rpow_le_one_of_one_le_of_nonpos (by norm_num) (by linarith)
    have e2 : (1 / 10 ^ 6 : ℝ) ≤ (10 : ℝ) ^ (a / 10) := by
      have : (10 : ℝ) ^ (-6 : ℝ) ≤ (10 : ℝ) ^ (a / 10) := Real.rpow_le_rpow_of_exponent_le (by norm_num) (by linarith)
      have h6 : (10 : ℝ) ^ (-6 : ℝ) = 1 / 10 ^ 6 := by
        rw [Real.rpow_neg (by norm_num), one_div]; norm_num
      rwa [h6] at this
    exact ⟨mul_le_mul_of_nonneg_right e2 (hp i), by nlinarith [hp i]⟩
  · unfold voa; rw [power_dbScale, power_dbScale]
    exact mul_le_mul_of_nonneg_right (Real.rpow_le_rpow_of_exponent_le (by norm_num) (by linarith)) (hp i)

example : (2 : Nat) ≤ 4 ∧ 0 < demoProp.window ∧ (-60 : ℝ) ≤ -3 ∧ (-3 : ℝ) ≤ 0 := by norm_num [demoProp]

theorem logistic_pos_lt (x : ℝ) : 0 < logistic x ∧ logistic x < 1 := by
  unfold logistic
  have := Real.exp_pos (-x)
  exact ⟨by positivity, by rw [div_lt_one (by positivity)]; linarith⟩

theorem logistic_mono {x y : ℝ} (h : x ≤ y) : logistic x ≤ logistic y := by
  unfold logistic
  have h1 := Real.exp_pos (-y)
  apply one_div_le_one_div_of_le (by positivity)
  have : Real.exp (-y) ≤ Real.exp (-x) := Real.exp_le_exp.2 (by linarith)
  linarith

theorem logistic_zero : logistic 0 = 1 / 2 := by unfold logistic; norm_num

/-- **C58.** The square filter: its transmission is symmetric in frequency and strictly between 0 and 1, at least `1/4` inside the band and
at most `1/2` outside, and the energy never rises.  Bandwidth zero, the lower bound of the parameter, fails. -/
theorem C58_square_filter (hn : 2 ≤ n) {P : Prop_ n} (hw : 0 < P.window) {bw : ℝ} (hb : 0 < bw) (x : Signal n) :
    (∀ j, 0 < sfMask P bw j ∧ sfMask P bw j < 1 ∧ sfMask P bw j.rev = sfMask P bw j ∧
      (|P.f j| ≤ bw / 2 → 1 / 4 ≤ sfMask P bw j) ∧ (bw / 2 ≤ |P.f j| → sfMask P bw j ≤ 1 / 2)) ∧
    (∃ y, squareFilter P bw x = .ok y ∧ energy y ≤ energy x) ∧
    squareFilter P 0 x = .error .zeroDivision := by
  have hd := dt_ne_zero hn hw
  have h60 : 0 < 60 / bw := by positivity
  have hlt : ∀ j, 0 < sfMask P bw j ∧ sfMask P bw j < 1 := fun j => by
    unfold sfMask
    obtain ⟨a, b⟩ := logistic_pos_lt ((P.f j + bw / 2) * (60 / bw))
    obtain ⟨c, d⟩ := logistic_pos_lt ((-P.f j + bw / 2) * (60 / bw))
    exact ⟨by positivity, by nlinarith⟩
  refine ⟨fun j => ⟨(hlt j).1, (hlt j).2, ?_, ?_, ?_⟩, ?_, by unfold squareFilter; rw [if_pos rfl]⟩
  · have := ((C53_axes (m := n) hn P).2.2.2 j).2
    have : P.f j.rev = -P.f j := this
    unfold sfMask; rw [this, neg_neg, mul_comm]
  · intro h
    rw [abs_le] at h
    have h1 : 1 / 2 ≤ logistic ((P.f j + bw / 2) * (60 / bw)) :=
      logistic_zero ▸ logistic_mono (mul_nonneg (by linarith) h60.le)
    have h2 : 1 / 2 ≤ logistic ((-P.f j + bw / 2) * (60 / bw)) :=
      logistic_zero ▸ logistic_mono (mul_nonneg (by linarith) h60.le)
    unfold sfMask; nlinarith
  · intro h
    obtain ⟨a, b⟩ := logistic_pos_lt ((P.f j + bw / 2) * (60 / bw))
    obtain ⟨c, d⟩ := logistic_pos_lt ((-P.f j + bw / 2) * (60 / bw))
    unfold sfMask
    rcases le_abs.1 h with h | h
    · have : logistic ((-P.f j + bw / 2) * (60 / bw)) ≤ 1 / 2 :=
        logistic_zero ▸ logistic_mono (mul_nonpos_of_nonpos_of_nonneg (by linarith) h60.le)
      nlinarith
    · have : logistic ((P.f j + bw / 2) * (60 / bw)) ≤ 1 / 2 :=
        logistic_zero ▸ logistic_mono (mul_nonpos_of_nonpos_of_nonneg (by linarith) h60.le)
      nlinarith
  · refine ⟨_, by unfold squareFilter; rw [if_neg hb.ne'], ?_⟩
    rw [dbScale_zero]
    refine (energy_freqMul_le hd (c := 1) (fun k => ?_) x).trans (by linarith)
    simp only [ifftShift, Complex.norm_real, Real.norm_eq_abs]
    rw [abs_of_pos (hlt _).1]; exact (hlt _).2.le

/-! Cases of the theorems above. -/

example := C55_fiber (n := 4) (by norm_num) (P := demoProp) (by norm_num [demoProp]) 1000 500
example := C55_delay_line (n := 4) (by norm_num) (P := demoProp) (by norm_num [demoProp]) 1 2
example := C55_phase_shifter (n := 4) (by norm_num) (P := demoProp) (by norm_num [demoProp]) 1 2
example (x : Signal 4) : power_ (phaseMod demoProp 2 3 1 (fun i => i) x) = power_ x := C56_phase_modulator demoProp 2 3 1 _ x
example := C56_intensity_modulator demoProp 2 3 1
example (x : Signal 4) (i : Fin 4) := (C57_attenuator (-3) (-1) x).2.2.2.1 (by norm_num) (by norm_num) i
example := C58_square_filter (n := 4) (by norm_num) (P := demoProp) (by norm_num [demoProp]) (bw := 1) one_pos

end Verif
