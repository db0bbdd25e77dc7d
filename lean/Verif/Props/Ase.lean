import Verif.Model.Ase
import Verif.Props.NoiseSpectra
import Verif.Props.Amplifier
/-!
# Noise of the amplifier (C82)
-/

namespace Verif
open Complex Finset

variable {n : Nat}

theorem Edfa.gain_pos (E : Edfa) (P : Prop_ n) (x : Signal n) (k : Fin n) (hp : 0 < E.pOutMax) : 0 < E.gain P x k :=
  div_pos (E.smallSignal_pos P k) (lt_of_lt_of_le one_pos (E.denom_ge P x k hp))

theorem planck_pos : 0 < planck := by unfold planck; norm_num

theorem Edfa.noiseFactor_pos (E : Edfa) : 0 < E.noiseFactor := Real.rpow_pos_of_pos (by norm_num) _

/-- The amplifier with noise, in terms of what its filter is. -/
theorem noisy_eq (E : Edfa) (hn : 2 ≤ n) {P : Prop_ n} (hw : 0 < P.window) (hp : 0 < E.pOutMax) (hf : ∀ k, 0 ≤ ifftShift P.f k + P.central)
    (g : Signal n) (r : Fin n → ℝ) (x : Signal n) (m : AmpMemory n) :
    ∃ y, E.noisy P g r x m = .ok y ∧ ∀ k, fft_ (fun i => y i - E.propagate P x i) P.dt k =
      Real.sqrt (asePower P E.noiseFactor (E.gain P x) k) * Real.sqrt (P.dt / P.df) * (g k / Real.sqrt 2) := by
  have hneg : ¬ ∃ k, asePower P E.noiseFactor (E.gain P x) k < 0 := by
    push Not
    intro k
    have h1 := planck_pos
    have h2 := hf k
    have h3 := E.gain_pos P x k hp
    have h4 := E.noiseFactor_pos
    have h5 := df_pos' hn hw
    unfold asePower
    positivity
  have hF : aseFilter P (E.amplify P x m).1 = .ok (fun k => Real.sqrt (asePower P E.noiseFactor (E.gain P x) k)) := by
    unfold aseFilter Edfa.amplify
    dsimp only
    rw [if_neg hneg]
  obtain ⟨s, y, h1, h2, h3⟩ := C66_ase (dt_pos_grid hn hw).ne' (fun k => Real.sqrt (asePower P E.noiseFactor (E.gain P x) k)) g r (E.propagate P x)
  refine ⟨y, ?_, h3⟩
  unfold Edfa.noisy
  simp only [hF, h1]
  exact h2

/-- **C82.** Spectrum of the noise an amplifier adds, for every signal and whatever was drawn: bin `k` has the phase of the drawn number and the energy
`h ν / 2 · F · G · dt`, times the drawn number's energy over its mean 2; `F` is the noise figure as a ratio, `G` the gain this very signal has met at that frequency. -/
theorem C82_spectrum (E : Edfa) (hn : 2 ≤ n) {P : Prop_ n} (hw : 0 < P.window) (hp : 0 < E.pOutMax) (hf : ∀ k, 0 ≤ ifftShift P.f k + P.central)
    (g : Signal n) (r : Fin n → ℝ) (x : Signal n) (m : AmpMemory n) :
    ∃ y, E.noisy P g r x m = .ok y ∧ ∀ k,
      ‖fft_ (fun i => y i - E.propagate P x i) P.dt k‖ ^ 2 =
        planck * (ifftShift P.f k + P.central) / 2 * (10 : ℝ) ^ (E.noiseFigDb / 10) * E.gain P x k * P.dt * (‖g k‖ ^ 2 / 2) ∧
      ∃ c : ℝ, 0 ≤ c ∧ fft_ (fun i => y i - E.propagate P x i) P.dt k = c * g k := by
  obtain ⟨y, h1, h2⟩ := noisy_eq E hn hw hp hf g r x m
  have hdf := df_pos' hn hw
  have hdt := dt_pos_grid hn hw
  refine ⟨y, h1, fun k => ⟨?_, Real.sqrt (asePower P E.noiseFactor (E.gain P x) k) * Real.sqrt (P.dt / P.df) / Real.sqrt 2, by positivity, ?_⟩⟩
  · rw [h2, norm_mul, norm_mul, norm_div, Complex.norm_real, Complex.norm_real, Complex.norm_real, Real.norm_of_nonneg (Real.sqrt_nonneg _),
      Real.norm_of_nonneg (Real.sqrt_nonneg _), Real.norm_of_nonneg (Real.sqrt_nonneg _), mul_pow, mul_pow, div_pow, Real.sq_sqrt, Real.sq_sqrt (by positivity),
      Real.sq_sqrt (by norm_num)]
    · unfold asePower Edfa.noiseFactor
      field_simp
    · have h1 := planck_pos
      have h2 := hf k
      have h3 := E.gain_pos P x k hp
      have h4 := E.noiseFactor_pos
      unfold asePower
      positivity
  · rw [h2]; push_cast; ring

theorem energy_of_fft (hn : 2 ≤ n) {P : Prop_ n} (hw : 0 < P.window) (z : Signal n) :
    npMean (power_ z) = (∑ k, ‖fft_ z P.dt k‖ ^ 2) / (n ^ 2 * P.dt ^ 2) := by
  have h := C54_parseval z P.dt
  have hdt := dt_pos_grid hn hw
  have hn' : (0 : ℝ) < n := by exact_mod_cast (by omega : 0 < n)
  rw [npMean_power, show (∑ k, ‖fft_ z P.dt k‖ ^ 2) = energy (fft_ z P.dt) from rfl, h]
  field_simp

/-- **C82, finding.** `expected_power_dist` is the power `h ν / 2 · F · G · df` in each bin, so that its sum is the power to be added.  What is added has the
*average* over the bins (up to the factor `((n-1)/n)²`, and up to the fluctuation of the drawn numbers): too little by the number of samples. -/
theorem C82_power (E : Edfa) (hn : 2 ≤ n) {P : Prop_ n} (hw : 0 < P.window) (hp : 0 < E.pOutMax) (hf : ∀ k, 0 ≤ ifftShift P.f k + P.central)
    (g : Signal n) (r : Fin n → ℝ) (x : Signal n) (m : AmpMemory n) :
    ∃ y, E.noisy P g r x m = .ok y ∧ npMean (power_ (fun i => y i - E.propagate P x i)) =
        (((n : ℝ) - 1) / n) ^ 2 * ((∑ k, planck * (ifftShift P.f k + P.central) / 2 * (10 : ℝ) ^ (E.noiseFigDb / 10) * E.gain P x k * P.df * (‖g k‖ ^ 2 / 2)) / n) ∧
      ((∀ k, ‖g k‖ ^ 2 = 2) → npMean (power_ (fun i => y i - E.propagate P x i)) ≤
        (∑ k, planck * (ifftShift P.f k + P.central) / 2 * (10 : ℝ) ^ (E.noiseFigDb / 10) * E.gain P x k * P.df) / n) := by
  obtain ⟨y, h1, h2⟩ := C82_spectrum E hn hw hp hf g r x m
  have hdf := df_pos' hn hw
  have hdt := dt_pos_grid hn hw
  have hn1 := two_le_cast hn
  have hn2 : (2 : ℝ) ≤ n := by exact_mod_cast hn
  have hn' : (0 : ℝ) < n := by linarith
  have key : npMean (power_ (fun i => y i - E.propagate P x i)) =
        (((n : ℝ) - 1) / n) ^ 2 * ((∑ k, planck * (ifftShift P.f k + P.central) / 2 * (10 : ℝ) ^ (E.noiseFigDb / 10) * E.gain P x k * P.df * (‖g k‖ ^ 2 / 2)) / n) := by
    rw [energy_of_fft hn hw, sum_congr rfl (fun k _ => (h2 k).1)]
    have e : ∀ k, planck * (ifftShift P.f k + P.central) / 2 * (10 : ℝ) ^ (E.noiseFigDb / 10) * E.gain P x k * P.df * (‖g k‖ ^ 2 / 2) =
        (planck * (ifftShift P.f k + P.central) / 2 * (10 : ℝ) ^ (E.noiseFigDb / 10) * E.gain P x k * P.dt * (‖g k‖ ^ 2 / 2)) * (P.df / P.dt) := fun k => by field_simp
    rw [sum_congr rfl (fun k _ => e k), ← sum_mul]
    have hm := dt_mul_df hn hw
    have hm2 : P.df = n / ((n : ℝ) - 1) ^ 2 / P.dt := by rw [← hm, mul_div_cancel_left₀ _ hdt.ne']
    rw [hm2]
    generalize (∑ k, planck * (ifftShift P.f k + P.central) / 2 * (10 : ℝ) ^ (E.noiseFigDb / 10) * E.gain P x k * P.dt * (‖g k‖ ^ 2 / 2)) = S
    field_simp
  refine ⟨y, h1, key, fun hg => ?_⟩
  rw [key]
  simp only [hg]
  have hsum : 0 ≤ (∑ k, planck * (ifftShift P.f k + P.central) / 2 * (10 : ℝ) ^ (E.noiseFigDb / 10) * E.gain P x k * P.df) / n := by
    refine div_nonneg (sum_nonneg (fun k _ => ?_)) hn'.le
    have h1 := planck_pos
    have h2 := hf k
    have h3 := E.gain_pos P x k hp
    positivity
  have hle : (((n : ℝ) - 1) / n) ^ 2 ≤ 1 := by
    rw [div_pow, div_le_one (by positivity)]
    nlinarith
  have : (2 : ℝ) / 2 = 1 := by norm_num
  simp only [this, mul_one]
  nlinarith

/-- **C82.** Asked for its noise before it has amplified anything the amplifier raises `TypeError`; after any sequence of calls, with whatever parameters, propagators
and signals, it is the last amplified signal that decides. -/
theorem C82_latest (cs : List (AmpCall n)) (m : AmpMemory n) (P : Prop_ n) :
    ((∀ E Q x, AmpCall.propagate E Q x ∉ cs) → (m.after cs) = m ∧ aseFilter P ((AmpMemory.fresh : AmpMemory n).after cs) = .error .typeError) ∧
    ∀ pre post E Q x, cs = pre ++ .propagate E Q x :: post → (∀ E' Q' x', AmpCall.propagate E' Q' x' ∉ post) →
      (m.after cs).lastGain = some (E.gain Q x) ∧ (m.after cs).lastFactor = some ((10 : ℝ) ^ (E.noiseFigDb / 10)) := by
  have key : ∀ (cs : List (AmpCall n)), (∀ E Q x, AmpCall.propagate E Q x ∉ cs) → ∀ m : AmpMemory n, m.after cs = m := fun cs => by
    induction cs with
    | nil => intro _ m; rfl
    | cons c cs ih =>
      intro h m
      cases c with
      | propagate E Q x => exact absurd List.mem_cons_self (h E Q x)
      | filter Q => exact ih (fun E Q x hm => h E Q x (List.mem_cons_of_mem _ hm)) m
  have app : ∀ (a b : List (AmpCall n)) (m : AmpMemory n), m.after (a ++ b) = (m.after a).after b := fun a b => by
    induction a with
    | nil => intro m; rfl
    | cons c cs ih => intro m; cases c <;> exact ih _
  refine ⟨fun h => ⟨key cs h m, by rw [key cs h]; rfl⟩, ?_⟩
  rintro pre post E Q x rfl h
  rw [app]
  show ((E.amplify Q x _).1.after post).lastGain = _ ∧ ((E.amplify Q x _).1.after post).lastFactor = _
  rw [key post h]
  exact ⟨rfl, rfl⟩

/-- The noise of the first amplifier is nowhere larger than that of the second, for the same signal and the same drawn numbers. -/
def QuieterThan (E E' : Edfa) (P : Prop_ n) (x : Signal n) : Prop :=
  ∀ (g : Signal n) (r : Fin n → ℝ) (m m' : AmpMemory n), ∃ y y', E.noisy P g r x m = .ok y ∧ E'.noisy P g r x m' = .ok y' ∧
    (∀ k, ‖fft_ (fun i => y i - E.propagate P x i) P.dt k‖ ≤ ‖fft_ (fun i => y' i - E'.propagate P x i) P.dt k‖) ∧
    npMean (power_ (fun i => y i - E.propagate P x i)) ≤ npMean (power_ (fun i => y' i - E'.propagate P x i)) ∧
    ((∀ k, g k ≠ 0) → (∀ k, (10 : ℝ) ^ (E.noiseFigDb / 10) * E.gain P x k < (10 : ℝ) ^ (E'.noiseFigDb / 10) * E'.gain P x k) → (∀ k, 0 < ifftShift P.f k + P.central) →
      ∀ k, ‖fft_ (fun i => y i - E.propagate P x i) P.dt k‖ < ‖fft_ (fun i => y' i - E'.propagate P x i) P.dt k‖)

theorem quieter_of_le {E E' : Edfa} (hn : 2 ≤ n) {P : Prop_ n} (hw : 0 < P.window) (hp : 0 < E.pOutMax) (hp' : 0 < E'.pOutMax)
    (hf : ∀ k, 0 ≤ ifftShift P.f k + P.central) {x : Signal n}
    (h : ∀ k, (10 : ℝ) ^ (E.noiseFigDb / 10) * E.gain P x k ≤ (10 : ℝ) ^ (E'.noiseFigDb / 10) * E'.gain P x k) : QuieterThan E E' P x := by
  intro g r m m'
  obtain ⟨y, h1, h2⟩ := C82_spectrum E hn hw hp hf g r x m
  obtain ⟨y', h1', h2'⟩ := C82_spectrum E' hn hw hp' hf g r x m'
  have hdt := dt_pos_grid hn hw
  have hpl := planck_pos
  have hk : ∀ k, ‖fft_ (fun i => y i - E.propagate P x i) P.dt k‖ ^ 2 ≤ ‖fft_ (fun i => y' i - E'.propagate P x i) P.dt k‖ ^ 2 := fun k => by
    rw [(h2 k).1, (h2' k).1]
    have := hf k
    have hc : 0 ≤ planck * (ifftShift P.f k + P.central) / 2 * P.dt * (‖g k‖ ^ 2 / 2) := by positivity
    have := mul_le_mul_of_nonneg_left (h k) hc
    linarith
  refine ⟨y, y', h1, h1', fun k => ?_, ?_, fun hg hlt hpos k => ?_⟩
  · exact (sq_le_sq₀ (norm_nonneg _) (norm_nonneg _)).1 (hk k)
  · rw [energy_of_fft hn hw, energy_of_fft hn hw]
    have hn' : (0 : ℝ) < n := by exact_mod_cast (by omega : 0 < n)
    exact div_le_div_of_nonneg_right (sum_le_sum (fun k _ => hk k)) (by positivity)
  · refine (sq_lt_sq₀ (norm_nonneg _) (norm_nonneg _)).1 ?_
    rw [(h2 k).1, (h2' k).1]
    have h3 := hpos k
    have h4 := norm_pos_iff.2 (hg k)
    have hc : 0 < planck * (ifftShift P.f k + P.central) / 2 * P.dt * (‖g k‖ ^ 2 / 2) := by positivity
    have := mul_lt_mul_of_pos_left (hlt k) hc
    linarith

theorem saturate_mono {α : ℝ} (h1 : α ≤ 1) {c u v : ℝ} (hc : 0 ≤ c) (hu : 0 < u) (huv : u ≤ v) :
    u / (1 + (u * c) ^ α) ≤ v / (1 + (v * c) ^ α) := by
  have hv : 0 < v := lt_of_lt_of_le hu huv
  have hcu : 0 ≤ (u * c) ^ α := by positivity
  have hcv : 0 ≤ (v * c) ^ α := by positivity
  rw [div_le_div_iff₀ (by linarith) (by linarith), Real.mul_rpow hu.le hc, Real.mul_rpow hv.le hc]
  have key : u * v ^ α ≤ v * u ^ α := by
    have e1 : u = u ^ (1 - α) * u ^ α := by rw [← Real.rpow_add hu]; simp
    have e2 : v = v ^ (1 - α) * v ^ α := by rw [← Real.rpow_add hv]; simp
    have hle : u ^ (1 - α) ≤ v ^ (1 - α) := Real.rpow_le_rpow hu.le huv (by linarith)
    have p1 : 0 ≤ u ^ α := by positivity
    have p2 : 0 ≤ v ^ α := by positivity
    calc u * v ^ α = u ^ (1 - α) * (u ^ α * v ^ α) := by conv_lhs => rw [e1]
                                                         ring
      _ ≤ v ^ (1 - α) * (u ^ α * v ^ α) := mul_le_mul_of_nonneg_right hle (mul_nonneg p1 p2)
      _ = v * u ^ α := by conv_rhs => rw [e2]
                          ring
  have hcp : 0 ≤ c ^ α := Real.rpow_nonneg hc α
  nlinarith

/-- **C82.** Louder amplifiers, for every signal and whatever was drawn, at every frequency and in total: a larger noise figure; a larger maximal output power
(`alpha ≥ 0`); and a larger small-signal gain, as long as `alpha ≤ 1`. -/
theorem C82_louder (E : Edfa) (hn : 2 ≤ n) {P : Prop_ n} (hw : 0 < P.window) (hp : 0 < E.pOutMax) (hf : ∀ k, 0 ≤ ifftShift P.f k + P.central) (x : Signal n) :
    (∀ nf, E.noiseFigDb ≤ nf → QuieterThan E { E with noiseFigDb := nf } P x) ∧
    (∀ q, 0 ≤ E.alpha → E.pOutMax ≤ q → QuieterThan E { E with pOutMax := q } P x) ∧
    (∀ a, E.alpha ≤ 1 → E.gainDb ≤ a → QuieterThan E { E with gainDb := a } P x) := by
  refine ⟨fun nf h => ?_, fun q ha h => ?_, fun a h1 h => ?_⟩
  · refine quieter_of_le hn hw hp (by exact hp) hf (fun k => ?_)
    show (10 : ℝ) ^ (E.noiseFigDb / 10) * E.gain P x k ≤ (10 : ℝ) ^ (nf / 10) * E.gain P x k
    exact mul_le_mul_of_nonneg_right (Real.rpow_le_rpow_of_exponent_le (by norm_num) (by linarith)) (E.gain_pos P x k hp).le
  · have hq : 0 < q := lt_of_lt_of_le hp h
    refine quieter_of_le hn hw hp hq hf (fun k => ?_)
    refine mul_le_mul_of_nonneg_left ?_ (by positivity)
    have hs := E.smallSignal_pos P k
    have hm := npMean_power_nonneg x
    show E.smallSignal P k / (1 + (E.smallSignal P k * npMean (power_ x) / E.pOutMax) ^ E.alpha) ≤
      E.smallSignal P k / (1 + (E.smallSignal P k * npMean (power_ x) / q) ^ E.alpha)
    have hle : (E.smallSignal P k * npMean (power_ x) / q) ^ E.alpha ≤ (E.smallSignal P k * npMean (power_ x) / E.pOutMax) ^ E.alpha :=
      Real.rpow_le_rpow (by positivity) (div_le_div_of_nonneg_left (by positivity) hp h) ha
    have h0 : 0 ≤ (E.smallSignal P k * npMean (power_ x) / q) ^ E.alpha := by positivity
    exact div_le_div_of_nonneg_left hs.le (by linarith) (by linarith)
  · refine quieter_of_le hn hw hp (by exact hp) hf (fun k => ?_)
    refine mul_le_mul_of_nonneg_left ?_ (by positivity)
    have hs := E.smallSignal_pos P k
    have hm := npMean_power_nonneg x
    have hle : E.smallSignal P k ≤ ({ E with gainDb := a } : Edfa).smallSignal P k := by
      have hg : (10 : ℝ) ^ (E.gainDb / 10) ≤ (10 : ℝ) ^ (a / 10) := Real.rpow_le_rpow_of_exponent_le (by norm_num) (by linarith)
      unfold Edfa.smallSignal
      dsimp only
      split
      · linarith
      · exact mul_le_mul_of_nonneg_right hg (Real.exp_nonneg _)
    unfold Edfa.gain
    rw [mul_div_assoc, mul_div_assoc]
    exact saturate_mono h1 (div_nonneg hm hp.le) hs hle

/-- **C82, finding.** For `alpha = 1.5`, the upper bound of the parameter, more small-signal gain can mean less gain: with flat gain, a limit of 1 W and an input of
1 W, 20 dB instead of 10 dB lower gain, output and noise at every frequency. -/
theorem C82_quieter_with_gain (hn : 2 ≤ n) {P : Prop_ n} (hw : 0 < P.window) (hf : ∀ k, 0 ≤ ifftShift P.f k + P.central) (E : Edfa)
    (hE : E.gainDb = 10 ∧ E.pOutMax = 1 ∧ E.flatnessDb = 0 ∧ E.alpha = 3 / 2) (x : Signal n) (hx : ∀ i, ‖x i‖ = 1) :
    (∀ k, ({ E with gainDb := 20 } : Edfa).gain P x k < E.gain P x k) ∧ QuieterThan { E with gainDb := 20 } E P x := by
  obtain ⟨h1, h2, h3, h4⟩ := hE
  have hn' : (n : ℝ) ≠ 0 := by exact_mod_cast (by omega : n ≠ 0)
  have hm : npMean (power_ x) = 1 := by
    unfold npMean power_
    simp [hx, hn']
  have hlt : ∀ k, ({ E with gainDb := 20 } : Edfa).gain P x k < E.gain P x k := fun k => by
    unfold Edfa.gain Edfa.smallSignal
    simp only [h1, h2, h3, h4, hm, abs_zero, mul_one, one_mul, div_one]
    rw [if_pos (by norm_num), if_pos (by norm_num)]
    have e1 : (10 : ℝ) ^ ((20 : ℝ) / 10) = 100 := by rw [show (20 : ℝ) / 10 = ((2 : ℕ) : ℝ) by norm_num, Real.rpow_natCast]; norm_num
    have e2 : (10 : ℝ) ^ ((10 : ℝ) / 10) = 10 := by rw [show (10 : ℝ) / 10 = ((1 : ℕ) : ℝ) by norm_num, Real.rpow_natCast]; norm_num
    have e3 : (100 : ℝ) ^ ((3 : ℝ) / 2) = 1000 := by
      rw [show (100 : ℝ) = (10 : ℝ) ^ ((2 : ℕ) : ℝ) by rw [Real.rpow_natCast]; norm_num, ← Real.rpow_mul (by norm_num),
        show (((2 : ℕ) : ℝ) * (3 / 2)) = ((3 : ℕ) : ℝ) by norm_num, Real.rpow_natCast]; norm_num
    have e4 : (10 : ℝ) ^ ((3 : ℝ) / 2) ≤ 32 := by
      have : ((10 : ℝ) ^ ((3 : ℝ) / 2)) ^ 2 = 1000 := by
        rw [← Real.rpow_natCast, ← Real.rpow_mul (by norm_num), show ((3 : ℝ) / 2 * ((2 : ℕ) : ℝ)) = ((3 : ℕ) : ℝ) by norm_num, Real.rpow_natCast]; norm_num
      nlinarith [Real.rpow_nonneg (show (0 : ℝ) ≤ 10 by norm_num) ((3 : ℝ) / 2)]
    have e5 := Real.rpow_nonneg (show (0 : ℝ) ≤ 10 by norm_num) ((3 : ℝ) / 2)
    rw [e1, e2, e3, div_lt_div_iff₀ (by norm_num) (by linarith)]
    linarith
  refine ⟨hlt, quieter_of_le hn hw (by show 0 < E.pOutMax; rw [h2]; norm_num) (by rw [h2]; norm_num) hf (fun k => ?_)⟩
  exact mul_le_mul_of_nonneg_left (hlt k).le (by positivity)

/-- **C82, finding.** If the samples are closer than half a period of the light, the lowest frequency of the grid is negative and the noise of every amplifier `nan`. -/
theorem C82_fine_grid (E : Edfa) (hn : 2 ≤ n) {P : Prop_ n} (hw : 0 < P.window) (hp : 0 < E.pOutMax) (hf : P.central < n / P.window / 2)
    (g : Signal n) (r : Fin n → ℝ) (x : Signal n) (m : AmpMemory n) : E.noisy P g r x m = .error .runtimeWarning := by
  have hneg : ∃ k, asePower P E.noiseFactor (E.gain P x) k < 0 := by
    obtain ⟨k, hk⟩ := (rotIdx_bijective (n := n) (s := n / 2) (by omega)).2 ⟨0, by omega⟩
    have h0 : ifftShift P.f k = -(n / P.window / 2) := by
      unfold ifftShift
      rw [hk]
      unfold Prop_.f Prop_.linspace
      simp
      ring
    refine ⟨k, ?_⟩
    have h1 := planck_pos
    have h3 := E.gain_pos P x k hp
    have h4 := E.noiseFactor_pos
    have h5 := df_pos' hn hw
    unfold asePower
    rw [h0]
    have : planck * (-(n / P.window / 2) + P.central) < 0 := mul_neg_of_pos_of_neg h1 (by linarith)
    have h6 : planck * (-(n / P.window / 2) + P.central) / 2 < 0 := by linarith
    have h7 : 0 < E.noiseFactor * E.gain P x k := by positivity
    exact mul_neg_of_neg_of_pos (mul_neg_of_neg_of_pos h6 h7) h5
  have hF : aseFilter P (E.amplify P x m).1 = .error .runtimeWarning := by
    unfold aseFilter Edfa.amplify
    dsimp only
    rw [if_pos hneg]
  unfold Edfa.noisy
  simp only [hF]

/-- The default amplifier on a grid of four samples in three seconds at 1.55 µm. -/
example : 0 < (demoEdfa 1 (3 / 2)).pOutMax ∧ 0 < demoProp.window ∧ ∀ k, 0 ≤ ifftShift demoProp.f k + demoProp.central := by
  refine ⟨by norm_num [demoEdfa], by norm_num [demoProp], fun k => ?_⟩
  have : ∀ j : Fin 4, -1 ≤ demoProp.f j := fun j => by
    have : (0 : ℝ) ≤ ((j : ℕ) : ℝ) := by positivity
    unfold Prop_.f Prop_.linspace
    norm_num [demoProp]
    linarith
  have h1 := this (rotIdx (4 / 2) k)
  have h2 : 1 ≤ demoProp.central := by unfold Prop_.central lightSpeed; norm_num [demoProp]
  unfold ifftShift
  linarith

/-- An amplifier as in `C82_quieter_with_gain`, and a grid as in `C82_fine_grid`. -/
example : (let E := { demoEdfa (3 / 2) 0 with gainDb := 10, pOutMax := 1 }; E.gainDb = 10 ∧ E.pOutMax = 1 ∧ E.flatnessDb = 0 ∧ E.alpha = 3 / 2) ∧
    let P : Prop_ 4 := ⟨1 / 10 ^ 15, 155 / 100000000⟩; 0 < P.window ∧ P.central < (4 : ℕ) / P.window / 2 := by
  refine ⟨by norm_num [demoEdfa], ?_⟩
  unfold Prop_.central lightSpeed
  norm_num

/-- A history: two amplified signals, with a look at the filter in between. -/
example (x y : Signal 4) : ((AmpMemory.fresh : AmpMemory 4).after [.propagate (demoEdfa 1 0) demoProp x, .filter demoProp, .propagate (demoEdfa 1 1) demoProp y]).lastGain =
    some ((demoEdfa 1 1).gain demoProp y) :=
  ((C82_latest _ .fresh demoProp).2 [.propagate (demoEdfa 1 0) demoProp x, .filter demoProp] [] (demoEdfa 1 1) demoProp y rfl (by simp)).1

/-- The demonstration grid lies at optical frequencies. -/
theorem demo_optical (k : Fin 4) : 0 ≤ ifftShift demoProp.f k + demoProp.central := by
  have : ∀ j : Fin 4, -1 ≤ demoProp.f j := fun j => by
    have : (0 : ℝ) ≤ ((j : ℕ) : ℝ) := by positivity
    unfold Prop_.f Prop_.linspace
    norm_num [demoProp]
    linarith
  have h1 := this (rotIdx (4 / 2) k)
  have h2 : 1 ≤ demoProp.central := by unfold Prop_.central lightSpeed; norm_num [demoProp]
  unfold ifftShift
  linarith

example := C82_spectrum (demoEdfa 1 (3 / 2)) (by norm_num) (P := demoProp) (by norm_num [demoProp]) (by norm_num [demoEdfa]) demo_optical
example := C82_power (demoEdfa 1 (3 / 2)) (by norm_num) (P := demoProp) (by norm_num [demoProp]) (by norm_num [demoEdfa]) demo_optical
example (x : Signal 4) : QuieterThan (demoEdfa 1 (3 / 2)) { demoEdfa 1 (3 / 2) with noiseFigDb := 7 } demoProp x :=
  (C82_louder (demoEdfa 1 (3 / 2)) (by norm_num) (P := demoProp) (by norm_num [demoProp]) (by norm_num [demoEdfa]) demo_optical x).1 7 (by norm_num [demoEdfa])
example := C82_quieter_with_gain (by norm_num) (P := demoProp) (by norm_num [demoProp]) demo_optical { demoEdfa (3 / 2) 0 with gainDb := 10, pOutMax := 1 }
  (by norm_num [demoEdfa]) (fun _ => 1) (by simp)
example := C82_fine_grid (n := 4) (demoEdfa 1 (3 / 2)) (by norm_num) (P := ⟨1 / 10 ^ 15, 155 / 100000000⟩) (by norm_num) (by norm_num [demoEdfa])
  (by unfold Prop_.central lightSpeed; norm_num)

end Verif
