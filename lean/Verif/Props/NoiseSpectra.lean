import Verif.Props.Noise
/-!
# Spectra of noise (C66, continued)
-/

namespace Verif
open Complex Finset

variable {n : Nat}

/-- The spectrum of the complex conjugate. -/
theorem npFft_star (z : Signal n) (k : Fin n) : npFft (fun i => (starRingEnd ℂ) (z i)) k = (starRingEnd ℂ) (npFft z (oppBin k)) := by
  rw [npFft_ker, npFft_ker, map_sum]
  refine sum_congr rfl (fun j _ => ?_)
  rw [map_mul, map_inv₀, conj_ker, ker_opp, inv_inv]

theorem npFft_real (r : Fin n → ℝ) (k : Fin n) : (starRingEnd ℂ) (npFft (fun j => ((r j : ℝ) : ℂ)) (oppBin k)) = npFft (fun j => ((r j : ℝ) : ℂ)) k := by
  rw [← npFft_star]
  congr 1
  funext i
  exact conj_ofReal _

/-- The spectrum of the real part. -/
theorem npFft_re (z : Signal n) (k : Fin n) :
    npFft (fun i => (((z i).re : ℝ) : ℂ)) k = (npFft z k + (starRingEnd ℂ) (npFft z (oppBin k))) / 2 := by
  rw [← npFft_star]
  have : (fun i => (((z i).re : ℝ) : ℂ)) = fun i => (1 / 2 : ℂ) * (z i + (starRingEnd ℂ) (z i)) := by
    funext i; rw [add_conj]; push_cast; ring
  rw [this, npFft_smul]
  show (1 / 2 : ℂ) * npFft (fun i => z i + (starRingEnd ℂ) (z i)) k = _
  rw [npFft_add]
  ring

theorem dt_pos_grid (hn : 2 ≤ n) {P : Prop_ n} (hw : 0 < P.window) : 0 < P.dt := by
  rw [(dt_df P).1]
  have : (2 : ℝ) ≤ n := by exact_mod_cast hn
  exact div_pos hw (by linarith)

/-- `dt * df`; for the discrete Fourier transform it would be `1 / n`. -/
theorem dt_mul_df (hn : 2 ≤ n) {P : Prop_ n} (hw : 0 < P.window) : P.dt * P.df = n / ((n : ℝ) - 1) ^ 2 := by
  rw [(dt_df P).1, (dt_df P).2]
  have := two_le_cast hn
  field_simp

/-- **C66.** The phase noise of a linewidth `w`, for lasers and for modulators: `√(w/2π) √dt` times the spectrum of what was drawn, times the mean of `1/|f|` over
the bin and its opposite (which differ, the frequency grid being off by half a step); a laser turns its phase by exactly this phase. -/
theorem C66_linewidth_spectrum (hn : 2 ≤ n) (he : n % 2 = 0) {P : Prop_ n} (hw : 0 < P.window) (mask : Option (Signal n)) {w : ℝ} (h0 : 0 < w) (g : Signal n)
    (r : Fin n → ℝ) :
    ∃ p : Fin n → ℝ,
      (∀ k, fft_ (fun i => (p i : ℂ)) P.dt k = (Real.sqrt (w / (2 * Real.pi)) * Real.sqrt P.dt * ((1 / |ifftShift P.f k| + 1 / |ifftShift P.f (oppBin k)|) / 2) : ℝ) *
        npFft (fun i => (r i : ℂ)) k) ∧
      (∃ s, sampleNoise P mask (.phase w) g r = .ok s ∧ ∀ i, s.vec i = p i) ∧
      ∃ s, sampleNoise P mask (.fwhm w) g r = .ok s ∧ ∀ x : Signal n, ∃ y, mixNoise P [s] x = .ok y ∧ ∀ i, y i = x i * exp (I * (p i : ℂ)) := by
  have hz : ¬ ∃ k, P.f k = 0 := by rw [exists_f_zero hn hw]; omega
  have hdt : (P.dt : ℂ) ≠ 0 := by exact_mod_cast (dt_pos_grid hn hw).ne'
  obtain ⟨amp, hamp⟩ : ∃ amp : Fin n → ℝ, amp = fun k => Real.sqrt (w / Real.pi / 2) / ifftShift (fun j => |P.f j|) k * Real.sqrt P.dt := ⟨_, rfl⟩
  obtain ⟨z, hzz⟩ : ∃ z : Signal n, z = ifft_ (fun k => (amp k : ℂ) * npFft (fun j => ((r j : ℝ) : ℂ)) k) P.dt := ⟨_, rfl⟩
  have hl : linewidthPhase P w r = .ok (fun i => (z i).re) := by
    unfold linewidthPhase
    rw [if_neg hz, hzz, hamp]
  have hFz : ∀ k, npFft z k = (amp k : ℂ) * npFft (fun j => ((r j : ℝ) : ℂ)) k / P.dt := fun k => by
    have : z = fun i => (1 / (P.dt : ℂ)) * npIfft (fun k => (amp k : ℂ) * npFft (fun j => ((r j : ℝ) : ℂ)) k) i := by
      rw [hzz]; funext i; unfold ifft_; ring
    rw [this, npFft_smul, npFft_npIfft]; ring
  refine ⟨fun i => (z i).re, fun k => ?_, ?_, ?_⟩
  · unfold fft_
    rw [npFft_re, hFz, hFz, map_div₀, map_mul, conj_ofReal, conj_ofReal, npFft_real]
    have ha : ∀ k, amp k = Real.sqrt (w / (2 * Real.pi)) * Real.sqrt P.dt * (1 / |ifftShift P.f k|) := fun k => by
      rw [hamp, show w / Real.pi / 2 = w / (2 * Real.pi) by rw [div_div, mul_comm]]
      show _ / |ifftShift P.f k| * _ = _
      ring
    rw [ha, ha]
    push_cast
    field_simp
  · have : noiseVector P mask (.phase w) g r = .ok (fun i => (((z i).re : ℝ) : ℂ)) := by
      unfold noiseVector
      simp only
      rw [if_neg h0.ne', hl]
    exact ⟨_, by unfold sampleNoise; rw [this], fun i => rfl⟩
  · have : noiseVector P mask (.fwhm w) g r = .ok (fun i => exp (I * (((z i).re : ℝ) : ℂ))) := by
      unfold noiseVector
      simp only
      rw [if_neg h0.ne', hl]
    exact ⟨_, by unfold sampleNoise; rw [this], fun x => ⟨_, mixNoise_single (by unfold noiseStep; rfl), fun i => add_zero _⟩⟩

/-- The sources whose noise is the drawn one up to a scale. -/
def NoiseForm.scaled : NoiseForm n → Bool
  | .osnr _ | .absolutePower _ | .rms _ | .shot _ _ => true
  | _ => false

theorem fft_filteredDraw {P : Prop_ n} (hdt : P.dt ≠ 0) (mask : Option (Signal n)) (g : Signal n) (k : Fin n) :
    npFft (filteredDraw P mask g) k = npFft g k * mask.elim 1 (fun H => H k) := by
  have hdt' : (P.dt : ℂ) ≠ 0 := by exact_mod_cast hdt
  unfold filteredDraw
  cases mask with
  | none => simp
  | some H =>
    have : ifft_ (fun k => fft_ g P.dt k * H k) P.dt = fun i => (1 / (P.dt : ℂ)) * npIfft (fun k => fft_ g P.dt k * H k) i := by
      funext i; unfold ifft_; ring
    simp only [this]
    rw [npFft_smul, npFft_npIfft]
    unfold fft_
    simp only [Option.elim]
    field_simp

/-- **C66.** Noise given by a signal-to-noise ratio, a power, a root mean square or a photocurrent has the spectrum of what was drawn, shaped by the filter of the
source and scaled by one number that is not negative: outside the pass band of the filter there is no noise. -/
theorem C66_filtered {P : Prop_ n} (hdt : P.dt ≠ 0) (mask : Option (Signal n)) {form : NoiseForm n} (hf : form.scaled = true)
    (hv : ∀ v, form = .rms v → 0 ≤ v) (g : Signal n) (r : Fin n → ℝ)
    {s : Sampled n} (hs : sampleNoise P mask form g r = .ok s) {x y : Signal n} (hy : mixNoise P [s] x = .ok y) :
    ∃ c : ℝ, 0 ≤ c ∧ ∀ k, fft_ (fun i => y i - x i) P.dt k = c * (fft_ g P.dt k * mask.elim 1 (fun H => H k)) := by
  obtain ⟨hform, _, hvec, _⟩ := sampleNoise_eq hs
  have key : ∀ c : ℝ, 0 ≤ c → (∀ i, y i - x i = c * filteredDraw P mask g i) →
      ∃ c : ℝ, 0 ≤ c ∧ ∀ k, fft_ (fun i => y i - x i) P.dt k = c * (fft_ g P.dt k * mask.elim 1 (fun H => H k)) := fun c hc h => by
    refine ⟨c, hc, fun k => ?_⟩
    rw [show (fun i => y i - x i) = fun i => (c : ℂ) * filteredDraw P mask g i from funext h]
    unfold fft_
    rw [npFft_smul]
    simp only [fft_filteredDraw hdt]
    ring
  unfold mixNoise noiseLoop noiseStep at hy
  rw [hform] at hy
  cases form with
  | osnr ratio =>
    have e : s.vec = filteredDraw P mask g := (Except.ok.inj hvec).symm
    dsimp only at hy
    by_cases hc : s.meanPower = 0 ∨ ratio = 0
    · rw [if_pos hc] at hy; cases hy
    · rw [if_neg hc] at hy
      cases hy
      exact key _ (Real.sqrt_nonneg (npMean (power_ x) / s.meanPower / ratio)) (fun i => by rw [e]; ring)
  | shot slope intercept =>
    have e : s.vec = filteredDraw P mask g := (Except.ok.inj hvec).symm
    dsimp only at hy
    by_cases hc : npMean (power_ s.vec) = 0
    · rw [if_pos hc] at hy; cases hy
    · rw [if_neg hc] at hy
      cases hy
      exact key _ (Real.sqrt_nonneg ((slope * npMean (fun i => ‖x i‖) + intercept) * noiseBandwidth P s.mask / npMean (power_ s.vec))) (fun i => by rw [e]; ring)
  | absolutePower w =>
    unfold noiseLoop at hy
    cases hy
    unfold noiseVector at hvec
    dsimp only at hvec
    split at hvec
    · cases hvec
    · have e := (Except.ok.inj hvec).symm
      exact key _ (Real.sqrt_nonneg (w / npMean (power_ (filteredDraw P mask g)))) (fun i => by rw [e]; ring)
  | rms v =>
    unfold noiseLoop at hy
    cases hy
    unfold noiseVector at hvec
    dsimp only at hvec
    split at hvec
    · cases hvec
    · have e := (Except.ok.inj hvec).symm
      exact key (v / Real.sqrt (npMean (power_ (filteredDraw P mask g)))) (div_nonneg (hv v rfl) (Real.sqrt_nonneg _)) (fun i => by rw [e]; ring)
  | edfaAse F => cases hf
  | fwhm w => cases hf
  | phase w => cases hf

/-- **C66.** The noise of an amplifier whose `get_ASE_filter` returns `F`: bin `k` of its spectrum is `F k √(dt/df)` times the drawn complex number, divided by √2
(the root mean square of its size). -/
theorem C66_ase {P : Prop_ n} (hdt : P.dt ≠ 0) (F : Fin n → ℝ) (g : Signal n) (r : Fin n → ℝ) (x : Signal n) :
    ∃ s y, sampleNoise P none (.edfaAse F) g r = .ok s ∧ mixNoise P [s] x = .ok y ∧
      ∀ k, fft_ (fun i => y i - x i) P.dt k = F k * Real.sqrt (P.dt / P.df) * (g k / Real.sqrt 2) := by
  have hdt' : (P.dt : ℂ) ≠ 0 := by exact_mod_cast hdt
  refine ⟨_, _, rfl, mixNoise_single (by unfold noiseStep; rfl), fun k => ?_⟩
  unfold fft_ ifft_
  have : ∀ X : Signal n, (fun i => x i + (0 + npIfft X i / (P.dt : ℂ)) - x i) = fun i => (1 / (P.dt : ℂ)) * npIfft X i := fun X => by funext i; ring
  rw [this, npFft_smul, npFft_npIfft]
  simp only [filteredDraw]
  push_cast
  field_simp

/-- A source behind a filter that lets the first two bins pass. -/
example : ∃ s y, sampleNoise demoProp (some (fun k => if k.val < 2 then 1 else 0)) (.shot 1 1) (fun i => if i = 0 then 1 else 0) (fun _ => 0) = .ok s ∧
    mixNoise demoProp [s] (fun _ => 1) = .ok y ∧ (NoiseForm.shot 1 1 : NoiseForm 4).scaled = true := by
  have hdt : demoProp.dt ≠ 0 := (dt_pos_grid (by norm_num) (by norm_num [demoProp])).ne'
  have hne : npMean (power_ (filteredDraw demoProp (some (fun k => if k.val < 2 then 1 else 0)) (fun i => if i = 0 then 1 else 0))) ≠ 0 := by
    intro h
    rw [npMean_power, div_eq_zero_iff] at h
    rcases h with h | h
    · have h3 := npFft_parseval (filteredDraw demoProp (some (fun k => if k.val < 2 then 1 else 0)) (fun i => if i = 0 then 1 else 0))
      have h4 : ∑ j, ‖filteredDraw demoProp (some (fun k => if k.val < 2 then 1 else 0)) (fun i => if i = 0 then 1 else 0) j‖ ^ 2 = 0 := h
      rw [h4, mul_zero] at h3
      have h5 := (sum_eq_zero_iff_of_nonneg (fun i _ => by positivity)).1 h3 0 (mem_univ _)
      rw [fft_filteredDraw hdt, npFft_ker] at h5
      simp at h5
      exact absurd h5 (ker_ne_zero _ _ _)
    · norm_num at h
  exact ⟨_, _, rfl, mixNoise_single (by unfold noiseStep; dsimp only; rw [if_neg hne]), rfl⟩

example : (2 : ℕ) ≤ 4 ∧ 4 % 2 = 0 ∧ 0 < demoProp.window ∧ demoProp.dt ≠ 0 :=
  ⟨by norm_num, rfl, by norm_num [demoProp], (dt_pos_grid (by norm_num) (by norm_num [demoProp])).ne'⟩

/-! Cases of the theorems above. -/

example := C66_linewidth_spectrum (n := 4) (by norm_num) (by norm_num) (P := demoProp) (by norm_num [demoProp]) none (w := 10 ^ 5) (by norm_num) (fun _ => 1) (fun i => i.val)
example (s : Sampled 4) (y : Signal 4)
    (hs : sampleNoise demoProp (some (fun k => if k.val < 2 then 1 else 0)) (.shot 1 1) (fun i => if i = 0 then 1 else 0) (fun _ => 0) = .ok s)
    (hy : mixNoise demoProp [s] (fun _ => 1) = .ok y) :=
  C66_filtered (dt_pos_grid (by norm_num) (by norm_num [demoProp])).ne' _ (form := .shot 1 1) rfl (fun v hv => by cases hv) _ _ hs hy
example := C66_ase (P := demoProp) (dt_pos_grid (by norm_num) (by norm_num [demoProp])).ne' (fun k => k.val) (fun _ => 1) (fun _ => 0) (fun _ => 2)

end Verif
