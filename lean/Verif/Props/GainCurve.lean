import Verif.Model.GainCurve
import Verif.Props.Amplifier
/-!
# C118: the gain curve of an amplifier
-/

namespace Verif

variable {n : Nat}

/-- **C118 (same).** The gain curve is the gain the amplifier has for weak signals: at every frequency of the grid, unless the flatness is below 1e-12 dB but not
zero. -/
theorem C118_same (E : Edfa) (P : Prop_ n) (k : Fin n) (h : E.flatnessDb = 0 ∨ 1 / 10 ^ 12 < |E.flatnessDb|) :
    edfaGainAt E.peakWl (ifftShift P.f k + P.central) E.bandUpper E.bandLower E.flatnessDb E.gainDb = E.smallSignal P k := by
  unfold edfaGainAt Edfa.smallSignal
  dsimp only
  rcases h with h | h
  · rw [h, if_pos (by norm_num)]
    norm_num
  · rw [if_neg (not_le.mpr h)]

/-- The default amplifier. -/
example (P : Prop_ n) (k : Fin n) := C118_same ⟨30, 1550 / 10 ^ 9, 1520 / 10 ^ 9, 1565 / 10 ^ 9, 1 / 100, 1 / 10, 3 / 2, 1, 5⟩ P k (Or.inr (by norm_num [abs_of_pos]))

/-- The exponent of the curve. -/
theorem edfaGainAt_eq {peakWl f bandUpper bandLower flat g d : ℝ} (hd : max (lightSpeed / peakWl - lightSpeed / bandUpper) (lightSpeed / bandLower - lightSpeed / peakWl) = d) :
    edfaGainAt peakWl f bandUpper bandLower flat g = (10 : ℝ) ^ ((g - (f - lightSpeed / peakWl) ^ 2 / d ^ 2 * flat) / 10) := by
  unfold edfaGainAt
  dsimp only
  rw [hd, log_flat, show (g - (f - lightSpeed / peakWl) ^ 2 / d ^ 2 * flat) / 10 = g / 10 + -((f - lightSpeed / peakWl) ^ 2 / d ^ 2 * flat / 10) by ring,
    Real.rpow_add (by norm_num)]
  congr 1
  rw [Real.rpow_def_of_pos (by norm_num)]
  congr 1
  rw [div_div_eq_mul_div]
  ring

/-- **C118 (decibels).** The curve in decibels is a parabola over the frequency: the peak gain at the peak wavelength, and less by the flatness at the edge of the band
that is further away in frequency. -/
theorem C118_edges {peakWl bandUpper bandLower : ℝ} (h1 : 0 < bandLower) (h2 : bandLower < peakWl) (h3 : peakWl < bandUpper) (flat g : ℝ) :
    edfaGainAt peakWl (lightSpeed / peakWl) bandUpper bandLower flat g = (10 : ℝ) ^ (g / 10) ∧
      (1 / peakWl - 1 / bandUpper ≤ 1 / bandLower - 1 / peakWl →
        edfaGainAt peakWl (lightSpeed / bandLower) bandUpper bandLower flat g = (10 : ℝ) ^ ((g - flat) / 10)) ∧
      (1 / bandLower - 1 / peakWl ≤ 1 / peakWl - 1 / bandUpper →
        edfaGainAt peakWl (lightSpeed / bandUpper) bandUpper bandLower flat g = (10 : ℝ) ^ ((g - flat) / 10)) := by
  have hc : 0 < lightSpeed := by norm_num [lightSpeed]
  have hp : 0 < peakWl := h1.trans h2
  have k1 : lightSpeed / peakWl < lightSpeed / bandLower := div_lt_div_of_pos_left hc h1 h2
  have k2 : lightSpeed / bandUpper < lightSpeed / peakWl := div_lt_div_of_pos_left hc hp h3
  refine ⟨?_, fun h => ?_, fun h => ?_⟩
  · rw [edfaGainAt_eq rfl]
    simp
  · have hm : max (lightSpeed / peakWl - lightSpeed / bandUpper) (lightSpeed / bandLower - lightSpeed / peakWl) = lightSpeed / bandLower - lightSpeed / peakWl := by
      apply max_eq_right
      have := mul_le_mul_of_nonneg_left h hc.le
      simp only [mul_sub, mul_one_div] at this
      exact this
    rw [edfaGainAt_eq hm, div_self (pow_ne_zero _ (by linarith)), one_mul]
  · have hm : max (lightSpeed / peakWl - lightSpeed / bandUpper) (lightSpeed / bandLower - lightSpeed / peakWl) = lightSpeed / peakWl - lightSpeed / bandUpper := by
      apply max_eq_left
      have := mul_le_mul_of_nonneg_left h hc.le
      simp only [mul_sub, mul_one_div] at this
      exact this
    rw [edfaGainAt_eq hm]
    rw [show (lightSpeed / bandUpper - lightSpeed / peakWl) ^ 2 = (lightSpeed / peakWl - lightSpeed / bandUpper) ^ 2 by ring,
      div_self (pow_ne_zero _ (by linarith)), one_mul]

/-- The default amplifier: 28.5 dB at 1520 nm, the lower edge of its band. -/
example : edfaGainAt (1550 / 10 ^ 9) (lightSpeed / (1520 / 10 ^ 9)) (1565 / 10 ^ 9) (1520 / 10 ^ 9) (3 / 2) 30 = (10 : ℝ) ^ (((30 : ℝ) - 3 / 2) / 10) :=
  (C118_edges (by norm_num) (by norm_num) (by norm_num) _ _).2.1 (by norm_num)

/-- **C118 (falls).** The further a frequency is from the peak, the less the gain. -/
theorem C118_falls {peakWl bandUpper bandLower flat g f f' : ℝ} (h1 : 0 < bandLower) (h2 : bandLower < peakWl) (hf : 0 < flat)
    (h : |f - lightSpeed / peakWl| < |f' - lightSpeed / peakWl|) :
    edfaGainAt peakWl f' bandUpper bandLower flat g < edfaGainAt peakWl f bandUpper bandLower flat g := by
  have hc : 0 < lightSpeed := by norm_num [lightSpeed]
  have k1 : lightSpeed / peakWl < lightSpeed / bandLower := div_lt_div_of_pos_left hc h1 h2
  have hd : 0 < max (lightSpeed / peakWl - lightSpeed / bandUpper) (lightSpeed / bandLower - lightSpeed / peakWl) :=
    lt_of_lt_of_le (by linarith) (le_max_right _ _)
  rw [edfaGainAt_eq rfl, edfaGainAt_eq rfl]
  apply Real.rpow_lt_rpow_of_exponent_lt (by norm_num)
  have hs : (f - lightSpeed / peakWl) ^ 2 < (f' - lightSpeed / peakWl) ^ 2 := sq_lt_sq.mpr h
  have := mul_lt_mul_of_pos_right (div_lt_div_of_pos_right hs (pow_pos hd 2)) hf
  linarith

/-- Ten THz from the peak is less gain than five THz. -/
example := C118_falls (peakWl := 1550 / 10 ^ 9) (bandUpper := 1565 / 10 ^ 9) (bandLower := 1520 / 10 ^ 9) (flat := 3 / 2) (g := 30)
  (f := lightSpeed / (1550 / 10 ^ 9) + 5 * 10 ^ 12) (f' := lightSpeed / (1550 / 10 ^ 9) - 10 * 10 ^ 12) (by norm_num) (by norm_num) (by norm_num) (by
    rw [add_sub_cancel_left, sub_sub_cancel_left, abs_neg, abs_of_pos (by norm_num), abs_of_pos (by norm_num)]; norm_num)

/-- **C118 (display).** No amplifier can be displayed: the edges of its band are floats, for which `range` is a `TypeError`. -/
theorem C118_display (E : Edfa) : E.display = .error .typeError := rfl

/-- With edges that are integers the function would draw one point for each nanometre. -/
example : (displayGain 30 (1550 / 10 ^ 9) (3 / 2) (.int 1520) (.int 1565)).map List.length = .ok 45 := by
  simp only [displayGain, rangeOf, Except.map, List.length_map]
  rfl

end Verif
