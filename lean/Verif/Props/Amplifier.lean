import Verif.Lemmas.Components
/-!
# The optical amplifier (C61)
-/

namespace Verif
open Complex Finset

variable {n : Nat}

theorem log_flat {x : ℝ} : Real.log ((10 : ℝ) ^ (x / 10)) = x / 10 * Real.log 10 := Real.log_rpow (by norm_num) _

theorem log_ten_pos : 0 < Real.log 10 := Real.log_pos (by norm_num)

theorem Edfa.smallSignal_pos (E : Edfa) (P : Prop_ n) (k : Fin n) : 0 < E.smallSignal P k := by
  unfold Edfa.smallSignal
  have : (0 : ℝ) < (10 : ℝ) ^ (E.gainDb / 10) := by positivity
  simp only
  split
  · linarith
  · exact mul_pos this (Real.exp_pos _)

/-- **C61.** The small-signal gain of an amplifier (flatness not negative, peak above the lower band edge): positive, never above the nominal gain, and
within the gain flatness of the nominal gain for every frequency no further from the peak than the far band edge. -/
theorem C61_small_signal (E : Edfa) (P : Prop_ n) (k : Fin n) (hfl : 0 ≤ E.flatnessDb)
    (hlo : 0 < E.bandLower) (h1 : E.bandLower < E.peakWl) :
    0 < E.smallSignal P k ∧ E.smallSignal P k ≤ (10 : ℝ) ^ (E.gainDb / 10) ∧
    (|ifftShift P.f k + P.central - lightSpeed / E.peakWl| ≤
        max (lightSpeed / E.peakWl - lightSpeed / E.bandUpper) (lightSpeed / E.bandLower - lightSpeed / E.peakWl) →
      (10 : ℝ) ^ ((E.gainDb - E.flatnessDb) / 10) ≤ E.smallSignal P k) := by
  refine ⟨E.smallSignal_pos P k, ?_⟩
  have hg : (0 : ℝ) < (10 : ℝ) ^ (E.gainDb / 10) := by positivity
  unfold Edfa.smallSignal
  simp only
  split
  · refine ⟨by linarith, fun _ => ?_⟩
    rw [one_mul]; exact Real.rpow_le_rpow_of_exponent_le (by norm_num) (by linarith)
  rename_i hf
  rw [abs_of_nonneg hfl, not_le] at hf
  have hfl' : 0 < E.flatnessDb := lt_trans (by norm_num) hf
  have hc : 0 < lightSpeed := by norm_num [lightSpeed]
  set c := lightSpeed / E.peakWl
  set d := max (c - lightSpeed / E.bandUpper) (lightSpeed / E.bandLower - c) with hd
  have hdpos : 0 < d := lt_of_lt_of_le (sub_pos.2 (div_lt_div_of_pos_left hc hlo h1)) (le_max_right _ _)
  have hlog : 0 < Real.log ((10 : ℝ) ^ (E.flatnessDb / 10)) := by
    rw [log_flat]; exact mul_pos (by linarith) log_ten_pos
  set L := Real.log ((10 : ℝ) ^ (E.flatnessDb / 10)) with hL
  set f := ifftShift P.f k + P.central - c with hf'
  have he : -1 * f ^ 2 / (d ^ 2 / L) = -(f ^ 2 / d ^ 2 * L) := by field_simp
  rw [he]
  refine ⟨?_, fun hfd => ?_⟩
  · have : Real.exp (-(f ^ 2 / d ^ 2 * L)) ≤ 1 := Real.exp_le_one_iff.2 (neg_nonpos.2 (by positivity))
    nlinarith
  · have hr : f ^ 2 / d ^ 2 ≤ 1 := by
      rw [div_le_one (by positivity), ← sq_abs f]
      exact pow_le_pow_left₀ (abs_nonneg _) hfd 2
    have h3 : Real.exp (-L) ≤ Real.exp (-(f ^ 2 / d ^ 2 * L)) := Real.exp_le_exp.2 (by nlinarith)
    have h4 : Real.exp (-L) = (10 : ℝ) ^ (-E.flatnessDb / 10) := by
      rw [hL, Real.exp_neg, Real.exp_log (by positivity), neg_div, Real.rpow_neg (by norm_num)]
    have h5 : (10 : ℝ) ^ ((E.gainDb - E.flatnessDb) / 10) = (10 : ℝ) ^ (E.gainDb / 10) * (10 : ℝ) ^ (-E.flatnessDb / 10) := by
      rw [← Real.rpow_add (by norm_num)]; congr 1; ring
    rw [h5, ← h4]
    exact mul_le_mul_of_nonneg_left h3 hg.le

theorem npMean_power_eq (x : Signal n) : npMean (power_ x) = energy x / n := rfl

theorem npMean_power_nonneg (x : Signal n) : 0 ≤ npMean (power_ x) :=
  div_nonneg (energy_nonneg x) (Nat.cast_nonneg _)

/-- Saturation: `u / (1 + u^alpha) ≤ 1` for `alpha ≥ 1`. -/
theorem saturate_le {u α : ℝ} (hu : 0 ≤ u) (ha : 1 ≤ α) : u ≤ 1 + u ^ α := by
  rcases le_total u 1 with h | h
  · have : 0 ≤ u ^ α := Real.rpow_nonneg hu _
    linarith
  · have : u ^ (1 : ℝ) ≤ u ^ α := Real.rpow_le_rpow_of_exponent_le h ha
    rw [Real.rpow_one] at this
    linarith

theorem Edfa.denom_ge (E : Edfa) (P : Prop_ n) (x : Signal n) (k : Fin n) (hp : 0 < E.pOutMax) :
    1 ≤ 1 + (E.smallSignal P k * npMean (power_ x) / E.pOutMax) ^ E.alpha := by
  have : 0 ≤ (E.smallSignal P k * npMean (power_ x) / E.pOutMax) ^ E.alpha :=
    Real.rpow_nonneg (div_nonneg (mul_nonneg (E.smallSignal_pos P k).le (npMean_power_nonneg x)) hp.le) _
  linarith

theorem Edfa.energy_propagate (E : Edfa) (hn : 2 ≤ n) {P : Prop_ n} (hw : 0 < P.window) (x : Signal n) {c : ℝ}
    (hp : 0 < E.pOutMax) (hc : ∀ k, E.gain P x k ≤ c) : energy (E.propagate P x) ≤ c * energy x := by
  have hd := dt_ne_zero hn hw
  have hg : ∀ k, 0 < E.gain P x k := fun k => div_pos (E.smallSignal_pos P k) (lt_of_lt_of_le one_pos (E.denom_ge P x k hp))
  have hc0 : 0 ≤ c := (hg ⟨0, by omega⟩).le.trans (hc _)
  have := energy_freqMul_le hd (c := Real.sqrt c) (H := fun k => (Real.sqrt (E.gain P x k) : ℂ)) (fun k => by
    rw [Complex.norm_real, Real.norm_of_nonneg (Real.sqrt_nonneg _)]; exact Real.sqrt_le_sqrt (hc k)) x
  rw [Real.sq_sqrt hc0] at this
  exact this

/-- **C61.** For every input: the gain at each frequency is positive and at most the small-signal gain, so the energy grows at most by the nominal gain; and for
`alpha ≥ 1` the mean output power never exceeds `P_out_max`. -/
theorem C61_output_limit (E : Edfa) (hn : 2 ≤ n) {P : Prop_ n} (hw : 0 < P.window) (x : Signal n) (hp : 0 < E.pOutMax) :
    (∀ k, 0 < E.gain P x k ∧ E.gain P x k ≤ E.smallSignal P k) ∧
    (1 ≤ E.alpha → npMean (power_ (E.propagate P x)) ≤ E.pOutMax) := by
  have hn' : (0 : ℝ) < n := by exact_mod_cast (by omega : 0 < n)
  refine ⟨fun k => ⟨div_pos (E.smallSignal_pos P k) (lt_of_lt_of_le one_pos (E.denom_ge P x k hp)),
    div_le_self (E.smallSignal_pos P k).le (E.denom_ge P x k hp)⟩, fun ha => ?_⟩
  rcases eq_or_lt_of_le (npMean_power_nonneg x) with h0 | h0
  · have hx : energy x = 0 := by
      rw [npMean_power_eq, eq_comm, div_eq_zero_iff] at h0
      exact h0.resolve_right hn'.ne'
    have := E.energy_propagate hn hw x hp (c := ∑ k, E.gain P x k) (fun k => single_le_sum (f := fun k => E.gain P x k)
      (fun i _ => (div_pos (E.smallSignal_pos P i) (lt_of_lt_of_le one_pos (E.denom_ge P x i hp))).le) (mem_univ k))
    rw [hx, mul_zero] at this
    rw [npMean_power_eq]
    exact (div_nonpos_of_nonpos_of_nonneg this hn'.le).trans hp.le
  · have hk : ∀ k, E.gain P x k ≤ E.pOutMax / npMean (power_ x) := fun k => by
      have hs := E.smallSignal_pos P k
      have hu : 0 ≤ E.smallSignal P k * npMean (power_ x) / E.pOutMax := by positivity
      have := saturate_le hu ha
      unfold Edfa.gain
      rw [div_le_div_iff₀ (lt_of_lt_of_le one_pos (E.denom_ge P x k hp)) h0, ← div_le_iff₀' hp]
      exact this
    have := E.energy_propagate hn hw x hp hk
    rw [npMean_power_eq]
    rw [npMean_power_eq] at this h0
    rw [div_le_iff₀ hn']
    have hx : 0 < energy x := by
      rcases eq_or_lt_of_le (energy_nonneg x) with h | h
      · rw [← h, zero_div] at h0; exact absurd h0 (lt_irrefl _)
      · exact h
    calc energy (E.propagate P x) ≤ E.pOutMax / (energy x / n) * energy x := this
      _ = E.pOutMax * n := by field_simp

/-- **C61, finding.** For `0 ≤ alpha < 1` (inside the bounds `[0, 1.5]` of the parameter) the amplifier does not saturate: with flat gain, for every level `M`
some constant input gives a mean output power above `M`, whatever `P_out_max` is. -/
theorem C61_no_saturation (E : Edfa) (hn : 2 ≤ n) {P : Prop_ n} (hw : 0 < P.window) (hp : 0 < E.pOutMax)
    (hflat : E.flatnessDb = 0) (ha : E.alpha < 1) (ha0 : 0 ≤ E.alpha) (M : ℝ) :
    ∃ a : ℝ, M < npMean (power_ (E.propagate P (fun _ => (a : ℂ)))) := by
  have hd := dt_ne_zero hn hw
  have hn' : (0 : ℝ) < n := by exact_mod_cast (by omega : 0 < n)
  set g := (10 : ℝ) ^ (E.gainDb / 10) with hg
  have hgp : 0 < g := by positivity
  have hss : ∀ k, E.smallSignal P k = g := fun k => by unfold Edfa.smallSignal; simp [hflat, hg]
  set B := 2 * max 1 (M / E.pOutMax + 1) with hB
  have hB1 : 1 ≤ B := by have := le_max_left 1 (M / E.pOutMax + 1); linarith
  set u := B ^ (1 / (1 - E.alpha)) with hu
  have hu1 : 1 ≤ u := Real.one_le_rpow hB1 (by apply div_nonneg <;> linarith)
  have hup : 0 < u := by linarith
  have hub : u ^ (1 - E.alpha) = B := by
    rw [hu, ← Real.rpow_mul (by linarith), one_div, inv_mul_cancel₀ (by linarith), Real.rpow_one]
  have hsq : 0 ≤ u * E.pOutMax / g := by positivity
  refine ⟨Real.sqrt (u * E.pOutMax / g), ?_⟩
  set a := Real.sqrt (u * E.pOutMax / g) with ha'
  have hpow : power_ (fun _ : Fin n => (a : ℂ)) = fun _ => u * E.pOutMax / g := by
    funext i; unfold power_; rw [Complex.norm_real, Real.norm_of_nonneg (Real.sqrt_nonneg _), Real.sq_sqrt hsq]
  have hmean : npMean (power_ (fun _ : Fin n => (a : ℂ))) = u * E.pOutMax / g := by
    rw [hpow]; unfold npMean; rw [sum_const, card_univ, Fintype.card_fin, nsmul_eq_mul]; field_simp
  have hgain : ∀ k, E.gain P (fun _ => (a : ℂ)) k = g / (1 + u ^ E.alpha) := fun k => by
    unfold Edfa.gain; rw [hss, hmean]
    congr 3; field_simp
  have hG : 0 ≤ g / (1 + u ^ E.alpha) := by positivity
  have hen : energy (E.propagate P (fun _ => (a : ℂ))) = g / (1 + u ^ E.alpha) * energy (fun _ : Fin n => (a : ℂ)) := by
    have := energy_freqMul_eq hd (c := Real.sqrt (g / (1 + u ^ E.alpha)))
      (H := fun k => (Real.sqrt (E.gain P (fun _ => (a : ℂ)) k) : ℂ)) (fun k => by
        rw [hgain, Complex.norm_real, Real.norm_of_nonneg (Real.sqrt_nonneg _)]) (fun _ => (a : ℂ))
    rw [Real.sq_sqrt hG] at this
    exact this
  rw [npMean_power_eq, hen, mul_div_assoc, ← npMean_power_eq, hmean]
  have hua : 0 < u ^ E.alpha := by positivity
  have hua1 : 1 ≤ u ^ E.alpha := Real.one_le_rpow hu1 ha0
  have hsplit : u = u ^ (1 - E.alpha) * u ^ E.alpha := by rw [← Real.rpow_add hup]; simp
  have e : g / (1 + u ^ E.alpha) * (u * E.pOutMax / g) = u / (1 + u ^ E.alpha) * E.pOutMax := by field_simp
  rw [e]
  have hge : B / 2 ≤ u / (1 + u ^ E.alpha) := by
    rw [div_le_div_iff₀ (by norm_num) (by linarith)]
    have : u = B * u ^ E.alpha := by rw [← hub]; exact hsplit
    nlinarith
  have h1 : M / E.pOutMax + 1 ≤ B / 2 := by have := le_max_right 1 (M / E.pOutMax + 1); rw [hB]; linarith
  have h2 : M / E.pOutMax < u / (1 + u ^ E.alpha) := by linarith
  rwa [div_lt_iff₀ hp] at h2

/-- The default parameters meet the hypotheses of the first two theorems; with `alpha = 1/2` and zero flatness those of the third. -/
noncomputable def demoEdfa (alpha flat : ℝ) : Edfa := ⟨30, 1550 / 10 ^ 9, 1520 / 10 ^ 9, 1565 / 10 ^ 9, 1 / 100, 1 / 10, flat, alpha, 5⟩
example : let E := demoEdfa 1 (3 / 2); 0 ≤ E.flatnessDb ∧ 0 < E.bandLower ∧ E.bandLower < E.peakWl ∧
    0 < E.pOutMax ∧ 1 ≤ E.alpha := by norm_num [demoEdfa]
example : let E := demoEdfa (1 / 2) 0; 0 < E.pOutMax ∧ E.flatnessDb = 0 ∧ E.alpha < 1 ∧ 0 ≤ E.alpha := by norm_num [demoEdfa]

example (k : Fin 4) := C61_small_signal (demoEdfa 1 (3 / 2)) demoProp k (by norm_num [demoEdfa]) (by norm_num [demoEdfa]) (by norm_num [demoEdfa])
example (x : Signal 4) := C61_output_limit (demoEdfa 1 (3 / 2)) (by norm_num) (P := demoProp) (by norm_num [demoProp]) x (by norm_num [demoEdfa])
example := C61_no_saturation (demoEdfa (1 / 2) 0) (by norm_num) (P := demoProp) (by norm_num [demoProp]) (by norm_num [demoEdfa]) rfl (by norm_num [demoEdfa])
  (by norm_num [demoEdfa]) 1000

end Verif
