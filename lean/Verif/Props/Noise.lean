import Verif.Model.Noise
import Verif.Props.Filter
/-!
# Noise power (C66)
-/

namespace Verif
open Complex Finset

variable {n : Nat}

theorem npMean_power (x : Signal n) : npMean (power_ x) = energy x / n := rfl

theorem energy_pos_of_ne {x : Signal n} {i : Fin n} (h : x i ≠ 0) : 0 < energy x :=
  sum_pos' (fun _ _ => by positivity) ⟨i, mem_univ _, by have := norm_pos_iff.2 h; positivity⟩

theorem energy_smul_real (c : ℝ) (x : Signal n) : energy (fun i => x i * (c : ℂ)) = c ^ 2 * energy x := by
  unfold energy
  rw [mul_sum]
  exact sum_congr rfl (fun i _ => by rw [norm_mul, Complex.norm_real, mul_pow, Real.norm_eq_abs, sq_abs]; ring)

/-- Sampling keeps form and mask, and stores the mean power. -/
theorem sampleNoise_eq {P : Prop_ n} {mask : Option (Signal n)} {form : NoiseForm n} {g : Signal n} {r : Fin n → ℝ} {s : Sampled n}
    (h : sampleNoise P mask form g r = .ok s) :
    s.form = form ∧ s.mask = mask ∧ noiseVector P mask form g r = .ok s.vec ∧ s.meanPower = energy s.vec / n := by
  unfold sampleNoise at h
  split at h
  · cases h
  · rename_i v hv
    cases h
    exact ⟨rfl, rfl, hv, rfl⟩

theorem mixNoise_single {P : Prop_ n} {s : Sampled n} {x a b : Signal n} (h : noiseStep P (npMean (power_ x)) (x, fun _ => 0) s = .ok (a, b)) :
    mixNoise P [s] x = .ok (fun i => a i + b i) := by
  unfold mixNoise noiseLoop
  rw [h]; rfl

/-- **C66.** A noise source of type `osnr` reaches its optical signal-to-noise ratio exactly, in dB, for every signal and whatever was drawn
(unless signal or drawn noise vanish). -/
theorem C66_osnr (P : Prop_ n) (mask : Option (Signal n)) (dB : ℝ) (g : Signal n) (r : Fin n → ℝ) {s : Sampled n}
    (hs : sampleNoise P mask (.osnr (osnrRatio dB)) g r = .ok s) (hv : ∃ i, s.vec i ≠ 0) (x : Signal n) (hx : ∃ i, x i ≠ 0) :
    ∃ y, mixNoise P [s] x = .ok y ∧ 10 * Real.logb 10 (energy x / energy (fun i => y i - x i)) = dB ∧
      getOsnr x (fun i => y i - x i) = dB := by
  obtain ⟨hf, _, _, hm⟩ := sampleNoise_eq hs
  obtain ⟨i0, h0⟩ := hv
  obtain ⟨i1, h1⟩ := hx
  have hn : (0 : ℝ) < n := by exact_mod_cast Nat.lt_of_le_of_lt (Nat.zero_le _) i0.isLt
  have hev := energy_pos_of_ne h0
  have hex := energy_pos_of_ne h1
  have hr : 0 < osnrRatio dB := Real.rpow_pos_of_pos (by norm_num) _
  have hm0 : s.meanPower ≠ 0 := by rw [hm]; positivity
  have hst : noiseStep P (npMean (power_ x)) (x, fun _ => 0) s =
      .ok (x, fun i => 0 + s.vec i * (Real.sqrt (npMean (power_ x) / s.meanPower / osnrRatio dB) : ℂ)) := by
    unfold noiseStep
    rw [hf]; simp only
    rw [if_neg (by push Not; exact ⟨hm0, hr.ne'⟩)]
  have he : energy (fun i => (x i + (0 + s.vec i * (Real.sqrt (npMean (power_ x) / s.meanPower / osnrRatio dB) : ℂ))) - x i) = energy x / osnrRatio dB := by
    have : (fun i => (x i + (0 + s.vec i * (Real.sqrt (npMean (power_ x) / s.meanPower / osnrRatio dB) : ℂ))) - x i) =
        fun i => s.vec i * (Real.sqrt (npMean (power_ x) / s.meanPower / osnrRatio dB) : ℂ) := by funext i; ring
    rw [this, energy_smul_real, Real.sq_sqrt (by rw [npMean_power, hm]; positivity), npMean_power, hm]
    field_simp
  have hlog : 10 * Real.logb 10 (energy x / (energy x / osnrRatio dB)) = dB := by
    rw [div_div_cancel₀ hex.ne']
    unfold osnrRatio
    rw [Real.logb_rpow (by norm_num) (by norm_num)]; ring
  refine ⟨_, mixNoise_single hst, by rw [he]; exact hlog, ?_⟩
  unfold getOsnr
  rw [npMean_power (fun i => _ - x i), he, npMean_power, div_div_div_cancel_right₀ hn.ne']
  exact hlog

/-- **C66.** Noise of type `absolute power` has exactly the mean power asked for, of type `rms` exactly the root mean square asked for, whatever was drawn,
and does not depend on the signal. -/
theorem C66_absolute (P : Prop_ n) (mask : Option (Signal n)) (g : Signal n) (r : Fin n → ℝ) {s : Sampled n} (x : Signal n) :
    (∀ w, 0 ≤ w → sampleNoise P mask (.absolutePower w) g r = .ok s →
      ∃ y, mixNoise P [s] x = .ok y ∧ energy (fun i => y i - x i) = n * w ∧ ∀ i, y i - x i = s.vec i) ∧
    (∀ v, sampleNoise P mask (.rms v) g r = .ok s →
      ∃ y, mixNoise P [s] x = .ok y ∧ energy (fun i => y i - x i) = n * v ^ 2 ∧ ∀ i, y i - x i = s.vec i) := by
  have key : ∀ c : ℝ, ∀ z : Signal n, npMean (power_ z) ≠ 0 → (∀ i, s.vec i = z i * (c : ℂ)) →
      energy s.vec = n * (c ^ 2 * npMean (power_ z)) := fun c z hz h => by
    have hn : (n : ℝ) ≠ 0 := by rintro h0; apply hz; rw [npMean_power, h0, div_zero]
    rw [show s.vec = fun i => z i * (c : ℂ) from funext h, energy_smul_real, npMean_power]; field_simp
  have hsub : ∀ y : Signal n, (∀ i, y i = x i + (0 + s.vec i)) → energy (fun i => y i - x i) = energy s.vec ∧ ∀ i, y i - x i = s.vec i := fun y h => by
    have : ∀ i, y i - x i = s.vec i := fun i => by rw [h]; ring
    exact ⟨by rw [show (fun i => y i - x i) = s.vec from funext this], this⟩
  constructor
  · intro w hw hs
    obtain ⟨hf, _, hv, _⟩ := sampleNoise_eq hs
    have hst : noiseStep P (npMean (power_ x)) (x, fun _ => 0) s = .ok (x, fun i => 0 + s.vec i) := by unfold noiseStep; rw [hf]
    refine ⟨_, mixNoise_single hst, ?_, (hsub _ (fun i => rfl)).2⟩
    rw [(hsub _ (fun i => rfl)).1]
    unfold noiseVector at hv
    simp only at hv
    split at hv
    · cases hv
    · rename_i h0
      have e := Except.ok.inj hv
      rw [key _ _ h0 (fun i => by rw [← e]), Real.sq_sqrt, div_mul_cancel₀ _ h0]
      exact div_nonneg hw (div_nonneg (energy_nonneg _) (by positivity))
  · intro v hs
    obtain ⟨hf, _, hv, _⟩ := sampleNoise_eq hs
    have hst : noiseStep P (npMean (power_ x)) (x, fun _ => 0) s = .ok (x, fun i => 0 + s.vec i) := by unfold noiseStep; rw [hf]
    refine ⟨_, mixNoise_single hst, ?_, (hsub _ (fun i => rfl)).2⟩
    rw [(hsub _ (fun i => rfl)).1]
    unfold noiseVector at hv
    simp only at hv
    split at hv
    · cases hv
    · rename_i h0
      have e := Except.ok.inj hv
      rw [key _ _ h0 (fun i => by rw [← e]), div_pow, Real.sq_sqrt, div_mul_cancel₀ _ h0]
      exact div_nonneg (energy_nonneg _) (by positivity)

/-- **C66.** Shot noise has mean power `(slope * mean amplitude + intercept) * bandwidth`, the bandwidth being that of the filter (sum of its transmission
times `df`) or of the whole grid; it grows with the signal. -/
theorem C66_shot (P : Prop_ n) (mask : Option (Signal n)) {slope intercept : ℝ} (h1 : 0 ≤ slope) (h2 : 0 ≤ intercept) (hdf : 0 ≤ P.df) (g : Signal n)
    (r : Fin n → ℝ) {s : Sampled n} (hs : sampleNoise P mask (.shot slope intercept) g r = .ok s) (hv : ∃ i, s.vec i ≠ 0) (x : Signal n) :
    ∃ y, mixNoise P [s] x = .ok y ∧ energy (fun i => y i - x i) =
      n * ((slope * ((∑ i, ‖x i‖) / n) + intercept) * (mask.elim (n : ℝ) (fun H => ∑ k, ‖H k‖) * P.df)) := by
  obtain ⟨hf, hma, _, _⟩ := sampleNoise_eq hs
  obtain ⟨i0, h0⟩ := hv
  have hn : (0 : ℝ) < n := by exact_mod_cast Nat.lt_of_le_of_lt (Nat.zero_le _) i0.isLt
  have hev := energy_pos_of_ne h0
  have hm0 : npMean (power_ s.vec) ≠ 0 := by rw [npMean_power]; positivity
  set bw : ℝ := mask.elim (n : ℝ) (fun H => ∑ k, ‖H k‖) * P.df with hbw
  have hbw0 : 0 ≤ bw := by
    rw [hbw]
    refine mul_nonneg ?_ hdf
    cases mask with
    | none => simp
    | some H => exact sum_nonneg (fun _ _ => norm_nonneg _)
  set target : ℝ := (slope * ((∑ i, ‖x i‖) / n) + intercept) * bw with ht
  have ht0 : 0 ≤ target := by
    have : 0 ≤ (∑ i, ‖x i‖) / n := div_nonneg (sum_nonneg (fun _ _ => norm_nonneg _)) hn.le
    rw [ht]; positivity
  have hst : noiseStep P (npMean (power_ x)) (x, fun _ => 0) s =
      .ok (x, fun i => 0 + (Real.sqrt (target / npMean (power_ s.vec)) : ℂ) * s.vec i) := by
    unfold noiseStep
    rw [hf]; simp only
    rw [if_neg hm0, hma, show noiseBandwidth P mask = bw by rw [hbw]; cases mask <;> rfl]
    rfl
  refine ⟨_, mixNoise_single hst, ?_⟩
  have : (fun i => (x i + (0 + (Real.sqrt (target / npMean (power_ s.vec)) : ℂ) * s.vec i)) - x i) =
      fun i => s.vec i * (Real.sqrt (target / npMean (power_ s.vec)) : ℂ) := by funext i; ring
  rw [this, energy_smul_real, Real.sq_sqrt (div_nonneg ht0 (by rw [npMean_power]; exact div_nonneg (energy_nonneg _) hn.le)), npMean_power]
  field_simp

/-- An even grid avoids frequency zero, an odd one has it in its middle. -/
theorem exists_f_zero (hn : 2 ≤ n) {P : Prop_ n} (hw : 0 < P.window) : (∃ k, P.f k = 0) ↔ n % 2 = 1 := by
  have h1 := two_le_cast hn
  have hn0 : (0 : ℝ) < n := by exact_mod_cast (by omega : 0 < n)
  have hf : ∀ j : Fin n, P.f j = P.df * ((j : ℝ) - ((n : ℝ) - 1) / 2) := fun j => by
    rw [(dt_df P).2]; unfold Prop_.f Prop_.linspace; field_simp; ring
  have hdf : P.df ≠ 0 := by
    rw [(dt_df P).2]; exact div_ne_zero (div_ne_zero hn0.ne' hw.ne') h1
  constructor
  · rintro ⟨k, hk⟩
    rw [hf] at hk
    have := (mul_eq_zero.1 hk).resolve_left hdf
    have e : (2 * (k : ℕ) + 1 : ℝ) = n := by linarith
    have : 2 * (k : ℕ) + 1 = n := by exact_mod_cast e
    omega
  · intro ho
    refine ⟨⟨n / 2, by omega⟩, ?_⟩
    rw [hf]
    have : (n : ℝ) = 2 * ((n / 2 : ℕ) : ℝ) + 1 := by exact_mod_cast (by omega : n = 2 * (n / 2) + 1)
    rw [mul_eq_zero]; right
    show ((n / 2 : ℕ) : ℝ) - _ = 0
    linarith

/-- **C66.** Laser linewidth on grids with an even number of samples: whatever was drawn, only the phase of the signal changes, its power at every instant stays. -/
theorem C66_linewidth (hn : 2 ≤ n) (he : n % 2 = 0) {P : Prop_ n} (hw : 0 < P.window) (mask : Option (Signal n)) (w : ℝ) (g : Signal n) (r : Fin n → ℝ) :
    ∃ s, sampleNoise P mask (.fwhm w) g r = .ok s ∧ ∀ x : Signal n, ∃ y, mixNoise P [s] x = .ok y ∧ ∀ i, ‖y i‖ = ‖x i‖ := by
  have hz : ¬ ∃ k, P.f k = 0 := by rw [exists_f_zero hn hw]; omega
  have hv : ∃ v, noiseVector P mask (.fwhm w) g r = .ok v ∧ ∀ i, ‖v i‖ = 1 := by
    unfold noiseVector linewidthPhase
    simp only
    by_cases h0 : w = 0
    · rw [if_pos h0]; exact ⟨_, rfl, fun i => by simp⟩
    · rw [if_neg h0, if_neg hz]; exact ⟨_, rfl, fun i => norm_expI _⟩
  obtain ⟨v, hv, h1⟩ := hv
  refine ⟨_, by unfold sampleNoise; rw [hv], fun x => ⟨_, mixNoise_single (by unfold noiseStep; rfl), fun i => ?_⟩⟩
  rw [add_zero, norm_mul, h1, mul_one]

/-- **C66, finding.** On grids with an odd number of samples every linewidth other than zero divides by the frequency zero, for lasers and for the phase noise of
modulators: the noise is `nan` everywhere. -/
theorem C66_linewidth_odd (hn : 2 ≤ n) (ho : n % 2 = 1) {P : Prop_ n} (hw : 0 < P.window) (mask : Option (Signal n)) {w : ℝ} (h0 : w ≠ 0) (g : Signal n) (r : Fin n → ℝ) :
    sampleNoise P mask (.fwhm w) g r = .error .zeroDivision ∧ sampleNoise P mask (.phase w) g r = .error .zeroDivision := by
  have hz : ∃ k, P.f k = 0 := (exists_f_zero hn hw).2 ho
  constructor <;>
  · unfold sampleNoise noiseVector linewidthPhase
    simp only
    rw [if_neg h0, if_pos hz]

/-! ### Several sources -/

/-- Does the source divide by zero? -/
def Bad (s : Sampled n) : Prop :=
  match s.form with
  | .osnr ratio => s.meanPower = 0 ∨ ratio = 0
  | .shot _ _ => npMean (power_ s.vec) = 0
  | _ => False

/-- The factor a source multiplies the signal with. -/
def phFactor (s : Sampled n) (i : Fin n) : ℂ :=
  match s.form with
  | .fwhm _ => s.vec i
  | _ => 1

/-- What a source adds to the signal `x`. -/
noncomputable def addend (P : Prop_ n) (x : Signal n) (s : Sampled n) : Signal n :=
  match noiseStep P (npMean (power_ x)) (x, fun _ => 0) s with
  | .ok st => st.2
  | .error _ => fun _ => 0

open Classical in
theorem noiseStep_eq (P : Prop_ n) (x : Signal n) (s : Sampled n) (a b : Signal n) (ha : ∀ i, ‖a i‖ = ‖x i‖) :
    noiseStep P (npMean (power_ x)) (a, b) s = if Bad s then .error .zeroDivision
      else .ok (fun i => a i * phFactor s i, fun i => b i + addend P x s i) := by
  unfold addend phFactor Bad noiseStep
  cases hf : s.form <;> simp only [if_false, mul_one]
  case osnr => split <;> simp
  case shot =>
    simp only [ha]
    by_cases h : npMean (power_ s.vec) = 0
    · rw [if_pos h, if_pos h]
    · simp [h]
  all_goals simp

open Classical in
theorem noiseLoop_eq (P : Prop_ n) (x : Signal n) (srcs : List (Sampled n)) (h1 : ∀ s ∈ srcs, ∀ i, ‖phFactor s i‖ = 1) (a b : Signal n)
    (ha : ∀ i, ‖a i‖ = ‖x i‖) :
    noiseLoop P (npMean (power_ x)) srcs (a, b) = if ∃ s ∈ srcs, Bad s then .error .zeroDivision
      else .ok (fun i => a i * (srcs.map (phFactor · i)).prod, fun i => b i + (srcs.map (addend P x · i)).sum) := by
  induction srcs generalizing a b with
  | nil => simp [noiseLoop]
  | cons s ss ih =>
    unfold noiseLoop
    rw [noiseStep_eq P x s a b ha]
    by_cases hb : Bad s
    · rw [if_pos hb, if_pos ⟨s, List.mem_cons_self, hb⟩]
    · rw [if_neg hb]
      simp only
      rw [ih (fun t ht => h1 t (List.mem_cons_of_mem _ ht)) _ _ (fun i => by rw [norm_mul, h1 s List.mem_cons_self, mul_one, ha])]
      have : (∃ t ∈ s :: ss, Bad t) ↔ ∃ t ∈ ss, Bad t := by simp [hb]
      simp only [this, List.map_cons, List.prod_cons, List.sum_cons, mul_assoc, add_assoc]

theorem phFactor_norm {P : Prop_ n} {mask : Option (Signal n)} {form : NoiseForm n} {g : Signal n} {r : Fin n → ℝ} {s : Sampled n}
    (h : sampleNoise P mask form g r = .ok s) (i : Fin n) : ‖phFactor s i‖ = 1 := by
  obtain ⟨hf, _, hv, _⟩ := sampleNoise_eq h
  unfold phFactor
  rw [hf]
  cases form <;> simp only [norm_one]
  case fwhm w =>
    unfold noiseVector at hv
    simp only at hv
    split at hv
    · rw [← Except.ok.inj hv]; simp
    · split at hv
      · cases hv
      · rw [← Except.ok.inj hv]; exact norm_expI _

/-- Is it a linewidth source (which multiplies instead of adding)? -/
def NoiseForm.isFwhm : NoiseForm n → Bool
  | .fwhm _ => true
  | _ => false

open Classical in
theorem mixNoise_eq (P : Prop_ n) (srcs : List (Sampled n)) (hs : ∀ s ∈ srcs, ∃ mask form g r, sampleNoise P mask form g r = .ok s) (x : Signal n) :
    mixNoise P srcs x = if ∃ s ∈ srcs, Bad s then .error .zeroDivision
      else .ok (fun i => x i * (srcs.map (phFactor · i)).prod + (0 + (srcs.map (addend P x · i)).sum)) := by
  unfold mixNoise
  rw [noiseLoop_eq P x srcs (fun s h i => by obtain ⟨_, _, _, _, e⟩ := hs s h; exact phFactor_norm e i) x _ (fun _ => rfl)]
  by_cases h : ∃ s ∈ srcs, Bad s
  · rw [if_pos h, if_pos h]
  · rw [if_neg h, if_neg h]

/-- **C66.** Several sources superpose: the linewidth sources turn the phase, all others add what each of them adds alone. -/
theorem C66_superposition (P : Prop_ n) (srcs : List (Sampled n)) (hs : ∀ s ∈ srcs, ∃ mask form g r, sampleNoise P mask form g r = .ok s) (x : Signal n)
    (alone : Sampled n → Signal n) (ha : ∀ s ∈ srcs, mixNoise P [s] x = .ok (alone s)) :
    mixNoise P srcs x = .ok (fun i => x i * ((srcs.filter (·.form.isFwhm)).map (·.vec i)).prod +
      ((srcs.filter (fun s => !s.form.isFwhm)).map (fun s => alone s i - x i)).sum) := by
  classical
  have hb : ∀ s ∈ srcs, ¬ Bad s ∧ ∀ i, alone s i = x i * phFactor s i + addend P x s i := fun s h => by
    have e := ha s h
    rw [mixNoise_eq P [s] (fun t ht => by rw [List.mem_singleton] at ht; subst ht; exact hs _ h)] at e
    split at e
    · cases e
    · rename_i hn
      refine ⟨fun hc => hn ⟨s, List.mem_singleton.2 rfl, hc⟩, fun i => ?_⟩
      rw [← Except.ok.inj e]; simp
  rw [mixNoise_eq P srcs hs, if_neg (by push Not; exact fun s h => (hb s h).1)]
  congr 1
  funext i
  have hpr : (srcs.map (phFactor · i)).prod = ((srcs.filter (·.form.isFwhm)).map (·.vec i)).prod := by
    clear hb ha hs
    induction srcs with
    | nil => rfl
    | cons s ss ih =>
      rw [List.map_cons, List.prod_cons, ih, List.filter_cons]
      unfold phFactor NoiseForm.isFwhm
      cases s.form <;> simp
  have hsum : (srcs.map (addend P x · i)).sum = ((srcs.filter (fun s => !s.form.isFwhm)).map (fun s => alone s i - x i)).sum := by
    clear hpr ha hs
    induction srcs with
    | nil => rfl
    | cons s ss ih =>
      have h1 := (hb s List.mem_cons_self).2 i
      rw [List.map_cons, List.sum_cons, ih (fun t ht => hb t (List.mem_cons_of_mem _ ht)), List.filter_cons]
      by_cases hf : s.form.isFwhm = true
      · have : addend P x s i = 0 := by
          unfold addend noiseStep
          cases hs' : s.form <;> simp_all [NoiseForm.isFwhm]
        simp [hf, this]
      · have : phFactor s i = 1 := by
          unfold phFactor
          cases hs' : s.form <;> simp_all [NoiseForm.isFwhm]
        simp only [hf, Bool.not_false, if_true, List.map_cons, List.sum_cons]
        rw [h1, this]; ring
  rw [hpr, hsum, zero_add]

/-- **C66.** The order in which sources were added does not matter. -/
theorem C66_order (P : Prop_ n) {srcs srcs' : List (Sampled n)} (hp : srcs.Perm srcs')
    (hs : ∀ s ∈ srcs, ∃ mask form g r, sampleNoise P mask form g r = .ok s) (x : Signal n) : mixNoise P srcs x = mixNoise P srcs' x := by
  classical
  rw [mixNoise_eq P srcs hs, mixNoise_eq P srcs' (fun s h => hs s (hp.mem_iff.2 h))]
  have : (∃ s ∈ srcs, Bad s) ↔ ∃ s ∈ srcs', Bad s := by simp only [hp.mem_iff]
  simp only [this]
  congr 2
  funext i
  rw [(hp.map _).prod_eq, (hp.map _).sum_eq]

/-- A 20 dB source on a grid with four samples, whose draw does not vanish, and a signal: the hypotheses of `C66_osnr` (and of `C66_linewidth`). -/
example : ∃ s, sampleNoise demoProp none (.osnr (osnrRatio 20)) (fun _ => 1) (fun _ => 0) = .ok s ∧ (∃ i, s.vec i ≠ 0) ∧
    (∃ i, (cwLaser (n := 4) 1 (fun _ => 0)) i ≠ 0) ∧ (0 : ℝ) < demoProp.window :=
  ⟨_, rfl, ⟨0, one_ne_zero⟩, ⟨0, by simp [cwLaser]⟩, by norm_num [demoProp]⟩

/-- A list of sampled sources with all kinds of effect. -/
example : ∃ s1 s2 s3 : Sampled 4, sampleNoise demoProp none (.fwhm 0) (fun _ => 1) (fun _ => 0) = .ok s1 ∧
    sampleNoise demoProp none (.osnr 100) (fun _ => 1) (fun _ => 0) = .ok s2 ∧ sampleNoise demoProp none (.shot 1 1) (fun _ => 1) (fun _ => 0) = .ok s3 ∧
    ¬ Bad s1 ∧ ¬ Bad s2 ∧ ¬ Bad s3 := by
  refine ⟨_, _, _, by unfold sampleNoise noiseVector; simp only [if_true]; rfl, rfl, rfl, ?_, ?_, ?_⟩ <;>
    simp [Bad, filteredDraw, npMean, power_]

/-! Cases of the theorems above. -/

example (s : Sampled 4) (hs : sampleNoise demoProp none (.osnr (osnrRatio 20)) (fun _ => 1) (fun _ => 0) = .ok s) (hv : ∃ i, s.vec i ≠ 0) :=
  C66_osnr demoProp none 20 (fun _ => 1) (fun _ => 0) hs hv (fun _ => 2) ⟨0, by norm_num⟩
example (s : Sampled 4) := C66_absolute demoProp none (fun _ => 1) (fun _ => 0) (s := s) (fun _ => 2)
example (s : Sampled 4) (hs : sampleNoise demoProp none (.shot 1 1) (fun _ => 1) (fun _ => 0) = .ok s) (hv : ∃ i, s.vec i ≠ 0) :=
  C66_shot demoProp none (by norm_num) (by norm_num) (by rw [(dt_df demoProp).2]; norm_num [demoProp]) (fun _ => 1) (fun _ => 0) hs hv (fun _ => 2)
example := C66_linewidth (n := 4) (by norm_num) (by norm_num) (P := demoProp) (by norm_num [demoProp]) none (10 ^ 5) (fun _ => 1) (fun i => i.val)
example {P : Prop_ 5} (hw : 0 < P.window) :=
  C66_linewidth_odd (n := 5) (by norm_num) (by norm_num) hw none (w := 10 ^ 5) (by norm_num) (fun _ => 1) (fun i => i.val)
example (s t : Sampled 4) (hs : sampleNoise demoProp none (.shot 1 1) (fun _ => 1) (fun _ => 0) = .ok s)
    (ht : sampleNoise demoProp none (.osnr 100) (fun _ => 1) (fun _ => 0) = .ok t) : mixNoise demoProp [s, t] (fun _ => 2) = mixNoise demoProp [t, s] (fun _ => 2) :=
  C66_order demoProp (.swap _ _ _) (by
    intro u hu
    simp only [List.mem_cons, List.not_mem_nil, or_false] at hu
    rcases hu with rfl | rfl
    · exact ⟨_, _, _, _, hs⟩
    · exact ⟨_, _, _, _, ht⟩) _

end Verif
