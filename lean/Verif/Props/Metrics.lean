import Verif.Model.Evaluators
import Verif.Props.Noise
/-!
# Scores of the evaluators (C67)
-/

namespace Verif
open Complex Finset

variable {n : Nat}

/-- **C67.** The `l1` and `l2` distances are never negative, symmetric, and zero exactly for equal signals. -/
theorem C67_distances (x y : Fin n → ℝ) :
    (0 ≤ simL1 x y ∧ simL1 x y = simL1 y x ∧ (simL1 x y = 0 ↔ x = y)) ∧
    (0 ≤ simL2 x y ∧ simL2 x y = simL2 y x ∧ (simL2 x y = 0 ↔ x = y)) := by
  refine ⟨⟨sum_nonneg (fun _ _ => abs_nonneg _), sum_congr rfl (fun i _ => abs_sub_comm _ _), ?_⟩,
    sum_nonneg (fun _ _ => sq_nonneg _), sum_congr rfl (fun i _ => by ring), ?_⟩
  · unfold simL1
    rw [sum_eq_zero_iff_of_nonneg (fun _ _ => abs_nonneg _)]
    constructor
    · intro h; funext i; have := h i (mem_univ i); rw [abs_eq_zero] at this; linarith
    · rintro rfl; simp
  · unfold simL2
    rw [sum_eq_zero_iff_of_nonneg (fun _ _ => sq_nonneg _)]
    constructor
    · intro h; funext i; have := h i (mem_univ i); have := pow_eq_zero_iff (two_ne_zero) |>.1 this; linarith
    · rintro rfl; simp

/-- **C67.** Noise suppression: the score is never negative and zero exactly if the output has the power of the true signal at every instant. -/
theorem C67_noise_suppression (x y : Signal n) :
    0 ≤ noiseSuppressionScore x y ∧ (noiseSuppressionScore x y = 0 ↔ ∀ i, ‖y i‖ ^ 2 = ‖x i‖ ^ 2) := by
  unfold noiseSuppressionScore
  refine ⟨(C67_distances _ _).2.1, ?_⟩
  rw [(C67_distances _ _).2.2.2, funext_iff]; rfl

theorem sum_sqrt_sq {x : Fin n → ℝ} (hx : ∀ i, 0 ≤ x i) : ∑ i, Real.sqrt (x i ^ 2) = ∑ i, x i :=
  sum_congr rfl (fun i _ => Real.sqrt_sq (hx i))

/-- **C67.** `similarity_cosine` of two signals without negative values that are not dark lies between 0 and 1, and does not change when one is scaled. -/
theorem C67_cosine_range {x y : Fin n → ℝ} (hx : ∀ i, 0 ≤ x i) (hy : ∀ i, 0 ≤ y i) (hx0 : ∃ i, x i ≠ 0) (hy0 : ∃ i, y i ≠ 0) :
    ∃ s, simCosine x y = .ok s ∧ 0 ≤ s ∧ s ≤ 1 ∧ ∀ c > 0, simCosine (fun i => c * x i) y = .ok s := by
  have px : 0 < ∑ i, x i := by obtain ⟨i, h⟩ := hx0; exact sum_pos' (fun j _ => hx j) ⟨i, mem_univ _, lt_of_le_of_ne (hx i) (Ne.symm h)⟩
  have py : 0 < ∑ i, y i := by obtain ⟨i, h⟩ := hy0; exact sum_pos' (fun j _ => hy j) ⟨i, mem_univ _, lt_of_le_of_ne (hy i) (Ne.symm h)⟩
  have hle : ∑ i, x i * y i ≤ (∑ i, x i) * ∑ i, y i := by
    rw [sum_mul]
    exact sum_le_sum (fun i _ => mul_le_mul_of_nonneg_left (single_le_sum (f := y) (fun j _ => hy j) (mem_univ i)) (hx i))
  refine ⟨(∑ i, x i * y i) / ((∑ i, x i) * ∑ i, y i), ?_, div_nonneg (sum_nonneg (fun i _ => mul_nonneg (hx i) (hy i))) (by positivity), ?_, fun c hc => ?_⟩
  · unfold simCosine
    simp only [sum_sqrt_sq hx, sum_sqrt_sq hy]
    rw [if_neg (by positivity)]
  · rw [div_le_one (by positivity)]; exact hle
  · unfold simCosine
    have hcx : ∀ i, 0 ≤ c * x i := fun i => mul_nonneg hc.le (hx i)
    simp only [sum_sqrt_sq hcx, sum_sqrt_sq hy, ← mul_sum, mul_assoc]
    rw [if_neg (by positivity), mul_div_mul_left _ _ hc.ne']

/-- **C67, finding.** `similarity_cosine` is not a cosine: a signal is not most similar to itself.  For `n ≥ 2` samples the constant signal has similarity `1/n` with itself,
and for a signal with two different positive values some other signal is more similar to it than it is to itself. -/
theorem C67_cosine_not_cosine (hn : 2 ≤ n) :
    simCosine (fun _ : Fin n => (1 : ℝ)) (fun _ => 1) = .ok (1 / n) ∧
    (∃ x y : Fin n → ℝ, (∀ i, 0 < x i) ∧ (∀ i, 0 ≤ y i) ∧ ∃ a b, simCosine x x = .ok a ∧ simCosine y x = .ok b ∧ a < b) := by
  have hn0 : (0 : ℝ) < n := by exact_mod_cast (by omega : 0 < n)
  constructor
  · unfold simCosine
    simp only [one_pow, Real.sqrt_one, sum_const, card_univ, Fintype.card_fin, nsmul_eq_mul, mul_one]
    rw [if_neg (by positivity)]; congr 1; field_simp
  · let i0 : Fin n := ⟨0, by omega⟩
    let i1 : Fin n := ⟨1, by omega⟩
    have h01 : i1 ≠ i0 := by simp [i0, i1, Fin.ext_iff]
    let x : Fin n → ℝ := fun i => if i = i0 then 2 else 1
    let y : Fin n → ℝ := fun i => if i = i0 then 1 else 0
    have hx : ∀ i, 0 ≤ x i := fun i => by simp only [x]; split <;> norm_num
    have hy : ∀ i, 0 ≤ y i := fun i => by simp only [y]; split <;> norm_num
    have sy : ∑ i, y i = 1 := by simp [y]
    have syx : ∑ i, y i * x i = 2 := by
      rw [sum_eq_single i0 (fun b _ hb => by simp [y, hb]) (fun h => absurd (mem_univ _) h)]
      simp [y, x]
    have px : 0 < ∑ i, x i := sum_pos' (fun i _ => hx i) ⟨i0, mem_univ _, by simp [x]⟩
    have sxx : ∑ i, x i * x i < 2 * ∑ i, x i := by
      rw [mul_sum]
      refine sum_lt_sum (fun i _ => ?_) ⟨i1, mem_univ _, ?_⟩
      · simp only [x]; split <;> norm_num
      · simp only [x, if_neg h01]; norm_num
    refine ⟨x, y, fun i => by simp only [x]; split <;> norm_num, hy, (∑ i, x i * x i) / ((∑ i, x i) * ∑ i, x i), 2 / (1 * ∑ i, x i), ?_, ?_, ?_⟩
    · unfold simCosine
      simp only [sum_sqrt_sq hx]
      rw [if_neg (by positivity)]
    · unfold simCosine
      simp only [sum_sqrt_sq hx, sum_sqrt_sq hy, sy, syx]
      rw [if_neg (by positivity)]
    · rw [div_lt_div_iff₀ (by positivity) (by positivity)]
      nlinarith

/-- **C67, finding.** The not-gate evaluator returns this similarity as the score, and scores are minimised: an output with no power where the target has any gets the best
possible score 0, the target itself a worse one. -/
theorem C67_not_gate_reversed {target state : Signal n} (h0 : ∃ i, target i ≠ 0) (h1 : ∃ i, state i ≠ 0)
    (hd : ∀ i, target i = 0 ∨ state i = 0) :
    notGateScore target state = .ok 0 ∧ ∃ s, notGateScore target target = .ok s ∧ 0 < s := by
  have pp : ∀ z : Signal n, (∃ i, z i ≠ 0) → 0 < ∑ i, power_ z i := fun z ⟨i, h⟩ => energy_pos_of_ne h
  have hnn : ∀ z : Signal n, ∀ i, 0 ≤ power_ z i := fun z i => by unfold power_; positivity
  constructor
  · unfold notGateScore simCosine
    simp only [sum_sqrt_sq (hnn _)]
    rw [if_neg (by have := pp _ h0; have := pp _ h1; positivity)]
    rw [sum_eq_zero (fun i _ => ?_), zero_div]
    rcases hd i with h | h <;> simp [power_, h]
  · obtain ⟨i, hi⟩ := h0
    have := pp _ ⟨i, hi⟩
    refine ⟨(∑ i, power_ target i * power_ target i) / ((∑ i, power_ target i) * ∑ i, power_ target i), ?_, ?_⟩
    · unfold notGateScore simCosine
      simp only [sum_sqrt_sq (hnn _)]
      rw [if_neg (by positivity)]
    · refine div_pos (sum_pos' (fun j _ => mul_nonneg (hnn _ _) (hnn _ _)) ⟨i, mem_univ _, ?_⟩) (by positivity)
      have : 0 < power_ target i := by unfold power_; have := norm_pos_iff.2 hi; positivity
      positivity

/-- **C67.** Filter design: for a target transmission between 0 and 1 the score of an output that is not dark lies between -1 and 0 and is -1 exactly if the output has
no amplitude at frequencies with target below 1; losses do not matter; a dark output divides by zero. -/
theorem C67_filter_design (hn : 2 ≤ n) {P : Prop_ n} (hw : 0 < P.window) {target : Fin n → ℝ} (ht : ∀ i, 0 ≤ target i ∧ target i ≤ 1) :
    (∀ state : Signal n, (∃ i, state i ≠ 0) → ∃ s, filterDesignScore P target state = .ok s ∧ -1 ≤ s ∧ s ≤ 0 ∧
      (s = -1 ↔ ∀ i, target i < 1 → fftShift (npFft state) i = 0) ∧
      ∀ c : ℂ, c ≠ 0 → filterDesignScore P target (fun i => c * state i) = .ok s) ∧
    filterDesignScore P target (fun _ => 0) = .error .zeroDivision := by
  have hdt := dt_ne_zero hn hw
  constructor
  · rintro state ⟨j, hj⟩
    set x : Fin n → ℝ := fun i => ‖fftShift (fft_ state P.dt) i‖ with hxd
    have hx : ∀ i, 0 ≤ x i := fun i => norm_nonneg _
    have hpos : 0 < ∑ i, x i := by
      rw [show ∑ i, x i = ∑ i, ‖fft_ state P.dt i‖ from sum_fftShift (fun i => ‖fft_ state P.dt i‖)]
      refine lt_of_le_of_ne (sum_nonneg (fun _ _ => norm_nonneg _)) (fun h => ?_)
      have hz := (sum_eq_zero_iff_of_nonneg (fun i _ => norm_nonneg (fft_ state P.dt i))).1 h.symm
      have : npFft state = fun _ => 0 := by
        funext k
        have := norm_eq_zero.1 (hz k (mem_univ k))
        unfold fft_ at this
        exact (mul_eq_zero.1 this).resolve_right (by exact_mod_cast hdt)
      have e := npIfft_npFft state
      rw [this] at e
      apply hj
      rw [← e]; simp [npIfft]
    have hle : ∑ i, x i * target i ≤ ∑ i, x i := sum_le_sum (fun i _ => by nlinarith [hx i, (ht i).2])
    have h0 : 0 ≤ ∑ i, x i * target i := sum_nonneg (fun i _ => mul_nonneg (hx i) (ht i).1)
    refine ⟨-(∑ i, x i * target i) / ∑ i, x i, ?_, ?_, ?_, ?_, fun c hc => ?_⟩
    · unfold filterDesignScore percentTotal
      rw [if_neg hpos.ne']
    · rw [le_div_iff₀ hpos]; linarith
    · exact div_nonpos_of_nonpos_of_nonneg (by linarith) hpos.le
    · rw [div_eq_iff hpos.ne']
      have : -(∑ i, x i * target i) = -1 * ∑ i, x i ↔ ∑ i, x i * (1 - target i) = 0 := by
        have : ∑ i, x i * (1 - target i) = ∑ i, x i - ∑ i, x i * target i := by rw [← sum_sub_distrib]; exact sum_congr rfl (fun i _ => by ring)
        rw [this]; constructor <;> intro h <;> linarith
      rw [this, sum_eq_zero_iff_of_nonneg (fun i _ => mul_nonneg (hx i) (by linarith [(ht i).2]))]
      have hz : ∀ i, x i = 0 ↔ fftShift (npFft state) i = 0 := fun i => by
        simp only [hxd, norm_eq_zero]
        unfold fftShift fft_
        simp [hdt]
      constructor
      · intro h i hi
        rw [← hz]
        exact (mul_eq_zero.1 (h i (mem_univ i))).resolve_right (by linarith)
      · intro h i _
        rcases lt_or_eq_of_le (ht i).2 with h1 | h1
        · rw [(hz i).2 (h i h1), zero_mul]
        · rw [h1]; ring
    · have hc' : 0 < ‖c‖ := norm_pos_iff.2 hc
      have : ∀ i, ‖fftShift (fft_ (fun i => c * state i) P.dt) i‖ = ‖c‖ * x i := fun i => by
        simp only [hxd]
        unfold fftShift fft_
        rw [npFft_smul, mul_assoc, norm_mul]
      unfold filterDesignScore percentTotal
      simp only [this, ← mul_sum, mul_assoc]
      rw [if_neg (by positivity), ← mul_neg, mul_div_mul_left _ _ hc'.ne']
  · unfold filterDesignScore percentTotal
    rw [if_pos]
    have : npFft (fun _ : Fin n => (0 : ℂ)) = fun _ => 0 := by funext k; simp [npFft]
    refine sum_eq_zero (fun i _ => ?_)
    unfold fftShift fft_
    rw [this]; simp

/-- **C67, finding.** `similarity_mask` of equal signals is not zero but `- duty * Σ y` (operator precedence). -/
theorem C67_mask_precedence (duty : ℝ) (x : Fin n → ℝ) : simMask duty x x = -(duty * ∑ i, x i) := by
  unfold simMask
  simp

/-- **C67.** Discrete time lens: whenever there is a score it is at least the squared distance of the normalised spectra, so never negative, and zero only for equal
spectra. -/
theorem C67_time_lens {P : Prop_ n} {osc : Fin n → ℝ} {input state : Signal n} {s : ℝ} (h : timeLensScore P osc input state = .ok s)
    (ho : ∀ i, 0 ≤ osc i) :
    ∃ top : ℝ, 0 < top ∧ (∃ i, osc i * ‖fftShift (fft_ input P.dt) i‖ = top) ∧
      (∑ i, (‖fftShift (fft_ state P.dt) i‖ / top - osc i * ‖fftShift (fft_ input P.dt) i‖ / top) ^ 2 ≤ s) ∧ 0 ≤ s ∧
      (s = 0 → ∀ i, ‖fftShift (fft_ state P.dt) i‖ = osc i * ‖fftShift (fft_ input P.dt) i‖) := by
  unfold timeLensScore at h
  simp only at h
  split at h
  · rename_i h0
    split at h
    · cases h
    · rename_i htop
      split at h
      · rename_i h1
        split at h
        · cases h
        · rename_i hs0
          split at h
          · cases h
          · rename_i hv0
            set top := univ.sup' h0 (fun i => osc i * ‖fftShift (fft_ input P.dt) i‖) with htd
            have hex : ∃ i, osc i * ‖fftShift (fft_ input P.dt) i‖ = top := by
              obtain ⟨i, _, hi⟩ := exists_mem_eq_sup' h0 (fun i => osc i * ‖fftShift (fft_ input P.dt) i‖)
              exact ⟨i, hi.symm⟩
            have ht : 0 < top := by
              obtain ⟨i, hi⟩ := hex
              exact lt_of_le_of_ne (by rw [← hi]; exact mul_nonneg (ho i) (norm_nonneg _)) (Ne.symm htop)
            set r : Fin n → ℝ := fun i => ‖fftShift (fft_ state P.dt) i‖ / top with hr
            set sl := sliceIdx n (n / 4) (3 * n / 4)
            have hr0 : ∀ i, 0 ≤ r i := fun i => div_nonneg (norm_nonneg _) ht.le
            have hmn : 0 ≤ sl.inf' h1 r := le_inf' _ _ (fun i _ => hr0 i)
            have hmx : sl.inf' h1 r ≤ sl.sup' h1 r := by
              obtain ⟨i, hi⟩ := h1
              exact le_trans (inf'_le r hi) (le_sup' r hi)
            set mx := sl.sup' h1 r
            set mn := sl.inf' h1 r
            have hsum : 0 < mx + mn := lt_of_le_of_ne (by linarith) (Ne.symm hs0)
            have hvis : 0 < (mx - mn) / (mx + mn) := lt_of_le_of_ne (div_nonneg (by linarith) hsum.le) (Ne.symm hv0)
            have hv1 : (mx - mn) / (mx + mn) ≤ 1 := by rw [div_le_one hsum]; linarith
            have e := Except.ok.inj h
            have hd := (C67_distances r (fun i => osc i * ‖fftShift (fft_ input P.dt) i‖ / top)).2
            refine ⟨top, ht, hex, ?_, ?_, ?_⟩
            · rw [← e, le_div_iff₀ hvis]
              exact mul_le_of_le_one_right hd.1 hv1
            · rw [← e]; exact div_nonneg hd.1 hvis.le
            · intro hs
              rw [← e, div_eq_zero_iff] at hs
              have := hd.2.2.1 (hs.resolve_right hvis.ne')
              intro i
              have := congrFun this i
              simp only [hr] at this
              field_simp at this
              exact this
      · cases h
  · cases h

/-- **C67.** … and exactly: the squared distance of the spectra, relative to the brightest line asked for, divided by the visibility of the fringes of the output in the
middle half of the samples, `n/4 ≤ i < 3n/4`. -/
theorem C67_time_lens_visibility {P : Prop_ n} {osc : Fin n → ℝ} {input state : Signal n} {s : ℝ} (h : timeLensScore P osc input state = .ok s)
    (ho : ∀ i, 0 ≤ osc i) :
    ∃ top hi lo : ℝ, 0 < top ∧ IsGreatest (Set.range fun i => osc i * ‖fftShift (fft_ input P.dt) i‖) top ∧
      IsGreatest {x | ∃ i : Fin n, n / 4 ≤ i.val ∧ i.val < 3 * n / 4 ∧ x = ‖fftShift (fft_ state P.dt) i‖} hi ∧
      IsLeast {x | ∃ i : Fin n, n / 4 ≤ i.val ∧ i.val < 3 * n / 4 ∧ x = ‖fftShift (fft_ state P.dt) i‖} lo ∧ lo < hi ∧
      s = (∑ i, (‖fftShift (fft_ state P.dt) i‖ - osc i * ‖fftShift (fft_ input P.dt) i‖) ^ 2) / top ^ 2 / ((hi - lo) / (hi + lo)) := by
  unfold timeLensScore at h
  simp only at h
  split at h
  · rename_i h0
    split at h
    · cases h
    · rename_i htop
      split at h
      · rename_i h1
        split at h
        · cases h
        · rename_i hs0
          split at h
          · cases h
          · rename_i hv0
            set top := univ.sup' h0 (fun i => osc i * ‖fftShift (fft_ input P.dt) i‖) with htd
            have hg : IsGreatest (Set.range fun i => osc i * ‖fftShift (fft_ input P.dt) i‖) top := by
              obtain ⟨i, _, hi⟩ := exists_mem_eq_sup' h0 (fun i => osc i * ‖fftShift (fft_ input P.dt) i‖)
              refine ⟨⟨i, hi.symm⟩, ?_⟩
              rintro x ⟨j, rfl⟩
              exact le_sup' (fun i => osc i * ‖fftShift (fft_ input P.dt) i‖) (mem_univ j)
            have ht : 0 < top := by
              obtain ⟨i, hi⟩ := hg.1
              exact lt_of_le_of_ne (by rw [← hi]; exact mul_nonneg (ho i) (norm_nonneg _)) (Ne.symm htop)
            set r : Fin n → ℝ := fun i => ‖fftShift (fft_ state P.dt) i‖ / top with hr
            have hmem : ∀ i : Fin n, i ∈ sliceIdx n (n / 4) (3 * n / 4) ↔ n / 4 ≤ i.val ∧ i.val < 3 * n / 4 := fun i => by simp [sliceIdx]
            set sl := sliceIdx n (n / 4) (3 * n / 4) with hsl
            obtain ⟨a, ha, hae⟩ := exists_mem_eq_sup' h1 r
            obtain ⟨b, hb, hbe⟩ := exists_mem_eq_inf' h1 r
            have hge : ∀ j ∈ sl, r j ≤ r a := fun j hj => hae ▸ le_sup' r hj
            have hle : ∀ j ∈ sl, r b ≤ r j := fun j hj => hbe ▸ inf'_le r hj
            rw [hae, hbe] at hs0 hv0 h
            have e := Except.ok.inj h
            have hra : ‖fftShift (fft_ state P.dt) a‖ = r a * top := by simp only [hr]; field_simp
            have hrb : ‖fftShift (fft_ state P.dt) b‖ = r b * top := by simp only [hr]; field_simp
            have hlt : r b < r a := by
              refine lt_of_le_of_ne (hle a ha) (fun he => hv0 ?_)
              rw [he, sub_self, zero_div]
            refine ⟨top, ‖fftShift (fft_ state P.dt) a‖, ‖fftShift (fft_ state P.dt) b‖, ht, hg, ⟨⟨a, ((hmem a).1 ha).1, ((hmem a).1 ha).2, rfl⟩, ?_⟩,
              ⟨⟨b, ((hmem b).1 hb).1, ((hmem b).1 hb).2, rfl⟩, ?_⟩, ?_, ?_⟩
            · rintro x ⟨j, j1, j2, rfl⟩
              exact (div_le_div_iff_of_pos_right ht).1 (hge j ((hmem j).2 ⟨j1, j2⟩))
            · rintro x ⟨j, j1, j2, rfl⟩
              exact (div_le_div_iff_of_pos_right ht).1 (hle j ((hmem j).2 ⟨j1, j2⟩))
            · rw [hra, hrb]; exact mul_lt_mul_of_pos_right hlt ht
            · rw [← e, hra, hrb]
              have : (r a * top - r b * top) / (r a * top + r b * top) = (r a - r b) / (r a + r b) := by
                rw [← sub_mul, ← add_mul, mul_div_mul_right _ _ ht.ne']
              rw [this]
              congr 1
              unfold simL2
              rw [sum_div]
              refine sum_congr rfl (fun i _ => ?_)
              simp only [hr]
              field_simp
      · cases h
  · cases h

/-- **C67.** The waveform evaluator takes the mean: an output off by `c` at every instant is `c²` away, on every grid. -/
theorem C67_mean_square (hn : 0 < n) {x y : Fin n → ℝ} {c : ℝ} (h : ∀ i, |x i - y i| = c) : simL2mean x y = c ^ 2 := by
  unfold simL2mean npMean
  have hn0 : (n : ℝ) ≠ 0 := by exact_mod_cast hn.ne'
  rw [sum_congr rfl (fun i _ => show (x i - y i) ^ 2 = c ^ 2 by rw [← sq_abs, h i])]
  simp only [sum_const, card_univ, Fintype.card_fin, nsmul_eq_mul]
  field_simp

example : simL2mean (fun i : Fin 3 => (i.val : ℝ) + 2) (fun i => (i.val : ℝ)) = 2 ^ 2 := C67_mean_square (by norm_num) (fun i => by simp)

/-- A target and a state with no common support, on two samples. -/
example : (∃ i, (![1, 0] : Signal 2) i ≠ 0) ∧ (∃ i, (![0, 1] : Signal 2) i ≠ 0) ∧ ∀ i, (![1, 0] : Signal 2) i = 0 ∨ (![0, 1] : Signal 2) i = 0 := by
  refine ⟨⟨0, by simp⟩, ⟨1, by simp⟩, fun i => ?_⟩
  fin_cases i <;> simp

/-- A time lens with a score: flat target, constant output, on four samples. -/
example : ∃ s, timeLensScore demoProp (fun _ => 1) (fun i => if i = 0 then 1 else 0) (fun _ => 1) = .ok s := by
  have hdt : demoProp.dt = 1 := by rw [(dt_df demoProp).1]; norm_num [demoProp]
  have ht : ∀ i, (1 : ℝ) * ‖fftShift (fft_ (fun i : Fin 4 => if i = 0 then (1 : ℂ) else 0) demoProp.dt) i‖ = 1 := fun i => by
    rw [hdt]
    unfold fftShift fft_ npFft
    rw [sum_eq_single 0 (fun b _ hb => by simp only [if_neg hb, zero_mul]) (fun h => absurd (mem_univ _) h)]
    simp
  have hX : npFft (fun _ : Fin 4 => (1 : ℂ)) = fun k => if k = 0 then 4 else 0 := by
    have : npIfft (fun k : Fin 4 => if k = 0 then (4 : ℂ) else 0) = fun _ => 1 := by
      funext j
      unfold npIfft
      rw [sum_eq_single 0 (fun b _ hb => by simp only [if_neg hb, zero_mul]) (fun h => absurd (mem_univ _) h)]
      simp
    rw [← this, npFft_npIfft]
  have hr : ∀ i, ‖fftShift (fft_ (fun _ : Fin 4 => (1 : ℂ)) demoProp.dt) i‖ = if i = 2 then 4 else 0 := fun i => by
    rw [hdt]; unfold fftShift fft_
    rw [hX]
    fin_cases i <;> simp [rotIdx]
  unfold timeLensScore
  simp only [ht, hr]
  have h0 : (univ : Finset (Fin 4)).Nonempty := ⟨0, mem_univ _⟩
  have h1 : (sliceIdx 4 (4 / 4) (3 * 4 / 4)).Nonempty := ⟨1, by simp [sliceIdx]⟩
  have m1 : (1 : Fin 4) ∈ sliceIdx 4 (4 / 4) (3 * 4 / 4) := by simp [sliceIdx]
  have m2 : (2 : Fin 4) ∈ sliceIdx 4 (4 / 4) (3 * 4 / 4) := by simp [sliceIdx]
  have htop : univ.sup' h0 (fun _ : Fin 4 => (1 : ℝ)) = 1 := sup'_const _ _
  rw [dif_pos h0]
  simp only [htop, one_ne_zero, if_false, div_one]
  rw [dif_pos h1]
  have a := le_sup' (fun i : Fin 4 => if i = 2 then (4 : ℝ) else 0) m2
  have b := inf'_le (fun i : Fin 4 => if i = 2 then (4 : ℝ) else 0) m1
  have c : 0 ≤ (sliceIdx 4 (4 / 4) (3 * 4 / 4)).inf' h1 (fun i : Fin 4 => if i = 2 then (4 : ℝ) else 0) := le_inf' _ _ (fun i _ => by split <;> norm_num)
  simp only [if_true] at a
  rw [if_neg (by decide : ¬ ((1 : Fin 4) = 2))] at b
  rw [if_neg (by intro h; linarith), if_neg (by rw [div_eq_zero_iff]; rintro (h | h) <;> linarith)]
  exact ⟨_, rfl⟩

/-! Cases of the other theorems. -/

example := C67_distances (![1, 2] : Fin 2 → ℝ) ![2, 2]
example := C67_noise_suppression (![1, 2] : Signal 2) ![2, 2]
example := C67_cosine_range (x := (![1, 2] : Fin 2 → ℝ)) (y := ![2, 0]) (fun i => by fin_cases i <;> simp) (fun i => by fin_cases i <;> simp) ⟨0, by simp⟩ ⟨0, by simp⟩
example := C67_cosine_not_cosine (n := 3) (by norm_num)
example := C67_not_gate_reversed (target := (![1, 0] : Signal 2)) (state := ![0, 1]) ⟨0, by simp⟩ ⟨1, by simp⟩ (fun i => by fin_cases i <;> simp)
example := C67_filter_design (n := 4) (by norm_num) (P := demoProp) (by norm_num [demoProp]) (target := fun i => if i.val < 2 then 1 else 0)
  (fun i => by split <;> norm_num)
example := C67_mask_precedence (1 / 4) (![1, 2] : Fin 2 → ℝ)
example (s : ℝ) (h : timeLensScore demoProp (fun _ => 1) (fun i => if i = 0 then 1 else 0) (fun _ => 1) = .ok s) :=
  And.intro (C67_time_lens h (fun _ => by norm_num)) (C67_time_lens_visibility h (fun _ => by norm_num))

end Verif
