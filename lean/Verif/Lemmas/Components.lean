import Verif.Model.Components
import Verif.Props.Signal
import Mathlib.Analysis.SpecialFunctions.Trigonometric.Bounds
/-!
# Lemmas about frequency-domain components
-/

namespace Verif
open Complex Finset

variable {n : Nat}

theorem dt_ne_zero (hn : 2 ≤ n) {P : Prop_ n} (hw : 0 < P.window) : P.dt ≠ 0 := by
  rw [(dt_df P).1]; exact div_ne_zero hw.ne' (two_le_cast hn)

theorem freqMul_eq (H : Signal n) {dt : ℝ} (h : dt ≠ 0) (x : Signal n) :
    freqMul H dt x = npIfft (fun k => H k * npFft x k) := by
  have h' : (dt : ℂ) ≠ 0 := by exact_mod_cast h
  funext j
  unfold freqMul ifft_ fft_
  have : (fun k => H k * (npFft x k * (dt : ℂ))) = fun k => (dt : ℂ) * (H k * npFft x k) := by funext k; ring
  rw [this, npIfft_smul, mul_div_cancel_left₀ _ h']

theorem freqMul_comp (H G : Signal n) {dt : ℝ} (h : dt ≠ 0) (x : Signal n) :
    freqMul H dt (freqMul G dt x) = freqMul (fun k => H k * G k) dt x := by
  rw [freqMul_eq H h, freqMul_eq G h, freqMul_eq _ h, npFft_npIfft]
  congr 1; funext k; ring

theorem freqMul_const (c : ℂ) {dt : ℝ} (h : dt ≠ 0) (x : Signal n) : freqMul (fun _ => c) dt x = fun i => c * x i := by
  rw [freqMul_eq _ h, npIfft_smul, npIfft_npFft]

theorem freqMul_smul (H : Signal n) {dt : ℝ} (h : dt ≠ 0) (c : ℂ) (x : Signal n) :
    freqMul H dt (fun i => c * x i) = fun i => c * freqMul H dt x i := by
  rw [freqMul_eq _ h, freqMul_eq _ h, npFft_smul, ← npIfft_smul]
  congr 1; funext k; ring

theorem energy_npFft (x : Signal n) : energy (npFft x) = n * energy x := npFft_parseval x

theorem energy_freqMul (H : Signal n) {dt : ℝ} (h : dt ≠ 0) (x : Signal n) :
    n * energy (freqMul H dt x) = ∑ k, ‖H k‖ ^ 2 * ‖npFft x k‖ ^ 2 := by
  rw [freqMul_eq H h]
  have := npIfft_parseval (fun k => H k * npFft x k)
  unfold energy
  rw [this]
  exact sum_congr rfl (fun k _ => by rw [norm_mul, mul_pow])

theorem energy_eq_zero_of_zero (x : Signal 0) : energy x = 0 := by simp [energy]

theorem energy_nonneg (x : Signal n) : 0 ≤ energy x := sum_nonneg (fun _ _ => by positivity)

theorem energy_freqMul_eq {H : Signal n} {dt : ℝ} (h : dt ≠ 0) {c : ℝ} (hH : ∀ k, ‖H k‖ = c) (x : Signal n) :
    energy (freqMul H dt x) = c ^ 2 * energy x := by
  rcases Nat.eq_zero_or_pos n with rfl | hn
  · simp [energy_eq_zero_of_zero]
  have hn' : (n : ℝ) ≠ 0 := by exact_mod_cast hn.ne'
  have h1 := energy_freqMul H h x
  simp_rw [hH] at h1
  rw [← mul_sum, npFft_parseval] at h1
  apply mul_left_cancel₀ hn'
  rw [h1]; unfold energy; ring

theorem energy_freqMul_le {H : Signal n} {dt : ℝ} (h : dt ≠ 0) {c : ℝ} (hH : ∀ k, ‖H k‖ ≤ c) (x : Signal n) :
    energy (freqMul H dt x) ≤ c ^ 2 * energy x := by
  rcases Nat.eq_zero_or_pos n with rfl | hn
  · simp [energy_eq_zero_of_zero]
  have hn' : (0 : ℝ) < n := by exact_mod_cast hn
  have h1 := energy_freqMul H h x
  have h2 : ∑ k, ‖H k‖ ^ 2 * ‖npFft x k‖ ^ 2 ≤ ∑ k, c ^ 2 * ‖npFft x k‖ ^ 2 :=
    sum_le_sum (fun k _ => mul_le_mul_of_nonneg_right (pow_le_pow_left₀ (norm_nonneg _) (hH k) 2) (by positivity))
  rw [← h1, ← mul_sum, npFft_parseval] at h2
  refine le_of_mul_le_mul_left ?_ hn'
  calc (n : ℝ) * energy (freqMul H dt x) ≤ c ^ 2 * (n * ∑ j, ‖x j‖ ^ 2) := h2
    _ = n * (c ^ 2 * energy x) := by unfold energy; ring

theorem dbAmp_pos (db : ℝ) : 0 < dbAmp db := Real.rpow_pos_of_pos (by norm_num) _

theorem dbAmp_sq (db : ℝ) : dbAmp db ^ 2 = (10 : ℝ) ^ (db / 10) := by
  unfold dbAmp
  rw [← Real.rpow_natCast, ← Real.rpow_mul (by norm_num)]
  congr 1; push_cast; ring

theorem dbAmp_zero : dbAmp 0 = 1 := by simp [dbAmp]

theorem dbAmp_add (a b : ℝ) : dbAmp (a + b) = dbAmp a * dbAmp b := by
  unfold dbAmp; rw [← Real.rpow_add (by norm_num)]; congr 1; ring

theorem power_dbScale (db : ℝ) (x : Signal n) (i : Fin n) : power_ (dbScale db x) i = (10 : ℝ) ^ (db / 10) * power_ x i := by
  unfold power_ dbScale
  rw [norm_mul, mul_pow, Complex.norm_real, Real.norm_of_nonneg (dbAmp_pos db).le, dbAmp_sq]; ring

theorem energy_eq_sum_power (x : Signal n) : energy x = ∑ i, power_ x i := rfl

theorem energy_dbScale (db : ℝ) (x : Signal n) : energy (dbScale db x) = (10 : ℝ) ^ (db / 10) * energy x := by
  rw [energy_eq_sum_power]
  simp_rw [power_dbScale]
  rw [← mul_sum]; rfl

theorem dbScale_zero (x : Signal n) : dbScale 0 x = x := by funext i; simp [dbScale, dbAmp_zero]

theorem dbScale_dbScale (a b : ℝ) (x : Signal n) : dbScale a (dbScale b x) = dbScale (a + b) x := by
  funext i; simp only [dbScale]; rw [dbAmp_add]; push_cast; ring

theorem norm_expI (a : ℝ) : ‖exp (I * (a : ℂ))‖ = 1 := by rw [mul_comm, norm_exp_ofReal_mul_I]

theorem expI_add (a b : ℝ) : exp (I * ((a + b : ℝ) : ℂ)) = exp (I * (a : ℂ)) * exp (I * (b : ℂ)) := by
  rw [← Complex.exp_add]; congr 1; push_cast; ring

theorem expI_zero : exp (I * ((0 : ℝ) : ℂ)) = 1 := by simp

end Verif
