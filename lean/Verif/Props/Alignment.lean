import Verif.Props.Metrics
import Mathlib.Analysis.SpecialFunctions.Complex.Arg
/-!
# Alignment of waveforms in the evaluators (C68)
-/

namespace Verif
open Complex Finset

variable {n : Nat}

/-- `exp(2πi s k / n)`. -/
noncomputable def kerZ (n : Nat) (s k : ℤ) : ℂ := exp (I * ((2 * Real.pi * s * k / n : ℝ) : ℂ))

theorem norm_kerZ (n : Nat) (s k : ℤ) : ‖kerZ n s k‖ = 1 := norm_expI _

theorem kerZ_ne (n : Nat) (s k : ℤ) : kerZ n s k ≠ 0 := exp_ne_zero _

theorem kerZ_add (n : Nat) (s t k : ℤ) : kerZ n (s + t) k = kerZ n s k * kerZ n t k := by
  unfold kerZ; rw [← expI_add]; congr 3; push_cast; ring

theorem kerZ_comm (n : Nat) (s k : ℤ) : kerZ n s k = kerZ n k s := by
  unfold kerZ; congr 3; ring

theorem kerZ_neg (n : Nat) (s k : ℤ) : kerZ n (-s) k = (kerZ n s k)⁻¹ := by
  refine eq_inv_of_mul_eq_one_left ?_
  rw [← kerZ_add, neg_add_cancel]
  unfold kerZ; simp

theorem kerZ_ker (n : Nat) (a b : ℕ) : kerZ n a b = ker n a b := by
  unfold kerZ ker; congr 1; push_cast; ring

theorem kerZ_mul_n (hn : 0 < n) (s k : ℤ) : kerZ n (n * s) k = 1 := by
  unfold kerZ
  have h : (n : ℝ) ≠ 0 := by exact_mod_cast hn.ne'
  rw [show (2 * Real.pi * ((n * s : ℤ) : ℝ) * k / n : ℝ) = 2 * Real.pi * ((s * k : ℤ) : ℝ) by push_cast; field_simp]
  rw [show I * ((2 * Real.pi * ((s * k : ℤ) : ℝ) : ℝ) : ℂ) = ((s * k : ℤ) : ℂ) * (2 * Real.pi * I) by push_cast; ring]
  exact exp_int_mul_two_pi_mul_I _

theorem kerZ_congr (hn : 0 < n) {s t : ℤ} (h : s % n = t % n) (k : ℤ) : kerZ n s k = kerZ n t k := by
  have e : ∀ u : ℤ, kerZ n u k = kerZ n (u % n) k := fun u => by
    conv_lhs => rw [← Int.emod_add_mul_ediv u n]
    rw [kerZ_add, kerZ_mul_n hn, mul_one]
  rw [e s, e t, h]

theorem delayed_fft (s : ℤ) (x : Signal n) : npFft (delayed s x) = fun k => npFft x k * (kerZ n s k)⁻¹ := by
  rcases Nat.eq_zero_or_pos n with rfl | hn
  · funext k; exact k.elim0
  have hz : (0 : ℤ) < n := by exact_mod_cast hn
  suffices h : delayed s x = npIfft (fun k => npFft x k * (kerZ n s k)⁻¹) by rw [h, npFft_npIfft]
  funext j
  have e : delayed s x j = npIfft (npFft x) ⟨(((j.val : ℤ) - s) % n).toNat, by
    have h1 := Int.emod_nonneg ((j.val : ℤ) - s) hz.ne'
    have h2 := Int.emod_lt_of_pos ((j.val : ℤ) - s) hz
    omega⟩ := by rw [npIfft_npFft]; rfl
  rw [e, npIfft_ker, npIfft_ker]
  congr 1
  refine sum_congr rfl (fun k _ => ?_)
  rw [mul_assoc]
  congr 1
  rw [← kerZ_ker, ← kerZ_ker, ← kerZ_neg, ← kerZ_add]
  refine kerZ_congr hn ?_ _
  have h1 := Int.emod_nonneg ((j.val : ℤ) - s) hz.ne'
  push_cast
  rw [Int.toNat_of_nonneg h1, Int.emod_emod_of_dvd _ (dvd_refl _)]
  congr 1; ring

theorem delayed_delayed {α : Type} (a b : ℤ) (x : Fin n → α) : delayed a (delayed b x) = delayed (a + b) x := by
  funext i
  have hz : (0 : ℤ) < n := by exact_mod_cast Nat.lt_of_le_of_lt (Nat.zero_le _) i.isLt
  unfold delayed
  congr 1
  apply Fin.ext
  show ((((((i.val : ℤ) - a) % n).toNat : ℤ) - b) % n).toNat = (((i.val : ℤ) - (a + b)) % n).toNat
  congr 1
  rw [Int.toNat_of_nonneg (Int.emod_nonneg _ hz.ne'), Int.emod_sub_emod]
  congr 1; ring

theorem delayed_zero {α : Type} (x : Fin n → α) : delayed 0 x = x := by
  funext i
  unfold delayed
  congr 1
  apply Fin.ext
  show (((i.val : ℤ) - 0) % n).toNat = i.val
  rw [sub_zero, Int.emod_eq_of_lt (by positivity) (by exact_mod_cast i.isLt)]; rfl

theorem delayed_comp {α β : Type} (s : ℤ) (f : α → β) (x : Fin n → α) : delayed s (fun i => f (x i)) = fun i => f (delayed s x i) := rfl

theorem sum_delayed {M : Type} [AddCommMonoid M] (s : ℤ) (x : Fin n → M) : ∑ i, delayed s x i = ∑ i, x i := by
  have hb : Function.Bijective (fun i : Fin n => delayed s (id : Fin n → Fin n) i) := by
    refine Finite.injective_iff_bijective.1 (Function.LeftInverse.injective (g := fun i => delayed (-s) (id : Fin n → Fin n) i) (fun i => ?_))
    have := congrFun (delayed_delayed s (-s) (id : Fin n → Fin n)) i
    rw [add_neg_cancel, delayed_zero] at this
    exact this
  exact hb.sum_comp x

theorem delayed_periodic {α : Type} {q : ℤ} {x : Fin n → α} (h : delayed q x = x) (j : ℤ) : delayed (j * q) x = x := by
  have hneg : delayed (-q) x = x := by
    conv_lhs => rw [← h]
    rw [delayed_delayed, neg_add_cancel, delayed_zero]
  have hnat : ∀ (p : ℤ), delayed p x = x → ∀ t : ℕ, delayed (t * p) x = x := fun p hp t => by
    induction t with
    | zero => simp [delayed_zero]
    | succ t ih => rw [show ((t + 1 : ℕ) : ℤ) * p = p + t * p by push_cast; ring, ← delayed_delayed, ih, hp]
  rcases Int.eq_nat_or_neg j with ⟨t, rfl | rfl⟩
  · exact hnat q h t
  · rw [neg_mul, ← mul_neg]; exact hnat (-q) hneg t

theorem norm_npIfft_smul (c : ℂ) (hc : ‖c‖ = 1) (X : Signal n) (i : Fin n) : ‖npIfft (fun k => c * X k) i‖ = ‖npIfft X i‖ := by
  rw [npIfft_smul, norm_mul, hc, one_mul]

/-! ### The harmonic index -/

/-- **C68.** The index of the harmonic is the right bin of the transform for every frequency that is a whole multiple `m` of its resolution `1/(n dt)`, and for every
frequency with `m` periods in the window, up to half (all of) the grid. -/
theorem C68_harmonic_index (hn : 2 ≤ n) {P : Prop_ n} (hw : 0 < P.window) {m : ℕ} (hm : 0 < m) :
    (2 * m ≤ n → harmonicInd P (m / (n * P.dt)) = m) ∧ (m < n → harmonicInd P (m / P.window) = m) := by
  have h1 := two_le_cast hn
  have hn1 : (2 : ℝ) ≤ n := by exact_mod_cast hn
  have hn0 : (0 : ℝ) < n := by linarith
  have hm1 : (1 : ℝ) ≤ m := by exact_mod_cast hm
  have hpos : (0 : ℝ) < (n : ℝ) - 1 := by linarith
  obtain ⟨m', rfl⟩ : ∃ m', m = m' + 1 := ⟨m - 1, by omega⟩
  constructor
  · intro h
    have h2 : (2 * (m' + 1 : ℕ) : ℝ) ≤ n := by exact_mod_cast h
    have e : ((m' + 1 : ℕ) : ℝ) / (n * P.dt) / P.df = ((m' + 1 : ℕ) : ℝ) * ((n : ℝ) - 1) ^ 2 / (n : ℝ) ^ 2 := by
      rw [(dt_df P).1, (dt_df P).2]; field_simp
    have hf : ⌊((m' + 1 : ℕ) : ℝ) / (n * P.dt) / P.df⌋₊ = m' := by
      rw [e, Nat.floor_eq_iff (by positivity)]
      push_cast at h2 ⊢
      constructor
      · rw [le_div_iff₀ (by positivity)]; nlinarith
      · rw [div_lt_iff₀ (by positivity)]; nlinarith [sq_nonneg ((n : ℝ) - 1)]
    unfold harmonicInd
    rw [hf, if_neg (by omega)]
  · intro h
    have h2 : ((m' + 1 : ℕ) : ℝ) ≤ n := by exact_mod_cast h.le
    have e : ((m' + 1 : ℕ) : ℝ) / P.window / P.df = ((m' + 1 : ℕ) : ℝ) * ((n : ℝ) - 1) / n := by
      rw [(dt_df P).2]; field_simp
    have hf : ⌊((m' + 1 : ℕ) : ℝ) / P.window / P.df⌋₊ = m' := by
      rw [e, Nat.floor_eq_iff (by positivity)]
      push_cast at h2 ⊢
      constructor
      · rw [le_div_iff₀ (by positivity)]; nlinarith
      · rw [div_lt_iff₀ (by positivity)]; nlinarith
    unfold harmonicInd
    rw [hf, if_neg (by omega)]

/-- **C68, finding.** A frequency on the frequency axis of the propagator, `m * df`, gets the index of the next bin. -/
theorem C68_index_off_by_one (hn : 2 ≤ n) {P : Prop_ n} (hw : 0 < P.window) {m : ℕ} (hm : m + 1 < n) : harmonicInd P (m * P.df) = m + 1 := by
  have hdf : P.df ≠ 0 := (df_pos' hn hw).ne'
  unfold harmonicInd
  rw [mul_div_cancel_right₀ _ hdf, Nat.floor_natCast, if_neg (by omega)]

/-- **C68, finding.** Frequencies from the bandwidth of the grid on: the index is cut to the number of samples, which is no index, and every evaluation raises `IndexError`. -/
theorem C68_index_error {P : Prop_ n} {freq : ℝ} (h : n ≤ ⌊freq / P.df⌋₊ + 1) (tp : Fin n → ℝ) (amp : ℝ) (x : Signal n) :
    pulseScore P tp freq x = .error .indexError ∧ rfScore P tp amp freq x = .error .indexError := by
  have hi : ¬ harmonicInd P freq < n := by unfold harmonicInd; simp [h]
  constructor
  · unfold pulseScore pulseShift; rw [dif_neg hi]
  · unfold rfScore rfShift; rw [dif_neg hi]

/-! ### Pulse repetition -/

theorem arg_mul_expI {z : ℂ} (hz : z ≠ 0) (θ : ℝ) : ∃ j : ℤ, (z * exp (I * (θ : ℂ))).arg = z.arg + θ + 2 * Real.pi * j := by
  have h1 : ‖z * exp (I * (θ : ℂ))‖ = ‖z‖ := by rw [norm_mul, norm_expI, mul_one]
  have e1 := norm_mul_exp_arg_mul_I (z * exp (I * (θ : ℂ)))
  have e2 := norm_mul_exp_arg_mul_I z
  rw [h1] at e1
  have hz' : (‖z‖ : ℂ) ≠ 0 := by exact_mod_cast (norm_pos_iff.2 hz).ne'
  have : exp (((z * exp (I * (θ : ℂ))).arg : ℂ) * I) = exp ((z.arg : ℂ) * I + I * θ) := by
    apply mul_left_cancel₀ hz'
    rw [e1, Complex.exp_add, ← mul_assoc, e2]
  rw [exp_eq_exp_iff_exists_int] at this
  obtain ⟨j, hj⟩ := this
  refine ⟨j, ?_⟩
  have h2 : (((z * exp (I * (θ : ℂ))).arg : ℂ)) = ((z.arg + θ + 2 * Real.pi * j : ℝ) : ℂ) := by
    apply mul_right_cancel₀ I_ne_zero
    rw [hj]; push_cast; ring
  exact_mod_cast h2

/-- The scale array is the signed bin number up to a constant. -/
theorem pulseScale_eq (k : Fin n) : ∃ c : ℤ, pulseScale n k = c / n ∧ c % n = ((k : ℤ) + (n - n / 2 : ℕ)) % n := by
  refine ⟨(((k : ℕ) + (n - n / 2)) % n : ℕ), rfl, ?_⟩
  push_cast
  rw [Int.emod_emod_of_dvd _ (dvd_refl _)]

/-- **C68.** Pulse repetition: if the target repeats `m` times in the window (`m` divides the number of samples, the repetition rate is `m/(n dt)`), the score does not depend on
when the pulses arrive: every delay of the output has the same score (provided the output contains the harmonic at all). -/
theorem C68_pulse_delay_invariant (hn : 2 ≤ n) {P : Prop_ n} (hw : 0 < P.window) {m q : ℕ} (hm : 0 < m) (hq : n = m * q) (hq1 : 1 < q) {tp : Fin n → ℝ}
    (hper : delayed q tp = tp) (x : Signal n) (hx : npFft x ⟨m, by subst hq; nlinarith⟩ ≠ 0) (s : ℤ) :
    pulseScore P tp (m / (n * P.dt)) (delayed s x) = pulseScore P tp (m / (n * P.dt)) x := by
  have hn0 : 0 < n := by omega
  have hnC : (n : ℝ) ≠ 0 := by exact_mod_cast hn0.ne'
  have hmC : (m : ℝ) ≠ 0 := by exact_mod_cast hm.ne'
  have hmn : m < n := by subst hq; nlinarith
  have hnq : (n : ℝ) = m * q := by exact_mod_cast hq
  have hqC : (q : ℝ) ≠ 0 := by exact_mod_cast (by omega : q ≠ 0)
  have hdt := dt_ne_zero hn hw
  have hind : harmonicInd P (m / (n * P.dt)) = m := (C68_harmonic_index hn hw hm).1 (by subst hq; nlinarith)
  unfold pulseScore pulseShift
  simp only [hind]
  rw [dif_pos hmn, dif_pos hmn]
  set mF : Fin n := ⟨m, hmn⟩ with hmF
  have hx' : npFft (delayed s x) mF ≠ 0 := by
    rw [delayed_fft]; exact mul_ne_zero hx (inv_ne_zero (kerZ_ne _ _ _))
  have hx0 : npFft x mF ≠ 0 := hx
  rw [if_neg hx', if_neg hx0]
  set T := npFft (fun i => ((tp i : ℝ) : ℂ)) with hT
  by_cases hT0 : T mF = 0
  · rw [if_pos hT0, if_pos hT0]
  rw [if_neg hT0, if_neg hT0]
  simp only
  congr 1
  -- the phase of the delayed signal
  have hz : npFft x mF / T mF ≠ 0 := div_ne_zero hx0 hT0
  obtain ⟨j, hj⟩ := arg_mul_expI hz (-(2 * Real.pi * s * m / n))
  have hz' : npFft (delayed s x) mF / T mF = npFft x mF / T mF * exp (I * ((-(2 * Real.pi * s * m / n) : ℝ) : ℂ)) := by
    rw [delayed_fft]
    simp only
    rw [← kerZ_neg]
    unfold kerZ
    rw [mul_div_right_comm]
    congr 3
    simp only [hmF]; push_cast; ring
  rw [hz', hj]
  have hrep : (m : ℝ) / (n * P.dt) * P.dt = m / n := by field_simp
  rw [hrep]
  set φ := (npFft x mF / T mF).arg with hφ
  have hshift : (φ + -(2 * Real.pi * s * m / n) + 2 * Real.pi * j) / (m / n) = φ / (m / n) - 2 * Real.pi * s + 2 * Real.pi * (j * q : ℤ) := by
    push_cast
    rw [hnq]; field_simp; ring
  rw [hshift]
  set y : Signal n := npIfft (fun k => npFft x k * exp (-I * ((φ / (m / n) * pulseScale n k : ℝ) : ℂ))) with hy
  set c0 : ℤ := ((n - n / 2 : ℕ) : ℤ) with hc0
  have hmask : ∀ k : Fin n, npFft (delayed s x) k * exp (-I * (((φ / (m / n) - 2 * Real.pi * s + 2 * Real.pi * (j * q : ℤ)) * pulseScale n k : ℝ) : ℂ)) =
      (kerZ n s c0 * (kerZ n (j * q) c0)⁻¹) * ((npFft x k * exp (-I * ((φ / (m / n) * pulseScale n k : ℝ) : ℂ))) * (kerZ n (j * q) k)⁻¹) := fun k => by
    obtain ⟨c, hc, hcm⟩ := pulseScale_eq k
    have e1 : exp (-I * (((φ / (m / n) - 2 * Real.pi * s + 2 * Real.pi * (j * q : ℤ)) * pulseScale n k : ℝ) : ℂ)) =
        exp (-I * ((φ / (m / n) * pulseScale n k : ℝ) : ℂ)) * kerZ n s c * (kerZ n (j * q) c)⁻¹ := by
      rw [← kerZ_neg]
      unfold kerZ
      rw [← Complex.exp_add, ← Complex.exp_add]
      congr 1
      rw [hc]; push_cast; ring
    have e2 : ∀ u : ℤ, kerZ n u c = kerZ n u k * kerZ n u c0 := fun u => by
      rw [kerZ_comm n u c, kerZ_congr hn0 hcm, kerZ_add, kerZ_comm n u k, kerZ_comm n u c0]
    rw [e1, delayed_fft, e2, e2]
    have := kerZ_ne n s k
    have := kerZ_ne n (j * q) k
    have := kerZ_ne n (j * q) c0
    field_simp
  have hnorm : ∀ i, ‖npIfft (fun k => npFft (delayed s x) k *
      exp (-I * (((φ / (m / n) - 2 * Real.pi * s + 2 * Real.pi * (j * q : ℤ)) * pulseScale n k : ℝ) : ℂ))) i‖ = ‖delayed (j * q) y i‖ := fun i => by
    rw [show (fun k => npFft (delayed s x) k * exp (-I * (((φ / (m / n) - 2 * Real.pi * s + 2 * Real.pi * (j * q : ℤ)) * pulseScale n k : ℝ) : ℂ))) =
      fun k => (kerZ n s c0 * (kerZ n (j * q) c0)⁻¹) * ((npFft x k * exp (-I * ((φ / (m / n) * pulseScale n k : ℝ) : ℂ))) * (kerZ n (j * q) k)⁻¹) from funext hmask,
      norm_npIfft_smul _ (by rw [norm_mul, norm_inv, norm_kerZ, norm_kerZ]; simp)]
    have hyd : delayed (j * q) y = npIfft (fun k => (npFft x k * exp (-I * ((φ / (m / n) * pulseScale n k : ℝ) : ℂ))) * (kerZ n (j * q) k)⁻¹) := by
      rw [← npIfft_npFft (delayed (j * q) y), delayed_fft, hy, npFft_npIfft]
    rw [hyd]
  simp only [hnorm]
  have hper' := delayed_periodic hper j
  calc ∑ i, (((‖delayed (j * q) y i‖ : ℝ) : ℂ) - (tp i : ℂ)) ^ 2
      = ∑ i, delayed (j * q) (fun i => (((‖y i‖ : ℝ) : ℂ) - (tp i : ℂ)) ^ 2) i := by
        refine sum_congr rfl (fun i _ => ?_)
        conv_lhs => rw [← hper']
        rfl
    _ = _ := sum_delayed _ _

theorem pulseScale_mul_zero (k : Fin n) : exp (-I * ((0 * pulseScale n k : ℝ) : ℂ)) = 1 := by simp

/-- **C68.** … and so the repeated target itself has score zero, whenever it arrives. -/
theorem C68_pulse_target_perfect (hn : 2 ≤ n) {P : Prop_ n} (hw : 0 < P.window) {m q : ℕ} (hm : 0 < m) (hq : n = m * q) (hq1 : 1 < q) {tp : Fin n → ℝ}
    (hper : delayed q tp = tp) (h0 : ∀ i, 0 ≤ tp i) (hx : npFft (fun i => ((tp i : ℝ) : ℂ)) ⟨m, by subst hq; nlinarith⟩ ≠ 0) (s : ℤ) :
    pulseScore P tp (m / (n * P.dt)) (fun i => ((delayed s tp i : ℝ) : ℂ)) = .ok 0 := by
  have hmn : m < n := by subst hq; nlinarith
  have hind : harmonicInd P (m / (n * P.dt)) = m := (C68_harmonic_index hn hw hm).1 (by subst hq; nlinarith)
  rw [show (fun i => ((delayed s tp i : ℝ) : ℂ)) = delayed s (fun i => ((tp i : ℝ) : ℂ)) from rfl, C68_pulse_delay_invariant hn hw hm hq hq1 hper _ hx s]
  unfold pulseScore pulseShift
  simp only [hind]
  rw [dif_pos hmn, if_neg hx, if_neg hx]
  simp only [div_self hx, arg_one, zero_div, pulseScale_mul_zero, mul_one, npIfft_npFft]
  congr 1
  refine sum_eq_zero (fun i _ => ?_)
  rw [Complex.norm_real, Real.norm_of_nonneg (h0 i)]; simp

/-! ### Waveform generation -/

theorem fracDelay_int (s : ℤ) (x : Signal n) : fracDelay (s : ℝ) x = delayed s x := by
  rcases Nat.eq_zero_or_pos n with rfl | hn
  · funext k; exact k.elim0
  rw [← npIfft_npFft (delayed s x), delayed_fft]
  unfold fracDelay
  congr 1
  funext k
  congr 1
  have : exp (-(I * ((2 * Real.pi * (signedBin n k : ℝ) * (s : ℝ) / n : ℝ) : ℂ))) = (kerZ n (signedBin n k) s)⁻¹ := by
    unfold kerZ; rw [Complex.exp_neg]
  rw [this, kerZ_comm]
  congr 1
  rw [kerZ_comm n s, kerZ_comm n s]
  refine kerZ_congr hn ?_ _
  unfold signedBin
  split
  · rfl
  · rw [Int.sub_emod_right]

/-- **C68, finding.** Waveform generation turns the phase the wrong way: given the target itself, arriving `s` samples late (or early), the evaluator does not undo the delay but
delays by more than `s` once again: what it compares with the target is the target delayed by `s (1 + m df / harmonic)` samples, `m = ⌊harmonic / df⌋ + 1`. -/
theorem C68_rf_wrong_way (hn : 2 ≤ n) {P : Prop_ n} (hw : 0 < P.window) {harmonic : ℝ} (hh : 0 < harmonic) {m : ℕ} (hm : ⌊harmonic / P.df⌋₊ + 1 = m) (hmn : m < n)
    {target : Fin n → ℝ} (ht : npFft (fun i => ((target i : ℝ) : ℂ)) ⟨m, hmn⟩ ≠ 0) {s : ℤ} (hs : 2 * |s| * m < n) :
    ∃ τ : ℝ, rfShift P target harmonic (fun i => ((delayed s target i : ℝ) : ℂ)) = .ok (fun i => ‖fracDelay (s + s * τ) (fun i => ((target i : ℝ) : ℂ)) i‖) ∧
      1 < τ ∧ τ = m * P.df / harmonic := by
  have hn0 : (0 : ℝ) < n := by exact_mod_cast (by omega : 0 < n)
  have hdf := df_pos' hn hw
  have hdt := dt_ne_zero hn hw
  have hdtC : (P.dt : ℂ) ≠ 0 := by exact_mod_cast hdt
  refine ⟨m * P.df / harmonic, ?_, ?_, rfl⟩
  · have hind : harmonicInd P harmonic = m := by unfold harmonicInd; simp only [hm]; rw [if_neg (by omega)]
    unfold rfShift
    simp only [hind]
    rw [dif_pos hmn]
    set T : Signal n := fun i => ((target i : ℝ) : ℂ) with hT
    have hT0 : fft_ T P.dt ⟨m, hmn⟩ ≠ 0 := mul_ne_zero ht hdtC
    rw [if_neg hT0]
    congr 1
    have hd : (fun i => ((delayed s target i : ℝ) : ℂ)) = delayed s T := rfl
    have hph : (fft_ (delayed s T) P.dt ⟨m, hmn⟩ / fft_ T P.dt ⟨m, hmn⟩).arg = -(2 * Real.pi * s * m / n) := by
      have : fft_ (delayed s T) P.dt ⟨m, hmn⟩ / fft_ T P.dt ⟨m, hmn⟩ = exp (I * ((-(2 * Real.pi * s * m / n) : ℝ) : ℂ)) := by
        unfold fft_ at hT0 ⊢
        rw [delayed_fft]
        simp only
        rw [← kerZ_neg, mul_right_comm, mul_div_cancel_left₀ _ hT0]
        unfold kerZ; congr 3; push_cast; ring
      rw [this, mul_comm, exp_mul_I, arg_cos_add_sin_mul_I]
      have hs' : (2 * |(s : ℝ)| * m : ℝ) < n := by exact_mod_cast hs
      have hpi := Real.pi_pos
      have habs : |2 * Real.pi * s * m / n| < Real.pi := by
        rw [abs_div, abs_of_pos hn0, div_lt_iff₀ hn0, abs_mul, abs_mul, abs_mul, abs_of_pos hpi, Nat.abs_cast, abs_two]
        nlinarith
      rw [abs_lt] at habs
      exact ⟨by linarith [habs.2], by linarith [habs.1]⟩
    rw [hd, hph]
    funext i
    rw [show ifft_ (fun k => exp (I * ((-(2 * Real.pi * s * m / n) * (ifftShift P.f k / harmonic) : ℝ) : ℂ)) * fft_ (delayed s T) P.dt k) P.dt i =
      freqMul (fun k => exp (I * ((-(2 * Real.pi * s * m / n) * (ifftShift P.f k / harmonic) : ℝ) : ℂ))) P.dt (delayed s T) i from rfl, freqMul_eq _ hdt]
    set e : ℝ := if n % 2 = 0 then 1 / 2 else 0 with he
    set c : ℂ := exp (I * ((-(2 * Real.pi * s * m / n) * (P.df * e / harmonic) : ℝ) : ℂ)) with hc
    rw [show (fun k => exp (I * ((-(2 * Real.pi * s * m / n) * (ifftShift P.f k / harmonic) : ℝ) : ℂ)) * npFft (delayed s T) k) =
      fun k => c * (npFft T k * exp (-(I * ((2 * Real.pi * signedBin n k * (s + s * (m * P.df / harmonic)) / n : ℝ) : ℂ)))) from ?_, norm_npIfft_smul c (norm_expI _)]
    · rfl
    funext k
    rw [← fracDelay_int]
    unfold fracDelay
    rw [npFft_npIfft, C53_shifted_axis hn P k, hc]
    have : exp (-(I * ((2 * Real.pi * signedBin n k * (s + s * (m * P.df / harmonic)) / n : ℝ) : ℂ))) =
        exp (-(I * ((2 * Real.pi * signedBin n k * (s : ℝ) / n : ℝ) : ℂ))) * exp (I * ((-(2 * Real.pi * s * m / n) * (P.df * signedBin n k / harmonic) : ℝ) : ℂ)) := by
      rw [← Complex.exp_add]; congr 1; push_cast; ring
    rw [this]
    have e2 : exp (I * ((-(2 * Real.pi * s * m / n) * (P.df * (signedBin n k + e) / harmonic) : ℝ) : ℂ)) =
        exp (I * ((-(2 * Real.pi * s * m / n) * (P.df * e / harmonic) : ℝ) : ℂ)) * exp (I * ((-(2 * Real.pi * s * m / n) * (P.df * signedBin n k / harmonic) : ℝ) : ℂ)) := by
      rw [← Complex.exp_add]; congr 1; push_cast; ring
    rw [e2]; ring
  · rw [lt_div_iff₀ hh, one_mul, ← div_lt_iff₀ hdf]
    have := Nat.lt_floor_add_one (harmonic / P.df)
    rw [← hm]; push_cast; exact this

/-- **C68, finding.** With the fundamental frequency `df` of the grid as harmonic: the target has score zero, but arriving `s` samples late it is compared with
itself delayed by `3 s` samples, and has a positive score unless that is the same. -/
theorem C68_rf_delay_penalised (hn : 3 ≤ n) {P : Prop_ n} (hw : 0 < P.window) {amp : ℝ} (ha : amp ≠ 0) {target : Fin n → ℝ} (h0 : ∀ i, 0 ≤ target i)
    (ht : npFft (fun i => ((target i : ℝ) : ℂ)) ⟨2, hn⟩ ≠ 0) {s : ℤ} (hs : 4 * |s| < n) :
    rfScore P target amp P.df (fun i => ((target i : ℝ) : ℂ)) = .ok 0 ∧
    ∃ score, rfScore P target amp P.df (fun i => ((delayed s target i : ℝ) : ℂ)) = .ok score ∧ (delayed (3 * s) target ≠ target → 0 < score) := by
  have hdf := df_pos' (by omega : 2 ≤ n) hw
  have hn0 : (0 : ℝ) < n := by exact_mod_cast (by omega : 0 < n)
  have key : ∀ s : ℤ, 4 * |s| < n → rfScore P target amp P.df (fun i => ((delayed s target i : ℝ) : ℂ)) = .ok (simL2mean (delayed (3 * s) target) target / amp ^ 2) := fun s hs => by
    obtain ⟨τ, h1, _, h3⟩ := C68_rf_wrong_way (m := 2) (by omega : 2 ≤ n) hw hdf (by rw [div_self hdf.ne']; simp) hn ht (s := s) (by push_cast; linarith)
    have : (s : ℝ) + s * τ = ((3 * s : ℤ) : ℝ) := by rw [h3]; push_cast; field_simp; ring
    unfold rfScore
    rw [h1]
    simp only
    rw [if_neg (by positivity), this, fracDelay_int]
    congr 3
    funext i
    show ‖((delayed (3 * s) target i : ℝ) : ℂ)‖ = delayed (3 * s) target i
    rw [Complex.norm_real]; exact Real.norm_of_nonneg (h0 _)
  constructor
  · have := key 0 (by simp; omega)
    simp only [delayed_zero, mul_zero] at this
    rw [this]
    unfold simL2mean npMean; simp
  · refine ⟨_, key s hs, fun hne => ?_⟩
    have h2 := (C67_distances (delayed (3 * s) target) target).2
    have : 0 < simL2 (delayed (3 * s) target) target := lt_of_le_of_ne h2.1 (fun h => hne (h2.2.2.1 h.symm))
    have : 0 < simL2mean (delayed (3 * s) target) target := div_pos this hn0
    positivity

/-! ### Cases meeting the hypotheses -/

/-- Two pulses in four samples. -/
example : (2 : ℕ) ≤ 4 ∧ 0 < demoProp.window ∧ (4 : ℕ) = 2 * 2 ∧ delayed ((2 : ℕ) : ℤ) (![1, 0, 1, 0] : Fin 4 → ℝ) = ![1, 0, 1, 0] ∧
    npFft (fun i => (((![1, 0, 1, 0] : Fin 4 → ℝ) i : ℝ) : ℂ)) 2 ≠ 0 ∧ delayed 1 (![1, 0, 1, 0] : Fin 4 → ℝ) ≠ ![1, 0, 1, 0] := by
  refine ⟨by norm_num, by norm_num [demoProp], by norm_num, ?_, ?_, ?_⟩
  · funext i; fin_cases i <;> simp [delayed]
  · have : npFft (fun i => (((![1, 0, 1, 0] : Fin 4 → ℝ) i : ℝ) : ℂ)) 2 = 1 + (ker 4 2 2)⁻¹ := by
      rw [npFft_ker]; simp [Fin.sum_univ_four, ker]
    have h1 : ker 4 2 2 = 1 := by
      rw [← kerZ_ker]
      have := kerZ_mul_n (n := 4) (by norm_num) 1 1
      rw [← this]; unfold kerZ; congr 3; norm_num; ring
    rw [this, h1]; norm_num
  · intro h; have := congrFun h 0; simp [delayed] at this

/-- An impulse on five samples, one sample late: the hypotheses of the last two theorems. -/
example : ∃ (P : Prop_ 5) (target : Fin 5 → ℝ) (s : ℤ), 0 < P.window ∧ (∀ i, 0 ≤ target i) ∧ npFft (fun i => ((target i : ℝ) : ℂ)) 2 ≠ 0 ∧ 4 * |s| < 5 ∧
    2 * |s| * (2 : ℕ) < 5 ∧ ⌊P.df / P.df⌋₊ + 1 = 2 ∧ delayed (3 * s) target ≠ target := by
  refine ⟨⟨1, 1⟩, fun i => if i = 0 then 1 else 0, 1, by norm_num, fun i => by simp only; split <;> norm_num, ?_, by norm_num, by norm_num, ?_, ?_⟩
  · rw [npFft_ker, sum_eq_single 0 (fun b _ hb => by simp [hb]) (fun h => absurd (mem_univ _) h)]
    simp [ker_ne_zero]
  · rw [div_self (df_pos' (by norm_num) (by norm_num)).ne']; simp
  · intro h
    have := congrFun h 0
    simp [delayed] at this

/-- A frequency beyond the grid. -/
example : 4 ≤ ⌊(4 * demoProp.df) / demoProp.df⌋₊ + 1 := by
  rw [mul_div_cancel_right₀ _ (df_pos' (by norm_num) (by norm_num [demoProp])).ne']
  norm_num

/-! Cases of the theorems above. -/

example : harmonicInd demoProp (2 * demoProp.df) = 3 := by
  simpa using C68_index_off_by_one (n := 4) (by norm_num) (P := demoProp) (by norm_num [demoProp]) (m := 2) (by norm_num)

/-- Alternating pulses in a window of four samples, delayed by one. -/
theorem demo_alternating (hm : 2 < 4) : delayed ((2 : ℕ) : ℤ) (![1, 0, 1, 0] : Fin 4 → ℝ) = ![1, 0, 1, 0] ∧
    npFft (fun i => (((![1, 0, 1, 0] : Fin 4 → ℝ) i : ℝ) : ℂ)) ⟨2, hm⟩ ≠ 0 := by
  refine ⟨by funext i; fin_cases i <;> simp [delayed], ?_⟩
  have : npFft (fun i => (((![1, 0, 1, 0] : Fin 4 → ℝ) i : ℝ) : ℂ)) 2 = 1 + (ker 4 2 2)⁻¹ := by
    rw [npFft_ker]; simp [Fin.sum_univ_four, ker]
  have h1 : ker 4 2 2 = 1 := by
    rw [← kerZ_ker]
    have := kerZ_mul_n (n := 4) (by norm_num) 1 1
    rw [← this]; unfold kerZ; congr 3; norm_num; ring
  change npFft (fun i => (((![1, 0, 1, 0] : Fin 4 → ℝ) i : ℝ) : ℂ)) 2 ≠ 0
  rw [this, h1]; norm_num

example := C68_pulse_delay_invariant (n := 4) (by norm_num) (P := demoProp) (by norm_num [demoProp]) (m := 2) (q := 2) (by norm_num) (by norm_num) (by norm_num)
  (demo_alternating (by norm_num)).1 _ (demo_alternating _).2 1
example := C68_pulse_target_perfect (n := 4) (by norm_num) (P := demoProp) (by norm_num [demoProp]) (m := 2) (q := 2) (by norm_num) (by norm_num) (by norm_num)
  (demo_alternating (by norm_num)).1 (fun i => by fin_cases i <;> simp) (demo_alternating _).2 1

/-- One sample of five in the target. -/
theorem demo_single (m : ℕ) (hm : m < 5) : npFft (fun i : Fin 5 => (((if i = 0 then (1 : ℝ) else 0) : ℝ) : ℂ)) ⟨m, hm⟩ ≠ 0 := by
  rw [npFft_ker, sum_eq_single 0 (fun b _ hb => by simp [hb]) (fun h => absurd (mem_univ _) h)]
  simp [ker_ne_zero]

example := C68_rf_wrong_way (n := 5) (by norm_num) (P := ⟨1, 1⟩) (by norm_num) (harmonic := (⟨1, 1⟩ : Prop_ 5).df) (df_pos' (by norm_num) (by norm_num)) (m := 2)
  (by rw [div_self (df_pos' (by norm_num) (by norm_num)).ne']; simp) (by norm_num) (demo_single 2 (by norm_num)) (s := 1) (by norm_num)
example := C68_rf_delay_penalised (n := 5) (by norm_num) (P := ⟨1, 1⟩) (by norm_num) (amp := 1) one_ne_zero (target := fun i => if i = 0 then 1 else 0)
  (fun i => by split <;> norm_num) (demo_single 2 (by norm_num)) (s := 1) (by norm_num)
example := C68_index_error (n := 4) (P := demoProp) (freq := 4 * demoProp.df) (by
  rw [mul_div_cancel_right₀ _ (df_pos' (by norm_num) (by norm_num [demoProp])).ne']
  norm_num)


/-- The first harmonic of a window of four samples has index 1 either way. -/
example : harmonicInd demoProp (((1 : ℕ) : ℝ) / demoProp.window) = 1 :=
  (C68_harmonic_index (n := 4) (by norm_num) (P := demoProp) (by norm_num [demoProp]) (m := 1) (by norm_num)).2 (by norm_num)

end Verif
