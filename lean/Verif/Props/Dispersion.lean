import Verif.Props.Alignment
import Verif.Props.Components
import Verif.Props.Shaping
/-!
# Delays and dispersion in time (C64, C79)
-/

namespace Verif
open Complex Finset

variable {n : Nat}

/-! ### Masks and shifts -/

theorem signedBin_emod (k : Fin n) : signedBin n k % n = (k : ℤ) % n := by
  unfold signedBin
  split
  · rfl
  · rw [Int.sub_emod_right]

theorem kerZ_signed (d : ℤ) (k : Fin n) : kerZ n d (signedBin n k) = kerZ n d k := by
  have hn : 0 < n := Nat.lt_of_le_of_lt (Nat.zero_le _) k.isLt
  rw [kerZ_comm, kerZ_congr hn (signedBin_emod k), kerZ_comm]

theorem freqMul_congr {H G : Signal n} {dt : ℝ} (h : dt ≠ 0) {x : Signal n} (hHG : ∀ k, npFft x k ≠ 0 → H k = G k) :
    freqMul H dt x = freqMul G dt x := by
  rw [freqMul_eq _ h, freqMul_eq _ h]
  congr 1
  funext k
  by_cases hk : npFft x k = 0
  · rw [hk, mul_zero, mul_zero]
  · rw [hHG k hk]

theorem freqMul_shift (c : ℂ) (d : ℤ) {dt : ℝ} (h : dt ≠ 0) (x : Signal n) :
    freqMul (fun k => c * (kerZ n d k)⁻¹) dt x = fun i => c * delayed d x i := by
  rw [freqMul_eq _ h, ← npIfft_npFft (delayed d x), delayed_fft, ← npIfft_smul]
  congr 1
  funext k
  ring

/-- The spectrum of a signal repeating every `q` of `n = m * q` samples is empty but for every `m`-th line. -/
theorem periodic_spectrum {m q : ℕ} (hm : 0 < m) (hq : 0 < q) (hn : n = m * q) {x : Signal n} (hx : delayed q x = x) {k : Fin n}
    (hk : npFft x k ≠ 0) : (m : ℤ) ∣ k := by
  have h1 := congrFun (delayed_fft q x) k
  rw [hx] at h1
  have h2 : kerZ n q k = 1 := by
    have := mul_left_cancel₀ hk (show npFft x k * (kerZ n q k)⁻¹ = npFft x k * 1 by rw [← h1, mul_one])
    exact inv_eq_one.1 this
  unfold kerZ at h2
  rw [Complex.exp_eq_one_iff] at h2
  obtain ⟨z, hz⟩ := h2
  have hm' : (m : ℂ) ≠ 0 := by exact_mod_cast hm.ne'
  have hq' : (q : ℂ) ≠ 0 := by exact_mod_cast hq.ne'
  refine ⟨z, ?_⟩
  have hC : ((k : ℕ) : ℂ) = m * z := by
    have hnC : (n : ℂ) = m * q := by exact_mod_cast hn
    push_cast at hz
    rw [hnC] at hz
    field_simp at hz
    exact hz
  exact_mod_cast hC

theorem periodic_signed {m q : ℕ} (hm : 0 < m) (hq : 0 < q) (hn : n = m * q) {x : Signal n} (hx : delayed q x = x) {k : Fin n}
    (hk : npFft x k ≠ 0) : (m : ℤ) ∣ signedBin n k := by
  have h0 := periodic_spectrum hm hq hn hx hk
  unfold signedBin
  split
  · exact h0
  · exact dvd_sub h0 ⟨q, by exact_mod_cast hn⟩

theorem freqMul_frac (c : ℂ) (τ : ℝ) {dt : ℝ} (h : dt ≠ 0) (x : Signal n) :
    freqMul (fun k => c * exp (-(I * ((2 * Real.pi * signedBin n k * τ / n : ℝ) : ℂ)))) dt x = fun i => c * fracDelay τ x i := by
  rw [freqMul_eq _ h]
  unfold fracDelay
  rw [← npIfft_smul]
  congr 1
  funext k
  ring

/-- A signal of two spectral lines. -/
noncomputable def twoLines (a b : ℂ) (k l : Fin n) : Signal n := fun i => a * kerZ n i k + b * kerZ n i l

theorem freqMul_twoLines (H : Signal n) {dt : ℝ} (h : dt ≠ 0) (a b : ℂ) (k l : Fin n) :
    freqMul H dt (twoLines a b k l) = fun i : Fin n => H k * a * kerZ n i k + H l * b * kerZ n i l := by
  have hn : (n : ℂ) ≠ 0 := by
    have : 0 < n := Nat.lt_of_le_of_lt (Nat.zero_le _) k.isLt
    exact_mod_cast this.ne'
  have key : ∀ a b : ℂ, (fun i : Fin n => a * kerZ n i k + b * kerZ n i l) =
      npIfft (fun j => (if j = k then n * a else 0) + if j = l then n * b else 0) := by
    intro a b
    funext i
    rw [npIfft_ker]
    simp only [add_mul, sum_add_distrib, ite_mul, zero_mul, sum_ite_eq', mem_univ, if_true]
    rw [← kerZ_ker, ← kerZ_ker]
    field_simp
  unfold twoLines
  rw [freqMul_eq _ h, key a b, npFft_npIfft, key]
  congr 1
  funext j
  by_cases h1 : j = k
  · subst h1
    by_cases h2 : j = l
    · subst h2
      simp only [if_true]
      ring
    · simp only [if_true, if_neg h2]
      ring
  · by_cases h2 : j = l
    · subst h2
      simp only [if_true, if_neg h1]
      ring
    · simp only [if_neg h1, if_neg h2]
      ring

theorem beta2_val : beta2 = -(22 / 10 ^ 27) := by
  unfold beta2
  norm_num

/-! ### Delay lines -/

/-- **C79, finding.** A delay line of delay `τ` moves light *earlier*, up to a constant phase, by `τ (n / (n - 1))²` in units of the
time step. -/
theorem C79_delay_line (hn : 2 ≤ n) {P : Prop_ n} (hw : 0 < P.window) (τ : ℝ) :
    ∃ c : ℂ, ‖c‖ = 1 ∧ ∀ x, delayLine P τ x = fun i => c * fracDelay (-(τ / P.dt * ((n : ℝ) / (n - 1)) ^ 2)) x i := by
  have hd := dt_ne_zero hn hw
  have h1 := two_le_cast hn
  have hn' : (n : ℝ) ≠ 0 := by exact_mod_cast (by omega : n ≠ 0)
  refine ⟨exp (I * ((2 * Real.pi * (P.df * (if n % 2 = 0 then 1 / 2 else 0) + P.central) * τ : ℝ) : ℂ)), norm_expI _, fun x => ?_⟩
  rw [delayLine_eq, ← freqMul_frac _ _ hd]
  congr 1
  funext k
  rw [← mul_neg, ← ofReal_neg, ← expI_add]
  congr 3
  have hk : ifftShift (delayPhase P τ) k = 2 * Real.pi * (ifftShift P.f k + P.central) * τ := by
    unfold ifftShift
    rw [delayPhase_eq]
  rw [hk, C53_shifted_axis hn, (dt_df P).1, (dt_df P).2]
  have := hw.ne'
  field_simp
  ring

/-- **C79, finding.** In particular, the delay of `d` samples of the grid whose frequency axis the code uses makes every pulse arrive
`d` samples earlier. -/
theorem C79_earlier (hn : 2 ≤ n) {P : Prop_ n} (hw : 0 < P.window) (d : ℤ) (x : Signal n) :
    power_ (delayLine P (d * P.dt * (((n : ℝ) - 1) / n) ^ 2) x) = delayed (-d) (power_ x) := by
  obtain ⟨c, hc, h⟩ := C79_delay_line hn hw (d * P.dt * (((n : ℝ) - 1) / n) ^ 2)
  have hd := dt_ne_zero hn hw
  have h1 := two_le_cast hn
  have hn' : (n : ℝ) ≠ 0 := by exact_mod_cast (by omega : n ≠ 0)
  have e : -(d * P.dt * (((n : ℝ) - 1) / n) ^ 2 / P.dt * ((n : ℝ) / (n - 1)) ^ 2) = ((-d : ℤ) : ℝ) := by
    push_cast
    field_simp
  rw [h, e, fracDelay_int]
  funext i
  unfold power_
  rw [norm_mul, hc, one_mul]
  rfl

/-! ### Fibre -/

theorem fiber_mask {P : Prop_ n} (len : ℝ) (x : Signal n) :
    fiber P len false x = .ok (freqMul (fun k => exp (I * ((len * beta2 * (2 * Real.pi * ifftShift P.f k) ^ 2 : ℝ) : ℂ))) P.dt x) := by
  rw [fiber_eq]
  rfl

theorem norm_ratio {u v u' v' A B : ℂ} (hv : ‖v‖ = 1) (hv' : ‖v'‖ = 1) (h : u * v' = u' * v) :
    ‖u * A + v * B‖ = ‖u' * A + v' * B‖ := by
  have h0 : v' ≠ 0 := by
    intro e
    rw [e] at hv'
    simp at hv'
  have : u * A + v * B = v / v' * (u' * A + v' * B) := by
    field_simp
    linear_combination A * h
  rw [this, norm_mul, norm_div, hv, hv']
  simp

/-- **C79.** What dispersion does to any two spectral lines, `ω₁` and `ω₂` away from the centre: a fibre of length `L` acts on their beat
as a delay line of `2 β₂ L (ω₁ + ω₂) / 2` does, with `β₂` = -22 ps²/km.  (The group delay of a fibre with dispersion `β₂` is half that.) -/
theorem C79_fibre_beat (hn : 2 ≤ n) {P : Prop_ n} (hw : 0 < P.window) (L : ℝ) (a b : ℂ) (k l : Fin n) :
    ∃ y, fiber P L false (twoLines a b k l) = .ok y ∧
      power_ y = power_ (delayLine P (2 * (-22 / 10 ^ 27) * L * ((2 * Real.pi * ifftShift P.f k + 2 * Real.pi * ifftShift P.f l) / 2))
        (twoLines a b k l)) := by
  have hd := dt_ne_zero hn hw
  refine ⟨_, fiber_mask L _, ?_⟩
  rw [delayLine_eq, freqMul_twoLines _ hd, freqMul_twoLines _ hd]
  funext i
  unfold power_
  congr 1
  simp only [mul_assoc]
  refine norm_ratio (norm_expI _) (norm_expI _) ?_
  rw [← expI_add, ← expI_add]
  congr 3
  unfold ifftShift
  rw [delayPhase_eq, delayPhase_eq, beta2_val]
  ring

/-! ### The Talbot effect -/

/-- **C79.** Odd number of samples: a pulse train of `m` pulses in the window is unchanged by every multiple of the (code's) Talbot
length `1 / (2π |β₂| f²)`, `f` the repetition rate on the code's frequency axis. -/
theorem C79_talbot_odd (hn : 2 ≤ n) (ho : n % 2 = 1) {P : Prop_ n} (hw : 0 < P.window) {m q : ℕ} (hm : 0 < m) (hq : 0 < q) (hmq : n = m * q)
    {x : Signal n} (hx : delayed q x = x) (N : ℕ) :
    fiber P (N / (2 * Real.pi * (22 / 10 ^ 27) * (m * P.df) ^ 2)) false x = .ok x := by
  have hd := dt_ne_zero hn hw
  have hdf := (df_pos hn hw).ne'
  have hm' : (m : ℝ) ≠ 0 := by exact_mod_cast hm.ne'
  rw [fiber_mask, freqMul_congr hd (G := fun _ => 1), freqMul_const _ hd]
  · simp
  · intro k hk
    obtain ⟨j, hj⟩ := periodic_signed hm hq hmq hx hk
    rw [C53_shifted_axis hn, hj, beta2_val, if_neg (by omega)]
    rw [show ((N : ℝ) / (2 * Real.pi * (22 / 10 ^ 27) * (m * P.df) ^ 2) * -(22 / 10 ^ 27) *
      (2 * Real.pi * (P.df * (((m * j : ℤ) : ℝ) + 0))) ^ 2 : ℝ) = 2 * Real.pi * ((-(N * j ^ 2) : ℤ) : ℝ) by
        have := Real.pi_ne_zero
        push_cast
        field_simp
        ring]
    rw [show I * ((2 * Real.pi * ((-(N * j ^ 2) : ℤ) : ℝ) : ℝ) : ℂ) = ((-(N * j ^ 2) : ℤ) : ℂ) * (2 * Real.pi * I) by push_cast; ring]
    exact exp_int_mul_two_pi_mul_I _

/-- **C79.** Even number of samples: half the (code's) Talbot length, and every multiple `N` of it, delays a pulse train of `m` pulses by
`N (1 + 1/m)` half periods, and does nothing else but for a constant phase. -/
theorem C79_talbot_even (hn : 2 ≤ n) (he : n % 2 = 0) {P : Prop_ n} (hw : 0 < P.window) {m q : ℕ} (hm : 0 < m) (hq : 0 < q) (hmq : n = m * q)
    {x : Signal n} (hx : delayed q x = x) (N : ℕ) :
    ∃ c : ℂ, ‖c‖ = 1 ∧ fiber P (N / (4 * Real.pi * (22 / 10 ^ 27) * (m * P.df) ^ 2)) false x =
      .ok (fun i => c * fracDelay (N * (1 + 1 / m) * (q / 2)) x i) := by
  have hd := dt_ne_zero hn hw
  have hdf := (df_pos hn hw).ne'
  have hm' : (m : ℝ) ≠ 0 := by exact_mod_cast hm.ne'
  have hq' : (q : ℝ) ≠ 0 := by exact_mod_cast hq.ne'
  have hpi := Real.pi_ne_zero
  have hnR : (n : ℝ) = m * q := by exact_mod_cast hmq
  refine ⟨exp (I * ((-(Real.pi * N / (4 * m ^ 2)) : ℝ) : ℂ)), norm_expI _, ?_⟩
  rw [fiber_mask, ← freqMul_frac _ _ hd]
  congr 1
  refine freqMul_congr hd (fun k hk => ?_)
  obtain ⟨j, hj⟩ := periodic_signed hm hq hmq hx hk
  rw [C53_shifted_axis hn, hj, beta2_val, if_pos he, ← mul_neg, ← ofReal_neg, ← expI_add]
  obtain ⟨z, hz⟩ : (2 : ℤ) ∣ j ^ 2 - j := by
    have := Int.even_mul_pred_self j
    obtain ⟨z, hz⟩ := this
    exact ⟨z, by linear_combination hz⟩
  have hzR : (j : ℝ) ^ 2 = j + 2 * z := by
    have : ((j ^ 2 - j : ℤ) : ℝ) = ((2 * z : ℤ) : ℝ) := by rw [hz]
    push_cast at this
    linarith
  rw [show ((N : ℝ) / (4 * Real.pi * (22 / 10 ^ 27) * (m * P.df) ^ 2) * -(22 / 10 ^ 27) *
      (2 * Real.pi * (P.df * (((m * j : ℤ) : ℝ) + 1 / 2))) ^ 2 : ℝ) =
      (-(Real.pi * N / (4 * m ^ 2)) + -(2 * Real.pi * ((m * j : ℤ) : ℝ) * (N * (1 + 1 / m) * (q / 2)) / n)) +
        2 * Real.pi * ((-(N * z) : ℤ) : ℝ) by
    rw [hnR]
    push_cast
    field_simp
    linear_combination (-4 * (m : ℝ) ^ 2 * N) * hzR]
  rw [expI_add _ (2 * Real.pi * ((-(N * z) : ℤ) : ℝ)),
    show I * ((2 * Real.pi * ((-(N * z) : ℤ) : ℝ) : ℝ) : ℂ) = ((-(N * z) : ℤ) : ℂ) * (2 * Real.pi * I) by push_cast; ring,
    exp_int_mul_two_pi_mul_I, mul_one]

theorem expI_quarter (j : ℤ) : exp (I * ((-(Real.pi / 2 * j ^ 2) : ℝ) : ℂ)) =
    (1 - I) / 2 + (1 + I) / 2 * exp (-(I * ((Real.pi * j : ℝ) : ℂ))) := by
  rcases Int.even_or_odd' j with ⟨z, rfl | rfl⟩
  · have e1 : I * ((-(Real.pi / 2 * ((2 * z : ℤ) : ℝ) ^ 2) : ℝ) : ℂ) = ((-z ^ 2 : ℤ) : ℂ) * (2 * Real.pi * I) := by push_cast; ring
    have e2 : -(I * ((Real.pi * ((2 * z : ℤ) : ℝ) : ℝ) : ℂ)) = ((-z : ℤ) : ℂ) * (2 * Real.pi * I) := by push_cast; ring
    rw [e1, e2, exp_int_mul_two_pi_mul_I, exp_int_mul_two_pi_mul_I]
    ring
  · have e1 : I * ((-(Real.pi / 2 * ((2 * z + 1 : ℤ) : ℝ) ^ 2) : ℝ) : ℂ) =
        ((-(z ^ 2 + z) : ℤ) : ℂ) * (2 * Real.pi * I) + -(Real.pi / 2 * I) := by push_cast; ring
    have e2 : -(I * ((Real.pi * ((2 * z + 1 : ℤ) : ℝ) : ℝ) : ℂ)) = ((-z : ℤ) : ℂ) * (2 * Real.pi * I) + -(Real.pi * I) := by
      push_cast; ring
    rw [e1, e2, Complex.exp_add, Complex.exp_add, exp_int_mul_two_pi_mul_I, exp_int_mul_two_pi_mul_I, Complex.exp_neg, Complex.exp_neg,
      exp_pi_mul_I, exp_pi_div_two_mul_I]
    rw [inv_I, inv_neg, inv_one]
    ring

/-- **C79.** A quarter of the Talbot length doubles the repetition rate: every pulse train is mixed, half and half, with itself moved by half a
period. -/
theorem C79_quarter_talbot (hn : 2 ≤ n) (he : n % 2 = 0) {P : Prop_ n} (hw : 0 < P.window) {m r : ℕ} (hm : 0 < m) (hr : 0 < r)
    (hmr : n = m * (2 * r)) {x : Signal n} (hx : delayed (2 * r) x = x) :
    ∃ c : ℂ, ‖c‖ = 1 ∧ fiber P (1 / (8 * Real.pi * (22 / 10 ^ 27) * (m * P.df) ^ 2)) false x =
      .ok (fun i => c * fracDelay (r / (2 * m)) (fun i => (1 - I) / 2 * x i + (1 + I) / 2 * delayed r x i) i) := by
  have hd := dt_ne_zero hn hw
  have hdf := (df_pos hn hw).ne'
  have hm' : (m : ℝ) ≠ 0 := by exact_mod_cast hm.ne'
  have hr' : (r : ℝ) ≠ 0 := by exact_mod_cast hr.ne'
  have hpi := Real.pi_ne_zero
  have hnR : (n : ℝ) = m * (2 * r) := by exact_mod_cast hmr
  refine ⟨exp (I * ((-(Real.pi / (8 * m ^ 2)) : ℝ) : ℂ)), norm_expI _, ?_⟩
  rw [fiber_mask, ← freqMul_frac _ _ hd]
  congr 1
  have hG : freqMul (fun k : Fin n => (1 - I) / 2 + (1 + I) / 2 * (kerZ n r k)⁻¹) P.dt x =
      fun i => (1 - I) / 2 * x i + (1 + I) / 2 * delayed r x i := by
    have h1 := freqMul_const (n := n) ((1 - I) / 2) hd x
    have h2 := freqMul_shift ((1 + I) / 2) r hd x
    rw [freqMul_eq _ hd] at h1 h2 ⊢
    have := npIfft_add (fun k => (1 - I) / 2 * npFft x k) (fun k => (1 + I) / 2 * (kerZ n r k)⁻¹ * npFft x k)
    rw [h1, h2] at this
    rw [← this]
    congr 1
    funext k
    ring
  rw [← hG, freqMul_comp _ _ hd]
  refine freqMul_congr hd (fun k hk => ?_)
  obtain ⟨j, hj⟩ := periodic_signed (q := 2 * r) hm (by omega) hmr (by exact_mod_cast hx) hk
  have hker : (kerZ n r k)⁻¹ = exp (-(I * ((Real.pi * j : ℝ) : ℂ))) := by
    rw [← kerZ_signed, hj, Complex.exp_neg]
    unfold kerZ
    congr 4
    rw [hnR]
    push_cast
    field_simp
  rw [hker, ← expI_quarter, C53_shifted_axis hn, hj, beta2_val, if_pos he, ← mul_neg, ← ofReal_neg, ← expI_add, ← expI_add]
  congr 3
  rw [hnR]
  push_cast
  field_simp
  ring

/-- **C79.** The power after a quarter of the Talbot length, for pulses shorter than half the period (and a period divisible by four times the number of
pulses, so that the residual shift is `d` whole samples): pulses twice as often, with half the power. -/
theorem C79_rate_doubling (hn : 2 ≤ n) {P : Prop_ n} (hw : 0 < P.window) {m d : ℕ} (hm : 0 < m) (hd0 : 0 < d)
    (hmd : n = m * (2 * (2 * m * d))) {x : Signal n} (hx : delayed (2 * (2 * m * d)) x = x)
    (hshort : ∀ i, x i = 0 ∨ delayed (2 * m * d) x i = 0) :
    ∃ y, fiber P (1 / (8 * Real.pi * (22 / 10 ^ 27) * (m * P.df) ^ 2)) false x = .ok y ∧
      power_ y = delayed d (fun i => (power_ x i + power_ (delayed (2 * m * d) x) i) / 2) ∧
      delayed (2 * m * d) (power_ y) = power_ y := by
  have hm' : (m : ℝ) ≠ 0 := by exact_mod_cast hm.ne'
  obtain ⟨c, hc, h⟩ := C79_quarter_talbot hn (by rw [hmd, Nat.mul_left_comm]; exact Nat.mul_mod_right _ _) hw (r := 2 * m * d) hm (by positivity) hmd
    (x := x) (by exact_mod_cast hx)
  have hs : ((2 * m * d : ℕ) : ℝ) / (2 * m) = ((d : ℤ) : ℝ) := by
    push_cast
    field_simp
  rw [hs, fracDelay_int] at h
  have hp : power_ (fun i => c * delayed d (fun i => (1 - I) / 2 * x i + (1 + I) / 2 * delayed ((2 * m * d : ℕ) : ℤ) x i) i) =
      delayed d (fun i => (power_ x i + power_ (delayed (2 * m * d) x) i) / 2) := by
    have : ∀ i, ‖(1 - I) / 2 * x i + (1 + I) / 2 * delayed ((2 * m * d : ℕ) : ℤ) x i‖ ^ 2 =
        (power_ x i + power_ (delayed (2 * m * d) x) i) / 2 := by
      intro i
      unfold power_
      push_cast
      have n1 : ‖(1 - I) / 2‖ ^ 2 = 1 / 2 := by
        rw [← Complex.normSq_eq_norm_sq]
        norm_num [Complex.normSq_apply]
      have n2 : ‖(1 + I) / 2‖ ^ 2 = 1 / 2 := by
        rw [← Complex.normSq_eq_norm_sq]
        norm_num [Complex.normSq_apply]
      rcases hshort i with h | h
      · rw [h, mul_zero, zero_add, norm_mul, mul_pow, n2, norm_zero]
        ring
      · rw [h, mul_zero, add_zero, norm_mul, mul_pow, n1, norm_zero]
        ring
    funext i
    unfold power_ at *
    rw [norm_mul, hc, one_mul]
    exact this _
  refine ⟨_, h, hp, ?_⟩
  rw [hp, delayed_delayed, add_comm, ← delayed_delayed]
  congr 1
  have e : delayed (2 * m * d) (delayed (2 * m * d) x) = x := by
    rw [delayed_delayed]
    rw [show (2 * m * d + 2 * m * d : ℤ) = 2 * (2 * m * d) by ring]
    exact hx
  funext i
  change (power_ (delayed (2 * m * d) x) i + power_ (delayed (2 * m * d) (delayed (2 * m * d) x)) i) / 2 = _
  rw [e]
  ring

/-- Two pulses in sixteen samples: after a quarter of the Talbot length there are four, one sample late. -/
noncomputable def trainDemo : Signal 16 := fun i => if i.val % 8 = 0 then 1 else 0

example : (16 : Nat) = 2 * (2 * (2 * 2 * 1)) ∧ delayed 8 trainDemo = trainDemo ∧ ∀ i, trainDemo i = 0 ∨ delayed 4 trainDemo i = 0 := by
  have h : ∀ i : Fin 16, ((((i.val : ℤ) - 8) % 16).toNat % 8 = 0 ↔ i.val % 8 = 0) ∧
      (i.val % 8 = 0 → ¬ (((i.val : ℤ) - 4) % 16).toNat % 8 = 0) := by decide
  refine ⟨rfl, ?_, ?_⟩
  · funext i
    unfold trainDemo delayed
    simp only [Nat.cast_ofNat, (h i).1]
  · intro i
    by_cases hi : i.val % 8 = 0
    · right
      unfold trainDemo delayed
      simp only [Nat.cast_ofNat, if_neg ((h i).2 hi)]
    · left
      unfold trainDemo
      rw [if_neg hi]

/-- Three periods in nine samples. -/
example : (9 : Nat) % 2 = 1 ∧ (9 : Nat) = 3 * 3 ∧ ∃ x : Signal 9, delayed 3 x = x ∧ x 0 ≠ x 1 := by
  have h : ∀ i : Fin 9, ((((i.val : ℤ) - 3) % 9).toNat % 3 = i.val % 3) := by decide
  refine ⟨rfl, rfl, fun i => ((i.val % 3 : ℕ) : ℂ), ?_, by simp⟩
  funext i
  unfold delayed
  simp only [Nat.cast_ofNat, h i]

/-! ### The split-and-delay line with couplers fully on or off -/

/-- Where light goes: `arm` is the arm it is in (`true`: the long one), a coupler that is on moves it to the other one, and the long arm after coupler
`k` has delay `k` of the list.  Total delay, and the arm at the end. -/
def route : Bool → List (Bool × ℕ) → ℕ × Bool
  | arm, [] => (0, arm)
  | arm, (on, d) :: l =>
    let arm' := xor arm on
    let r := route arm' l
    ((if arm' then d else 0) + r.1, r.2)

noncomputable def onOff (b : Bool) : ℝ := if b then 1 else 0

theorem onOff_cos_sin (b : Bool) : Real.cos (Real.pi / 2 * onOff b) = (if b then 0 else 1) ∧ Real.sin (Real.pi / 2 * onOff b) = (if b then 1 else 0) := by
  cases b <;> simp [onOff]

def inArm (arm : Bool) (X : Signal n) : Signal n × Signal n := if arm then (fun _ => 0, X) else (X, fun _ => 0)

theorem sdlLoop_route (P : Prop_ n) (unit : ℝ) : ∀ (l : List (Bool × ℕ)) (arm : Bool), ∃ c : ℂ, ‖c‖ = 1 ∧ ∀ X,
    sdlLoop P (l.map (fun p => (onOff p.1, (p.2 : ℝ) * unit))) (inArm arm X) =
      inArm (route arm l).2 (fun k => c * exp (I * ((ifftShift (delayPhase P ((route arm l).1 * unit)) k : ℝ) : ℂ)) * X k)
  | [], arm => by
    refine ⟨1, norm_one, fun X => ?_⟩
    simp [sdlLoop, route, ifftShift, delayPhase_eq]
  | (on, d) :: l, arm => by
    obtain ⟨c, hc, h⟩ := sdlLoop_route P unit l (xor arm on)
    obtain ⟨hcos, hsin⟩ := onOff_cos_sin on
    refine ⟨c * (if on then I else 1), by cases on <;> simp [hc], fun X => ?_⟩
    have hst : sdlStage P (onOff on) ((d : ℝ) * unit) (inArm arm X) = inArm (xor arm on) (fun k => (if on then I else 1) *
        exp (I * ((ifftShift (delayPhase P ((if xor arm on then (d : ℝ) else 0) * unit)) k : ℝ) : ℂ)) * X k) := by
      unfold sdlStage
      rw [hcos, hsin]
      cases arm <;> cases on <;> (simp [inArm, ifftShift, delayPhase_eq]; try (funext k; ring))
    show sdlLoop P (l.map _) (sdlStage P (onOff on) ((d : ℝ) * unit) (inArm arm X)) = _
    rw [hst, h]
    show inArm (route (xor arm on) l).2 _ = inArm (route (xor arm on) l).2 _
    congr 1
    funext k
    have : ifftShift (delayPhase P (((route arm ((on, d) :: l)).1 : ℝ) * unit)) k =
        ifftShift (delayPhase P (((route (xor arm on) l).1 : ℝ) * unit)) k + ifftShift (delayPhase P ((if xor arm on then (d : ℝ) else 0) * unit)) k := by
      unfold ifftShift
      simp only [delayPhase_eq, route]
      cases xor arm on <;> (simp; try ring)
    rw [this, expI_add]
    ring

/-- The couplers that give a delay of `m`: coupler `k` is on if bits `k` and `k - 1` of `m` differ. -/
def couplersFor (m : ℕ) : List Bool := (List.range 8).map (fun k => xor (m.testBit k) (decide (0 < k) && m.testBit (k - 1)))

theorem splitDelay_route (hn : 2 ≤ n) {P : Prop_ n} (hw : 0 < P.window) (bs : List Bool) :
    ∃ c : ℂ, ‖c‖ = (10 : ℝ) ^ ((1 : ℝ) / 20) ∧ ∀ x, splitDelay P (bs.map onOff) x =
      if (route false (bs.zip ((List.range 8).map (2 ^ ·)))).2 then fun _ => 0
      else fun i => c * delayLine P ((route false (bs.zip ((List.range 8).map (2 ^ ·)))).1 * (1 / 10 ^ 12)) x i := by
  have hd := dt_ne_zero hn hw
  set l := bs.zip ((List.range 8).map (2 ^ ·)) with hl
  obtain ⟨c, hc, h⟩ := sdlLoop_route P (1 / 10 ^ 12) l false
  refine ⟨c * (dbAmp 1 : ℂ), ?_, fun x => ?_⟩
  · rw [norm_mul, hc, one_mul, Complex.norm_real, Real.norm_of_nonneg (dbAmp_pos 1).le]
    rfl
  have hsd : sdlDelays = ((List.range 8).map (2 ^ ·)).map (fun d : ℕ => (d : ℝ) * (1 / 10 ^ 12)) := by
    unfold sdlDelays
    rw [List.map_map]
    apply List.map_congr_left
    intro k _
    simp
  have hz : (bs.map onOff).zip sdlDelays = l.map (fun p => (onOff p.1, (p.2 : ℝ) * (1 / 10 ^ 12))) := by
    rw [hl, hsd, List.zip_map]
    rfl
  unfold splitDelay
  rw [hz]
  have h0 := h (fft_ x P.dt)
  rw [show inArm false (fft_ x P.dt) = (fft_ x P.dt, fun _ => 0) from rfl] at h0
  rw [h0]
  funext i
  cases hr : (route false l).2 with
  | true =>
    simp [inArm, dbScale, ifft_, npIfft]
  | false =>
    simp only [Bool.false_eq_true, if_false, inArm, dbScale]
    rw [delayLine_eq]
    have := congrFun (freqMul_smul (fun k => exp (I * ((ifftShift (delayPhase P ((route false l).1 * (1 / 10 ^ 12))) k : ℝ) : ℂ))) hd c x) i
    unfold freqMul at this ⊢
    have e : (fun k => c * exp (I * ((ifftShift (delayPhase P ((route false l).1 * (1 / 10 ^ 12))) k : ℝ) : ℂ)) * fft_ x P.dt k) =
        fun k => exp (I * ((ifftShift (delayPhase P ((route false l).1 * (1 / 10 ^ 12))) k : ℝ) : ℂ)) * fft_ (fun i => c * x i) P.dt k := by
      funext k
      unfold fft_
      rw [npFft_smul]
      ring
    rw [e, this]
    ring

theorem couplersFor_route : ∀ m < 128, route false ((couplersFor m).zip ((List.range 8).map (2 ^ ·))) = (m, false) := by decide +kernel

/-- **C64.** Every delay of `m < 128` picoseconds can be had: with couplers that are fully on or off as `couplersFor` says, the split-and-delay line is
a delay line of `m` ps with 1 dB of gain and a constant phase. -/
theorem C64_every_delay (hn : 2 ≤ n) {P : Prop_ n} (hw : 0 < P.window) {m : ℕ} (hm : m < 128) :
    ∃ ratios : List ℝ, ratios.length = 8 ∧ (∀ r ∈ ratios, r = 0 ∨ r = 1) ∧ ∃ c : ℂ, ‖c‖ = (10 : ℝ) ^ ((1 : ℝ) / 20) ∧
      ∀ x, splitDelay P ratios x = fun i => c * delayLine P (m * (1 / 10 ^ 12)) x i := by
  obtain ⟨c, hc, h⟩ := splitDelay_route hn hw (couplersFor m)
  refine ⟨(couplersFor m).map onOff, by simp [couplersFor], ?_, c, hc, ?_⟩
  · intro r hr
    obtain ⟨b, _, rfl⟩ := List.mem_map.1 hr
    cases b <;> simp [onOff]
  · rw [couplersFor_route m hm] at h
    simpa using h

theorem route_bound : ∀ b0 b1 b2 b3 b4 b5 b6 b7 : Bool,
    let r := route false ([b0, b1, b2, b3, b4, b5, b6, b7].zip ((List.range 8).map (2 ^ ·)))
    r.2 = false → r.1 < 128 := by decide +kernel

/-- **C64, finding.** And no other: with all eight couplers fully on or off the output is nothing at all or a delay of less than 128 ps, although the
delays of the line add up to 255 ps. -/
theorem C64_no_other_delay (hn : 2 ≤ n) {P : Prop_ n} (hw : 0 < P.window) {ratios : List ℝ} (hlen : ratios.length = 8)
    (h01 : ∀ r ∈ ratios, r = 0 ∨ r = 1) :
    (∀ x, splitDelay P ratios x = fun _ => 0) ∨
    ∃ m < 128, ∃ c : ℂ, ‖c‖ = (10 : ℝ) ^ ((1 : ℝ) / 20) ∧ ∀ x, splitDelay P ratios x = fun i => c * delayLine P ((m : ℕ) * (1 / 10 ^ 12)) x i := by
  obtain ⟨bs, rfl⟩ : ∃ bs : List Bool, ratios = bs.map onOff := by
    clear hlen
    induction ratios with
    | nil => exact ⟨[], rfl⟩
    | cons r l ih =>
      obtain ⟨bs, rfl⟩ := ih (fun r hr => h01 r (List.mem_cons_of_mem _ hr))
      rcases h01 r List.mem_cons_self with rfl | rfl
      · exact ⟨false :: bs, by simp [onOff]⟩
      · exact ⟨true :: bs, by simp [onOff]⟩
  rw [List.length_map] at hlen
  obtain ⟨c, hc, h⟩ := splitDelay_route hn hw bs
  cases hr : (route false (bs.zip ((List.range 8).map (2 ^ ·)))).2 with
  | true =>
    left
    simpa [hr] using h
  | false =>
    right
    refine ⟨_, ?_, c, hc, by simpa [hr] using h⟩
    match bs, hlen with
    | [b0, b1, b2, b3, b4, b5, b6, b7], _ => exact route_bound b0 b1 b2 b3 b4 b5 b6 b7 hr

/-- **C64, finding.** The reason: whatever the couplers, the delay behind the last one has no effect. -/
theorem C64_last_delay_unused (P : Prop_ n) (l : List (ℝ × ℝ)) (r d d' : ℝ) (s : Signal n × Signal n) :
    (sdlLoop P (l ++ [(r, d)]) s).1 = (sdlLoop P (l ++ [(r, d')]) s).1 := by
  induction l generalizing s with
  | nil => rfl
  | cons p l ih => exact ih _

/-- Eighty picoseconds. -/
example : couplersFor 80 = [false, false, false, false, true, true, true, true] ∧
    route false ((couplersFor 80).zip ((List.range 8).map (2 ^ ·))) = (80, false) := by decide +kernel

/-! Cases of the theorems above. -/

/-- The train of two pulses. -/
theorem trainDemo_train : delayed 8 trainDemo = trainDemo ∧ ∀ i, trainDemo i = 0 ∨ delayed 4 trainDemo i = 0 := by
  have h : ∀ i : Fin 16, ((((i.val : ℤ) - 8) % 16).toNat % 8 = 0 ↔ i.val % 8 = 0) ∧
      (i.val % 8 = 0 → ¬ (((i.val : ℤ) - 4) % 16).toNat % 8 = 0) := by decide
  refine ⟨?_, ?_⟩
  · funext i
    unfold trainDemo delayed
    simp only [Nat.cast_ofNat, (h i).1]
  · intro i
    by_cases hi : i.val % 8 = 0
    · right
      unfold trainDemo delayed
      simp only [Nat.cast_ofNat, if_neg ((h i).2 hi)]
    · left
      unfold trainDemo
      rw [if_neg hi]

example := C79_delay_line (n := 4) (by norm_num) (P := demoProp) (by norm_num [demoProp]) 1
example := C79_earlier (n := 4) (by norm_num) (P := demoProp) (by norm_num [demoProp]) 1
example := C79_fibre_beat (n := 4) (by norm_num) (P := demoProp) (by norm_num [demoProp]) 1000 1 2 0 3
example (x : Signal 9) (hx : x = fun i => ((i.val % 3 : ℕ) : ℂ)) := C79_talbot_odd (n := 9) (by norm_num) rfl (P := ⟨1, 1⟩) (by norm_num) (m := 3) (q := 3)
  (by norm_num) (by norm_num) rfl (x := x) (by
    have h : ∀ i : Fin 9, ((((i.val : ℤ) - 3) % 9).toNat % 3 = i.val % 3) := by decide
    rw [hx]
    funext i
    unfold delayed
    simp only [Nat.cast_ofNat, h i]) 2
example := C79_talbot_even (n := 16) (by norm_num) rfl (P := ⟨1, 1⟩) (by norm_num) (m := 2) (q := 8) (by norm_num) (by norm_num) rfl (x := trainDemo)
  trainDemo_train.1 3
example := C79_quarter_talbot (n := 16) (by norm_num) rfl (P := ⟨1, 1⟩) (by norm_num) (m := 2) (r := 4) (by norm_num) (by norm_num) rfl (x := trainDemo)
  (by simpa using trainDemo_train.1)
example := C79_rate_doubling (n := 16) (by norm_num) (P := ⟨1, 1⟩) (by norm_num) (m := 2) (d := 1) (by norm_num) (by norm_num) rfl (x := trainDemo)
  (by simpa using trainDemo_train.1) (by simpa using trainDemo_train.2)
example := C64_every_delay (n := 4) (by norm_num) (P := demoProp) (by norm_num [demoProp]) (m := 80) (by norm_num)
example := C64_no_other_delay (n := 4) (by norm_num) (P := demoProp) (by norm_num [demoProp]) (ratios := [0, 1, 0, 0, 1, 1, 0, 1]) rfl
  (by intro r hr; simp only [List.mem_cons, List.not_mem_nil, or_false] at hr; rcases hr with h | h | h | h | h | h | h | h <;> simp [h])
example := C64_last_delay_unused demoProp [(1, 2), (0, 4)] 1 8 9

end Verif
