import Verif.Lemmas.Components
import Verif.Model.Devices
import Mathlib.RingTheory.Polynomial.Cyclotomic.Basic
import Mathlib.RingTheory.RootsOfUnity.Complex
/-!
# Filters and detectors (C62, C65)
-/

namespace Verif
open Complex Finset

variable {n : Nat}

/-! ### Butterworth -/

/-- Square of the modulus of one factor at `s = i x`. -/
theorem butter_factor (x θ : ℝ) :
    ‖((I * x) ^ 2 - 2 * (I * x) * ((Real.cos θ : ℝ) : ℂ) + 1 : ℂ)‖ ^ 2 = (x ^ 2) ^ 2 + 2 * x ^ 2 * Real.cos (2 * θ) + 1 := by
  rw [← Complex.normSq_eq_norm_sq]
  have : ((I * x) ^ 2 - 2 * (I * x) * ((Real.cos θ : ℝ) : ℂ) + 1 : ℂ) = ((1 - x ^ 2 : ℝ) : ℂ) + ((-2 * x * Real.cos θ : ℝ) : ℂ) * I := by
    rw [mul_pow, I_sq]; push_cast; ring
  rw [this, normSq_add_mul_I, Real.cos_two_mul]; ring

/-- The `n`-th roots of `-1`. -/
noncomputable def rootNeg (n k : ℕ) : ℂ := exp (((2 * (k : ℝ) + 1) / n * Real.pi : ℝ) * I)

theorem pow_add_one_prod {n : ℕ} (hn : 0 < n) (y : ℂ) : y ^ n + 1 = ∏ k ∈ range n, (y - rootNeg n k) := by
  have hn' : (n : ℂ) ≠ 0 := by exact_mod_cast hn.ne'
  have hp := Complex.isPrimitiveRoot_exp n hn.ne'
  have h1 := hp.pow_sub_pow_eq_prod_sub_mul y (exp ((Real.pi / n : ℝ) * I)) hn
  have h2 : exp ((Real.pi / n : ℝ) * I) ^ n = -1 := by
    rw [← Complex.exp_nat_mul, show (n : ℂ) * (((Real.pi / n : ℝ) : ℂ) * I) = Real.pi * I by push_cast; field_simp]
    exact exp_pi_mul_I
  rw [h2, sub_neg_eq_add] at h1
  rw [h1]
  symm
  refine prod_bij (fun k _ => exp (2 * Real.pi * I / n) ^ k) (fun k _ => ?_) (fun a ha b hb h => ?_) (fun z hz => ?_) (fun k _ => ?_)
  · rw [Polynomial.mem_nthRootsFinset hn, ← pow_mul, mul_comm k n, pow_mul, hp.pow_eq_one, one_pow]
  · exact hp.pow_inj (mem_range.1 ha) (mem_range.1 hb) h
  · rw [Polynomial.mem_nthRootsFinset hn] at hz
    have : NeZero n := ⟨hn.ne'⟩
    obtain ⟨i, hi, e⟩ := hp.eq_pow_of_pow_eq_one hz
    exact ⟨i, mem_range.2 hi, e⟩
  · congr 1
    rw [← Complex.exp_nat_mul, ← Complex.exp_add]
    unfold rootNeg
    congr 1; push_cast; field_simp

theorem prod_range_pairs {M : Type} [CommMonoid M] (g : ℕ → M) (m : ℕ) :
    ∏ k ∈ range (2 * m), g k = ∏ k ∈ range m, (g k * g (2 * m - 1 - k)) := by
  rw [prod_mul_distrib, two_mul, prod_range_add]
  congr 1
  rw [← prod_range_reflect]
  refine prod_congr rfl (fun k hk => ?_)
  rw [mem_range] at hk
  congr 1; omega

theorem prod_range_pairs_odd {M : Type} [CommMonoid M] (g : ℕ → M) (m : ℕ) :
    ∏ k ∈ range (2 * m + 1), g k = g m * ∏ k ∈ range m, (g k * g (2 * m - k)) := by
  rw [prod_mul_distrib, show 2 * m + 1 = m + (m + 1) by ring, prod_range_add, prod_range_succ']
  rw [add_zero, ← prod_range_reflect (fun k => g (m + (k + 1)))]
  have : ∏ j ∈ range m, g (m + (m - 1 - j + 1)) = ∏ k ∈ range m, g (2 * m - k) :=
    prod_congr rfl (fun k hk => by rw [mem_range] at hk; congr 1; omega)
  rw [this]
  rw [mul_comm (g m), mul_assoc]

theorem rootNeg_pair {n k : ℕ} (hn : 0 < n) (hk : k < n) (y : ℝ) :
    ((y : ℂ) - rootNeg n k) * ((y : ℂ) - rootNeg n (n - 1 - k)) =
      ((y ^ 2 - 2 * y * Real.cos ((2 * (k : ℝ) + 1) / n * Real.pi) + 1 : ℝ) : ℂ) := by
  have hn' : (n : ℝ) ≠ 0 := by exact_mod_cast hn.ne'
  set θ := (2 * (k : ℝ) + 1) / n * Real.pi with hθ
  have h1 : rootNeg n k = exp ((θ : ℂ) * I) := rfl
  have h2 : rootNeg n (n - 1 - k) = exp (((-θ : ℝ) : ℂ) * I) := by
    unfold rootNeg
    have : ((2 * ((n - 1 - k : ℕ) : ℝ) + 1) / n * Real.pi : ℝ) = -θ + 2 * Real.pi := by
      rw [Nat.cast_sub (by omega), Nat.cast_sub (by omega), hθ]; push_cast; field_simp; ring
    rw [this]
    rw [show (((-θ + 2 * Real.pi : ℝ) : ℂ)) * I = ((-θ : ℝ) : ℂ) * I + 2 * Real.pi * I by push_cast; ring]
    rw [Complex.exp_periodic]
  have hmul : exp ((θ : ℂ) * I) * exp (((-θ : ℝ) : ℂ) * I) = 1 := by
    rw [← Complex.exp_add]; simp
  have hadd : exp ((θ : ℂ) * I) + exp (((-θ : ℝ) : ℂ) * I) = 2 * ((Real.cos θ : ℝ) : ℂ) := by
    rw [ofReal_cos, Complex.cos]; push_cast; ring_nf
  rw [h1, h2]
  have e : ((y ^ 2 - 2 * y * Real.cos θ + 1 : ℝ) : ℂ) = (y : ℂ) ^ 2 - 2 * y * ((Real.cos θ : ℝ) : ℂ) + 1 := by
    generalize Real.cos θ = c; push_cast; ring
  rw [e]
  linear_combination hmul - (y : ℂ) * hadd

theorem butterLoop_norm (x : ℝ) (N : ℕ) (m : ℕ) (p : ℂ) :
    ‖butterLoop (I * x) N m p‖ ^ 2 =
      ‖p‖ ^ 2 * ∏ k ∈ range m, ((x ^ 2) ^ 2 + 2 * x ^ 2 * Real.cos ((2 * ((k : ℝ) + 1) + N - 1) / N * Real.pi) + 1) := by
  induction m with
  | zero => simp [butterLoop]
  | succ m ih =>
    rw [butterLoop, norm_mul, mul_pow, ih, butter_factor, prod_range_succ, mul_assoc]
    congr 4
    rcases Nat.eq_zero_or_pos N with rfl | h
    · simp
    · have : (N : ℝ) ≠ 0 := by exact_mod_cast h.ne'
      congr 1; field_simp

theorem cos_shift {N : ℕ} (hN : 0 < N) (k : ℕ) :
    Real.cos ((2 * ((k : ℝ) + 1) + N - 1) / N * Real.pi) = -Real.cos ((2 * (k : ℝ) + 1) / N * Real.pi) := by
  have : (N : ℝ) ≠ 0 := by exact_mod_cast hN.ne'
  rw [← Real.cos_add_pi]; congr 1; field_simp; ring

/-- `|B_N(i x)|² = 1 + x^(2N)`. -/
theorem butterPoly_norm (x : ℝ) {N : ℤ} (hN : 1 ≤ N) :
    ∃ p, butterPoly (I * x) N = .ok p ∧ ‖p‖ ^ 2 = 1 + x ^ (2 * N.toNat) := by
  obtain ⟨M, rfl⟩ : ∃ M : ℕ, N = M := ⟨N.toNat, by omega⟩
  have hM : 0 < M := by omega
  have hfac : (((x ^ 2) ^ M + 1 : ℝ) : ℂ) = ∏ k ∈ range M, (((x ^ 2 : ℝ) : ℂ) - rootNeg M k) := by
    rw [← pow_add_one_prod hM]; push_cast; rfl
  unfold butterPoly
  rw [if_neg (by omega)]
  simp only [Int.toNat_natCast]
  rcases Nat.even_or_odd' M with ⟨m, h | h⟩
  · rw [if_neg (by omega)]
    refine ⟨_, rfl, ?_⟩
    rw [show ((M : ℤ) / 2).toNat = m by omega, butterLoop_norm, norm_one, one_pow, one_mul]
    rw [h, prod_range_pairs] at hfac
    have hpr : ∀ k ∈ range m, (((x ^ 2 : ℝ) : ℂ) - rootNeg (2 * m) k) * (((x ^ 2 : ℝ) : ℂ) - rootNeg (2 * m) (2 * m - 1 - k)) =
        (((x ^ 2) ^ 2 - 2 * x ^ 2 * Real.cos ((2 * (k : ℝ) + 1) / M * Real.pi) + 1 : ℝ) : ℂ) := fun k hk => by
      rw [mem_range] at hk
      rw [rootNeg_pair (by omega) (by omega), h]
    rw [prod_congr rfl hpr, ← ofReal_prod] at hfac
    have hfac' := ofReal_injective hfac
    have : 1 + x ^ (2 * M) = (x ^ 2) ^ (2 * m) + 1 := by rw [h, ← pow_mul]; ring
    rw [this, hfac']
    exact prod_congr rfl (fun k _ => by rw [cos_shift hM]; ring)
  · rw [if_pos (by omega)]
    refine ⟨_, rfl, ?_⟩
    rw [show (((M : ℤ) - 1) / 2).toNat = m by omega, butterLoop_norm]
    rw [h, prod_range_pairs_odd] at hfac
    have hpr : ∀ k ∈ range m, (((x ^ 2 : ℝ) : ℂ) - rootNeg (2 * m + 1) k) * (((x ^ 2 : ℝ) : ℂ) - rootNeg (2 * m + 1) (2 * m - k)) =
        (((x ^ 2) ^ 2 - 2 * x ^ 2 * Real.cos ((2 * (k : ℝ) + 1) / M * Real.pi) + 1 : ℝ) : ℂ) := fun k hk => by
      rw [mem_range] at hk
      have := rootNeg_pair (n := 2 * m + 1) (k := k) (by omega) (by omega) (x ^ 2)
      rw [show 2 * m + 1 - 1 - k = 2 * m - k by omega] at this
      rw [this, h]
    have hmid : rootNeg (2 * m + 1) m = -1 := by
      unfold rootNeg
      have : ((2 * (m : ℝ) + 1) / ((2 * m + 1 : ℕ) : ℝ) * Real.pi : ℝ) = Real.pi := by
        push_cast
        rw [div_self (by positivity), one_mul]
      rw [this]; exact exp_pi_mul_I
    rw [hmid, prod_congr rfl hpr, ← ofReal_prod, sub_neg_eq_add, ← ofReal_one, ← ofReal_add, ← ofReal_mul] at hfac
    have hfac' := ofReal_injective hfac
    have : 1 + x ^ (2 * M) = (x ^ 2) ^ (2 * m + 1) + 1 := by rw [h, ← pow_mul]; ring
    rw [this, hfac']
    have hn : ‖(I * x + 1 : ℂ)‖ ^ 2 = x ^ 2 + 1 := by
      rw [← Complex.normSq_eq_norm_sq, show (I * x + 1 : ℂ) = ((1 : ℝ) : ℂ) + (x : ℂ) * I by push_cast; ring, normSq_add_mul_I]; ring
    rw [hn]
    congr 1
    exact prod_congr rfl (fun k _ => by rw [cos_shift hM]; ring)

/-- **C65.** A Butterworth low-pass of any order at least one has the textbook response: power transmission
`dc² / (1 + (f / fc)^(2 order))` at every frequency of the grid.  It is half at the transition frequency, never above `dc²`, and
filtering never raises the energy of a signal by more than `dc²`. -/
theorem C65_butterworth (hn : 2 ≤ n) {P : Prop_ n} (hw : 0 < P.window) (fc dc : ℝ) {order : ℤ} (ho : 1 ≤ order)
    (x : Signal n) :
    ∃ H, getFilter P (.butterworth fc dc order) = .ok H ∧
      (∀ k, ‖H k‖ ^ 2 = dc ^ 2 / (1 + (ifftShift P.f k / fc) ^ (2 * order.toNat))) ∧
      (∀ k, fc ≠ 0 → |ifftShift P.f k| = |fc| → ‖H k‖ ^ 2 = dc ^ 2 / 2) ∧
      (∀ k, ‖H k‖ ≤ |dc|) ∧
      ∃ y, filteredTime P (.butterworth fc dc order) x = .ok y ∧ energy y ≤ dc ^ 2 * energy x := by
  have hd := dt_ne_zero hn hw
  have hH : getFilter P (.butterworth fc dc order) = .ok (ifftShift (fun j => butterGain dc (I * (P.f j : ℂ) / (fc : ℂ)) order)) := by
    unfold getFilter; simp only; rw [if_neg (by omega)]
  set H : Signal n := ifftShift (fun j => butterGain dc (I * (P.f j : ℂ) / (fc : ℂ)) order) with hHd
  have key : ∀ k, ‖H k‖ ^ 2 = dc ^ 2 / (1 + (ifftShift P.f k / fc) ^ (2 * order.toNat)) := fun k => by
    rw [hHd]
    simp only [ifftShift, butterGain]
    obtain ⟨p, hp, hp'⟩ := butterPoly_norm (P.f (rotIdx (n / 2) k) / fc) ho
    rw [show I * (P.f (rotIdx (n / 2) k) : ℂ) / (fc : ℂ) = I * ((P.f (rotIdx (n / 2) k) / fc : ℝ) : ℂ) by push_cast; ring, hp]
    simp only
    rw [norm_div, div_pow, hp', Complex.norm_real, Real.norm_eq_abs, sq_abs]
  have hev : ∀ z : ℝ, 0 ≤ z ^ (2 * order.toNat) := fun z => by rw [pow_mul]; positivity
  have hle : ∀ k, ‖H k‖ ≤ |dc| := fun k => by
    refine abs_le_of_sq_le_sq' ?_ (abs_nonneg _) |>.2
    rw [key, sq_abs]
    exact div_le_self (sq_nonneg _) (by linarith [hev (ifftShift P.f k / fc)])
  refine ⟨H, hH, key, fun k hfc hk => ?_, hle, _, by unfold filteredTime; rw [hH], ?_⟩
  · rw [key]
    have : (ifftShift P.f k / fc) ^ (2 * order.toNat) = 1 := by
      rw [pow_mul, div_pow, ← sq_abs, hk, sq_abs, div_self (pow_ne_zero 2 hfc), one_pow]
    rw [this]; norm_num
  · have e : (fun k => fft_ x P.dt k * H k) = fun k => H k * fft_ x P.dt k := by funext k; ring
    rw [e]
    have := energy_freqMul_le hd hle x
    rw [sq_abs] at this
    exact this

/-- **C65.** Every other parametrisation is refused with `ValueError`: negative orders, the four shapes listed but not written, unknown names. -/
theorem C65_refused (P : Prop_ n) (x : Signal n) (fc dc : ℝ) (order : ℤ) (ho : order < 0) (name : String) :
    ∀ sh ∈ [Shape.butterworth fc dc order, .gaussian, .longpass, .shortpass, .bandpass, .other name],
      getFilter P sh = .error .valueError ∧ filteredTime P sh x = .error .valueError := by
  intro sh hs
  have h1 : getFilter P sh = .error .valueError := by
    simp only [List.mem_cons, List.not_mem_nil, or_false] at hs
    rcases hs with rfl | rfl | rfl | rfl | rfl | rfl <;> unfold getFilter
    · simp only; rw [if_pos ho]
    all_goals rfl
  exact ⟨h1, by unfold filteredTime; rw [h1]⟩

/-- **C65.** The filter `exp(-f²/β)`: transmission between 0 and 1, one at its centre and one half at half its full width, never raising the energy. -/
theorem C65_exp_square (hn : 2 ≤ n) {P : Prop_ n} (hw : 0 < P.window) {wl fwhm : ℝ} (h0 : 0 < fwhm) (h1 : fwhm < 2 * wl)
    (x : Signal n) :
    (∀ k, 0 < expSquare P wl fwhm k ∧ expSquare P wl fwhm k ≤ 1 ∧
      (ifftShift P.f k + P.central = lightSpeed / wl → expSquare P wl fwhm k = 1) ∧
      (|ifftShift P.f k + P.central - lightSpeed / wl| =
        (lightSpeed / (wl - fwhm / 2) - lightSpeed / (wl + fwhm / 2)) / 2 → expSquare P wl fwhm k = 1 / 2)) ∧
    ∃ y, filteredTime P (.expSquare wl fwhm) x = .ok y ∧ energy y ≤ energy x := by
  have hd := dt_ne_zero hn hw
  have hl : 0 < Real.log 2 := Real.log_pos (by norm_num)
  have hc : 0 < lightSpeed := by norm_num [lightSpeed]
  have hD : 0 < lightSpeed * (1 / (wl - fwhm / 2) - 1 / (wl + fwhm / 2)) :=
    mul_pos hc (sub_pos.2 (one_div_lt_one_div_of_lt (by linarith) (by linarith)))
  set D := lightSpeed * (1 / (wl - fwhm / 2) - 1 / (wl + fwhm / 2)) with hDd
  have ex : ∀ k, expSquare P wl fwhm k =
      Real.exp (-((ifftShift P.f k + P.central - lightSpeed / wl) ^ 2 / (D ^ 2 / 4 / Real.log 2))) := fun k => by
    unfold expSquare ifftShift; simp only; congr 1; ring
  have hle : ∀ k, 0 < expSquare P wl fwhm k ∧ expSquare P wl fwhm k ≤ 1 := fun k => by
    rw [ex]; exact ⟨Real.exp_pos _, Real.exp_le_one_iff.2 (neg_nonpos.2 (by positivity))⟩
  refine ⟨fun k => ⟨(hle k).1, (hle k).2, fun h => ?_, fun h => ?_⟩, _, by unfold filteredTime getFilter; rfl, ?_⟩
  · rw [ex, h]; simp
  · rw [ex, ← sq_abs, h]
    have e : (lightSpeed / (wl - fwhm / 2) - lightSpeed / (wl + fwhm / 2)) = D := by rw [hDd]; ring
    rw [e, show (D / 2) ^ 2 / (D ^ 2 / 4 / Real.log 2) = Real.log 2 by field_simp; norm_num, Real.exp_neg,
      Real.exp_log (by norm_num)]
    norm_num
  · have e : (fun k => fft_ x P.dt k * (expSquare P wl fwhm k : ℂ)) = fun k => (expSquare P wl fwhm k : ℂ) * fft_ x P.dt k := by
      funext k; ring
    rw [e]
    have := energy_freqMul_le hd (c := 1) (H := fun k => (expSquare P wl fwhm k : ℂ)) (fun k => by
      rw [Complex.norm_real, Real.norm_of_nonneg (hle k).1.le]; exact (hle k).2) x
    rw [one_pow, one_mul] at this
    exact this

theorem df_pos' (hn : 2 ≤ n) {P : Prop_ n} (hw : 0 < P.window) : 0 < P.df := by
  have h2 : (2 : ℝ) ≤ n := by exact_mod_cast hn
  rw [(dt_df P).2]; exact div_pos (div_pos (by linarith) hw) (by linarith)

/-! ### Real signals -/

/-- The bin of the opposite frequency, `(n - k) mod n`. -/
def oppBin (k : Fin n) : Fin n := ⟨(n - k.val) % n, Nat.mod_lt _ (Nat.lt_of_le_of_lt (Nat.zero_le _) k.isLt)⟩

theorem oppBin_opp (k : Fin n) : oppBin (oppBin k) = k := by
  apply Fin.ext
  have hk := k.isLt
  show (n - (n - k.val) % n) % n = k.val
  rcases Nat.eq_zero_or_pos k.val with h | h
  · rw [h]; simp
  · rw [Nat.mod_eq_of_lt (by omega : n - k.val < n), Nat.mod_eq_of_lt (by omega)]; omega

theorem ker_opp (j : Nat) (k : Fin n) : ker n j (oppBin k) = (ker n j k)⁻¹ := by
  have hk := k.isLt
  have hn : (n : ℂ) ≠ 0 := by exact_mod_cast (by omega : n ≠ 0)
  have hval : (oppBin k).val = (n - k.val) % n := rfl
  rcases Nat.eq_zero_or_pos k.val with h | h
  · rw [hval, h]; simp [ker]
  · rw [hval, Nat.mod_eq_of_lt (by omega)]
    unfold ker
    rw [← Complex.exp_neg, Nat.cast_sub (by omega)]
    rw [show 2 * (Real.pi : ℂ) * I * j * ((n : ℂ) - (k.val : ℂ)) / n = -(2 * Real.pi * I * j * (k.val : ℂ) / n) + j * (2 * Real.pi * I) by
      field_simp; ring]
    rw [Complex.exp_add, Complex.exp_nat_mul_two_pi_mul_I, mul_one]

theorem npFft_conj {x : Signal n} (hx : ∀ j, (starRingEnd ℂ) (x j) = x j) (k : Fin n) :
    npFft x (oppBin k) = (starRingEnd ℂ) (npFft x k) := by
  rw [npFft_ker, npFft_ker, map_sum]
  refine sum_congr rfl (fun j _ => ?_)
  rw [map_mul, hx, ker_opp, map_inv₀, conj_ker]

/-- A mask with conjugate values at opposite bins keeps real signals real. -/
theorem freqMul_real {H : Signal n} (hH : ∀ k, H (oppBin k) = (starRingEnd ℂ) (H k)) {dt : ℝ} (hd : dt ≠ 0) {x : Signal n}
    (hx : ∀ j, (starRingEnd ℂ) (x j) = x j) (j : Fin n) : (starRingEnd ℂ) (freqMul H dt x j) = freqMul H dt x j := by
  rw [freqMul_eq H hd, npIfft_ker, map_div₀, map_sum, map_natCast]
  congr 1
  let e : Fin n ≃ Fin n := ⟨oppBin, oppBin, oppBin_opp, oppBin_opp⟩
  rw [← Equiv.sum_comp e]
  refine sum_congr rfl (fun k _ => ?_)
  show (starRingEnd ℂ) (H (oppBin k) * npFft x (oppBin k) * ker n j (oppBin k)) = _
  rw [hH, npFft_conj hx, ker_opp, map_mul, map_mul, map_inv₀, conj_ker, conj_conj, conj_conj, inv_inv]

theorem butterLoop_conj (s : ℂ) (N : ℕ) : ∀ (m : ℕ) (p : ℂ),
    butterLoop ((starRingEnd ℂ) s) N m ((starRingEnd ℂ) p) = (starRingEnd ℂ) (butterLoop s N m p)
  | 0, _ => rfl
  | m + 1, p => by
    simp only [butterLoop]
    rw [butterLoop_conj s N m p]
    generalize Real.cos _ = c
    have h2 : (starRingEnd ℂ) (2 : ℂ) = 2 := Complex.conj_ofNat 2
    rw [map_mul, map_add, map_sub, map_mul, map_mul, map_pow, conj_ofReal, map_one, h2]

theorem butterGain_conj (dc : ℝ) (s : ℂ) (order : ℤ) :
    butterGain dc ((starRingEnd ℂ) s) order = (starRingEnd ℂ) (butterGain dc s order) := by
  unfold butterGain butterPoly
  by_cases h1 : order < 0
  · simp [h1]
  · rw [if_neg h1, if_neg h1]
    by_cases h2 : order % 2 ≠ 0
    · rw [if_pos h2, if_pos h2]
      simp only
      rw [show (starRingEnd ℂ) s + 1 = (starRingEnd ℂ) (s + 1) by simp, butterLoop_conj, map_div₀, conj_ofReal]
    · rw [if_neg h2, if_neg h2]
      simp only
      have := butterLoop_conj s order.toNat (order / 2).toNat 1
      rw [map_one] at this
      rw [this, map_div₀, conj_ofReal]

theorem signed_opp (hn : 2 ≤ n) (ho : n % 2 = 1) (P : Prop_ n) (k : Fin n) : ifftShift P.f (oppBin k) = -ifftShift P.f k := by
  rw [C53_shifted_axis hn, C53_shifted_axis hn, if_neg (by omega), add_zero, add_zero, ← mul_neg]
  congr 1
  have hk := k.isLt
  have hval : (oppBin k).val = (n - k.val) % n := rfl
  have : (signedBin n (oppBin k)) = -(signedBin n k) := by
    unfold signedBin
    rw [hval]
    rcases Nat.eq_zero_or_pos k.val with h | h
    · rw [h, Nat.sub_zero, Nat.mod_self, if_pos (by omega)]; simp
    · rw [Nat.mod_eq_of_lt (by omega)]
      split <;> split <;> omega
  rw [this]; push_cast; ring

/-- **C65.** On a grid with an odd number of samples a Butterworth low-pass turns real signals into real signals. -/
theorem C65_real_odd (hn : 2 ≤ n) (ho : n % 2 = 1) {P : Prop_ n} (hw : 0 < P.window) (fc dc : ℝ) (order : ℤ)
    {x y : Signal n} (hx : ∀ j, (x j).im = 0) (hy : filteredTime P (.butterworth fc dc order) x = .ok y) (j : Fin n) : (y j).im = 0 := by
  have hd := dt_ne_zero hn hw
  unfold filteredTime getFilter at hy
  simp only at hy
  by_cases h : order < 0
  · rw [if_pos h] at hy; cases hy
  rw [if_neg h] at hy
  injection hy with hy
  rw [← hy]
  have e : (fun k => fft_ x P.dt k * ifftShift (fun j => butterGain dc (I * (P.f j : ℂ) / (fc : ℂ)) order) k) =
      fun k => ifftShift (fun j => butterGain dc (I * (P.f j : ℂ) / (fc : ℂ)) order) k * fft_ x P.dt k := by funext k; ring
  rw [e]
  have := freqMul_real (H := ifftShift (fun j => butterGain dc (I * (P.f j : ℂ) / (fc : ℂ)) order)) (fun k => by
    rw [ifftShift, ifftShift, ← butterGain_conj]
    have h1 := signed_opp hn ho P k
    unfold ifftShift at h1
    rw [h1]; congr 1
    rw [map_div₀, map_mul, conj_I, conj_ofReal, conj_ofReal]; push_cast; ring) hd (x := x)
    (fun j => Complex.conj_eq_iff_im.2 (hx j)) j
  exact Complex.conj_eq_iff_im.1 this

theorem freqMul_on_const (hn : 0 < n) (H : Signal n) {dt : ℝ} (hd : dt ≠ 0) (c : ℂ) :
    freqMul H dt (fun _ => c) = fun _ => H ⟨0, hn⟩ * c := by
  have hn' : (n : ℂ) ≠ 0 := by exact_mod_cast hn.ne'
  rw [freqMul_eq H hd]
  have hX : ∀ k : Fin n, npFft (fun _ => c) k = if k = ⟨0, hn⟩ then c * n else 0 := fun k => by
    have h0 : (fun _ : Fin n => c) = npIfft (fun k => if k = ⟨0, hn⟩ then c * n else 0) := by
      funext j
      rw [npIfft_ker, sum_eq_single ⟨0, hn⟩]
      · rw [if_pos rfl]; simp [ker]; field_simp
      · intro b _ hb; rw [if_neg hb, zero_mul]
      · intro h; exact absurd (mem_univ _) h
    rw [h0, npFft_npIfft]
  funext j
  rw [npIfft_ker, sum_eq_single ⟨0, hn⟩]
  · rw [hX, if_pos rfl]; simp [ker]; field_simp
  · intro b _ hb; rw [hX, if_neg hb]; ring
  · intro h; exact absurd (mem_univ _) h

/-- **C65, finding.** On a grid with an even number of samples the first-order low-pass with unit gain turns every constant real signal (other than
zero) into a signal that is nowhere real and whose level is not that of the input. -/
theorem C65_even_not_real (hn : 2 ≤ n) (he : n % 2 = 0) {P : Prop_ n} (hw : 0 < P.window) {fc v : ℝ} (hf : fc ≠ 0) (hv : v ≠ 0) :
    ∃ y, filteredTime P (.butterworth fc 1 1) (fun _ => (v : ℂ)) = .ok y ∧ ∀ j, (y j).im ≠ 0 ∧ ‖y j‖ < |v| := by
  have hd := dt_ne_zero hn hw
  have hdf := df_pos' hn hw
  refine ⟨_, by unfold filteredTime getFilter; simp only; rw [if_neg (by norm_num)], fun j => ?_⟩
  have e : (fun k => fft_ (fun _ => (v : ℂ)) P.dt k * ifftShift (fun j => butterGain 1 (I * (P.f j : ℂ) / (fc : ℂ)) 1) k) =
      fun k => ifftShift (fun j => butterGain 1 (I * (P.f j : ℂ) / (fc : ℂ)) 1) k * fft_ (fun _ => (v : ℂ)) P.dt k := by funext k; ring
  rw [e]
  have h1 := congrFun (freqMul_on_const (by omega) (ifftShift (fun j => butterGain 1 (I * (P.f j : ℂ) / (fc : ℂ)) 1)) hd (v : ℂ)) j
  have h1' : ifft_ (fun k => ifftShift (fun j => butterGain 1 (I * (P.f j : ℂ) / (fc : ℂ)) 1) k * fft_ (fun _ => (v : ℂ)) P.dt k) P.dt j =
      ifftShift (fun j => butterGain 1 (I * (P.f j : ℂ) / (fc : ℂ)) 1) ⟨0, by omega⟩ * v := h1
  rw [h1']
  have h2 := C53_shifted_axis hn P ⟨0, by omega⟩
  rw [if_pos he] at h2
  have hs0 : signedBin n (⟨0, by omega⟩ : Fin n) = 0 := by unfold signedBin; rw [if_pos (by simp; omega)]; rfl
  rw [hs0] at h2
  unfold ifftShift at h2 ⊢
  simp only
  rw [h2]
  set a : ℝ := P.df * (((0 : ℤ) : ℝ) + 1 / 2) / fc with ha
  have ha0 : a ≠ 0 := by rw [ha]; push_cast; exact div_ne_zero (by positivity) hf
  have hg : butterGain 1 (I * ((P.df * (((0 : ℤ) : ℝ) + 1 / 2) : ℝ) : ℂ) / (fc : ℂ)) 1 = 1 / ((1 : ℝ) + (a : ℝ) * I) := by
    unfold butterGain butterPoly
    rw [if_neg (by norm_num), if_pos (by norm_num)]
    simp only [sub_self, EuclideanDomain.zero_div, Int.toNat_zero, butterLoop]
    rw [ha]; push_cast; congr 1; ring
  rw [hg]
  have hns : Complex.normSq ((1 : ℝ) + (a : ℝ) * I) = 1 + a ^ 2 := by rw [normSq_add_mul_I]; ring
  have hpos : 0 < 1 + a ^ 2 := by positivity
  constructor
  · rw [one_div, mul_comm, Complex.im_ofReal_mul, Complex.inv_im, hns]
    simp only [add_im, ofReal_im, mul_im, ofReal_re, I_re, I_im, mul_one, mul_zero, zero_add, add_zero]
    exact mul_ne_zero hv (div_ne_zero (neg_ne_zero.2 ha0) hpos.ne')
  · rw [norm_mul, Complex.norm_real, Real.norm_eq_abs, norm_div, norm_one]
    have : 1 < ‖((1 : ℝ) + (a : ℝ) * I : ℂ)‖ := by
      have h3 : ‖((1 : ℝ) + (a : ℝ) * I : ℂ)‖ ^ 2 = 1 + a ^ 2 := by rw [← Complex.normSq_eq_norm_sq, hns]
      have : 0 < a ^ 2 := by positivity
      nlinarith [norm_nonneg ((1 : ℝ) + (a : ℝ) * I : ℂ)]
    have h4 : 1 / ‖((1 : ℝ) + (a : ℝ) * I : ℂ)‖ < 1 := by rw [div_lt_one (by linarith)]; exact this
    have : 0 < |v| := abs_pos.2 hv
    nlinarith

/-! ### Photodiode -/

theorem Photodiode.current_eq (D : Photodiode) {p : ℝ} (hp : 0 ≤ p) (hr : 0 ≤ D.responsivity) (hm : 0 < D.maxCurrent) :
    D.current p = D.maxCurrent * ((D.responsivity / D.maxCurrent * p) ^ 15 / (1 + (D.responsivity / D.maxCurrent * p) ^ 15)) ^ ((1 : ℝ) / 15) := by
  unfold Photodiode.current
  simp only
  have hu : 0 ≤ D.responsivity / D.maxCurrent * p := by positivity
  set u := D.responsivity / D.maxCurrent * p
  rw [abs_of_nonneg hu, Real.div_rpow (by positivity) (by positivity)]
  have : (u ^ 15) ^ ((1 : ℝ) / 15) = u := by
    rw [← Real.rpow_natCast, ← Real.rpow_mul hu]; norm_num
  rw [this, mul_assoc, mul_div_assoc]

/-- **C62.** The photocurrent: zero in the dark, strictly increasing in the optical power, at most `responsivity * power` and always below
`max_photocurrent`, which it comes arbitrarily close to. -/
theorem C62_photocurrent (D : Photodiode) (hr : 0 < D.responsivity) (hm : 0 < D.maxCurrent) :
    D.current 0 = 0 ∧ (∀ p, 0 ≤ p → 0 ≤ D.current p ∧ D.current p ≤ D.responsivity * p ∧ D.current p < D.maxCurrent) ∧
    (∀ p q, 0 ≤ p → p < q → D.current p < D.current q) ∧
    ∀ c, c < D.maxCurrent → ∃ p, 0 ≤ p ∧ c < D.current p := by
  refine ⟨by simp [Photodiode.current], fun p hp => ⟨?_, ?_, ?_⟩, fun p q hp hpq => ?_, fun c hc => ?_⟩
  · rw [D.current_eq hp hr.le hm]; positivity
  · unfold Photodiode.current
    simp only
    have e : D.maxCurrent * (D.responsivity / D.maxCurrent) * p = D.responsivity * p := by field_simp
    rw [e]
    refine div_le_self (by positivity) (Real.one_le_rpow ?_ (by norm_num))
    have : 0 ≤ |D.responsivity / D.maxCurrent * p| ^ 15 := by positivity
    linarith
  · rw [D.current_eq hp hr.le hm]
    have hu : 0 ≤ (D.responsivity / D.maxCurrent * p) ^ 15 := by positivity
    have : ((D.responsivity / D.maxCurrent * p) ^ 15 / (1 + (D.responsivity / D.maxCurrent * p) ^ 15)) ^ ((1 : ℝ) / 15) < 1 :=
      Real.rpow_lt_one (by positivity) (by rw [div_lt_one (by positivity)]; linarith) (by norm_num)
    nlinarith
  · rw [D.current_eq hp hr.le hm, D.current_eq (hp.trans hpq.le) hr.le hm]
    refine mul_lt_mul_of_pos_left (Real.rpow_lt_rpow (by positivity) ?_ (by norm_num)) hm
    have h1 : (D.responsivity / D.maxCurrent * p) ^ 15 < (D.responsivity / D.maxCurrent * q) ^ 15 :=
      pow_lt_pow_left₀ (mul_lt_mul_of_pos_left hpq (by positivity)) (by positivity) (by norm_num)
    have h2 : 0 ≤ (D.responsivity / D.maxCurrent * p) ^ 15 := by positivity
    rw [div_lt_div_iff₀ (by linarith) (by linarith)]
    nlinarith
  · -- `v = r / (1 - r)` with `r` the 15th power of the wanted fraction
    set s : ℝ := max (c / D.maxCurrent) 0 with hs
    have hs0 : 0 ≤ s := le_max_right _ _
    have hs1 : s < 1 := max_lt ((div_lt_one hm).2 hc) one_pos
    set m : ℝ := (s + 1) / 2 with hmd
    have hm0 : 0 < m := by linarith
    have hm1 : m < 1 := by linarith
    have hr15 : m ^ 15 < 1 := pow_lt_one₀ hm0.le hm1 (by norm_num)
    have hv : 0 ≤ m ^ 15 / (1 - m ^ 15) := div_nonneg (by positivity) (by linarith)
    refine ⟨(m ^ 15 / (1 - m ^ 15)) ^ ((1 : ℝ) / 15) * D.maxCurrent / D.responsivity, by positivity, ?_⟩
    rw [D.current_eq (by positivity) hr.le hm]
    have e : D.responsivity / D.maxCurrent * ((m ^ 15 / (1 - m ^ 15)) ^ ((1 : ℝ) / 15) * D.maxCurrent / D.responsivity) =
        (m ^ 15 / (1 - m ^ 15)) ^ ((1 : ℝ) / 15) := by field_simp
    have e2 : ((m ^ 15 / (1 - m ^ 15)) ^ ((1 : ℝ) / 15)) ^ 15 = m ^ 15 / (1 - m ^ 15) := by
      rw [← Real.rpow_natCast, ← Real.rpow_mul hv]; norm_num
    have hne : (1 : ℝ) - m ^ 15 ≠ 0 := by linarith
    have e3 : m ^ 15 / (1 - m ^ 15) / (1 + m ^ 15 / (1 - m ^ 15)) = m ^ 15 := by field_simp; ring
    have e4 : (m ^ 15) ^ ((1 : ℝ) / 15) = m := by rw [← Real.rpow_natCast, ← Real.rpow_mul hm0.le]; norm_num
    rw [e, e2, e3, e4]
    have : c / D.maxCurrent < m := lt_of_le_of_lt (le_max_left _ _) (by rw [← hs]; linarith)
    rw [div_lt_iff₀ hm] at this
    linarith

/-- **C62.** A photodiode never fails for positive filter orders, and the energy of its voltage is bounded for all optical inputs by what
the largest current could give: `n * (max_photocurrent * load)²`. -/
theorem C62_voltage_bounded (hn : 2 ≤ n) {P : Prop_ n} (hw : 0 < P.window) (D : Photodiode) (hr : 0 < D.responsivity)
    (hm : 0 < D.maxCurrent) (ho : 1 ≤ D.order) (x : Signal n) :
    ∃ y, D.propagate P x = .ok y ∧ energy y ≤ n * (D.maxCurrent * D.load) ^ 2 := by
  obtain ⟨_, _, _, _, _, y, hy, he⟩ := C65_butterworth hn hw D.bandwidth 1 ho (fun i => ((D.current (power_ x i) * D.load : ℝ) : ℂ))
  refine ⟨y, hy, he.trans ?_⟩
  rw [one_pow, one_mul]
  unfold energy
  calc _ ≤ ∑ _i : Fin n, (D.maxCurrent * D.load) ^ 2 := sum_le_sum (fun i _ => ?_)
    _ = _ := by rw [sum_const, card_univ, Fintype.card_fin, nsmul_eq_mul]
  obtain ⟨a, _, b⟩ := (C62_photocurrent D hr hm).2.1 (power_ x i) (by unfold power_; positivity)
  rw [Complex.norm_real, Real.norm_eq_abs, sq_abs, mul_pow, mul_pow]
  exact mul_le_mul_of_nonneg_right (pow_le_pow_left₀ a b.le 2) (sq_nonneg _)

/-- The default photodiode meets the hypotheses. -/
example : let D : Photodiode := ⟨1 / 2, 100 * 10 ^ 9, 2, 3 / 1000, 50⟩
    0 < D.responsivity ∧ 0 < D.maxCurrent ∧ 1 ≤ D.order := by norm_num

/-! Cases of the other theorems: the photodiode's low-pass filter and the band filter at 1550 nm on a grid. -/

example {P : Prop_ 5} (hw : 0 < P.window) (x : Signal 5) := C65_butterworth (by norm_num) hw (100 * 10 ^ 9) 1 (order := 2) (by norm_num) x
example (P : Prop_ 5) (x : Signal 5) := C65_refused P x (100 * 10 ^ 9) 1 (-1) (by norm_num) "box"
example {P : Prop_ 5} (hw : 0 < P.window) (x : Signal 5) := C65_exp_square (by norm_num) hw (wl := 1550 / 10 ^ 9) (fwhm := 1 / 10 ^ 9) (by norm_num) (by norm_num) x
example {P : Prop_ 5} (hw : 0 < P.window) (y : Signal 5) (hy : filteredTime P (.butterworth (100 * 10 ^ 9) 1 2) (fun j => (j.val : ℂ)) = .ok y) :=
  C65_real_odd (by norm_num) (by norm_num) hw _ _ _ (fun j => by simp) hy
example {P : Prop_ 4} (hw : 0 < P.window) := C65_even_not_real (by norm_num) (by norm_num) hw (fc := 100 * 10 ^ 9) (v := 3) (by norm_num) (by norm_num)
example := C62_photocurrent ⟨1 / 2, 100 * 10 ^ 9, 2, 3 / 1000, 50⟩ (by norm_num) (by norm_num)
example {P : Prop_ 5} (hw : 0 < P.window) (x : Signal 5) :=
  C62_voltage_bounded (by norm_num) hw ⟨1 / 2, 100 * 10 ^ 9, 2, 3 / 1000, 50⟩ (by norm_num) (by norm_num) (by norm_num) x

end Verif
