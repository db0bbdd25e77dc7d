import Verif.Props.Linewidth
import Verif.Lemmas.Physics
import Verif.Lemmas.Coherence
import Mathlib.MeasureTheory.Integral.Pi
/-!
# C85: correlations of phase noise and the coherence of light with a linewidth
-/

namespace Verif
open Complex Finset MeasureTheory

variable {n : Nat}

/-- The weight of a frequency bin in the phase noise: the mean of `1 / |f|` over the bin and its opposite, squared. -/
noncomputable def binWeight (P : Prop_ n) (k : Fin n) : ℝ := ((1 / |ifftShift P.f k| + 1 / |ifftShift P.f (oppBin k)|) / 2) ^ 2

theorem ker_mul_inv_re (n i j k : Nat) : (ker n i k * (ker n j k)⁻¹).re = Real.cos (2 * Real.pi * k * ((i : ℝ) - j) / n) := by
  unfold ker
  rw [← Complex.exp_neg, ← Complex.exp_add]
  have : 2 * (Real.pi : ℂ) * I * (i : ℂ) * (k : ℂ) / (n : ℂ) + -(2 * (Real.pi : ℂ) * I * (j : ℂ) * (k : ℂ) / (n : ℂ)) =
      ((2 * Real.pi * k * ((i : ℝ) - j) / n : ℝ) : ℂ) * I := by push_cast; ring
  rw [this, Complex.exp_ofReal_mul_I_re]

/-- What filtering does to a product of two impulse responses. -/
theorem impulse_sum (G : Fin n → ℝ) (h : Fin n → Fin n → ℝ)
    (hh : ∀ m k, npFft (fun i => (h i m : ℂ)) k = (G k : ℂ) * (ker n m k)⁻¹) (i j : Fin n) :
    ∑ m, h i m * h j m = (∑ k : Fin n, G k ^ 2 * Real.cos (2 * Real.pi * k.val * ((i.val : ℝ) - j.val) / n)) / n := by
  have hn : (n : ℂ) ≠ 0 := by have := i.isLt; exact_mod_cast (by omega : n ≠ 0)
  have e : ∀ i m, (h i m : ℂ) = (∑ k : Fin n, (G k : ℂ) * (ker n m k)⁻¹ * ker n i k) / n := by
    intro i m
    have := congrFun (npIfft_npFft (fun i => (h i m : ℂ))) i
    rw [← this, npIfft_ker]
    simp_rw [hh]
  have e' : ∀ i m, (h i m : ℂ) = (∑ k : Fin n, (G k : ℂ) * ker n m k * (ker n i k)⁻¹) / n := by
    intro i m
    have := congrArg (starRingEnd ℂ) (e i m)
    rw [conj_ofReal, map_div₀, map_sum, Complex.conj_natCast] at this
    rw [this]
    congr 1
    refine sum_congr rfl fun k _ => ?_
    rw [map_mul, map_mul, conj_ofReal, map_inv₀, conj_ker, conj_ker, inv_inv]
  have key : ((∑ m, h i m * h j m : ℝ) : ℂ) = (∑ k : Fin n, (G k : ℂ) ^ 2 * (ker n i k * (ker n j k)⁻¹)) / n := by
    push_cast
    have : ∀ m, (h i m : ℂ) * (h j m : ℂ) =
        ∑ k : Fin n, ∑ l : Fin n, (G k : ℂ) * (G l : ℂ) * ker n i k * (ker n j l)⁻¹ / n ^ 2 * (ker n l m * (ker n k m)⁻¹) := by
      intro m
      rw [e i m, e' j m, div_mul_div_comm, sum_mul_sum, sum_div]
      refine sum_congr rfl fun k _ => ?_
      rw [sum_div]
      refine sum_congr rfl fun l _ => ?_
      rw [ker_symm n m k, ker_symm n m l]
      field_simp
    simp_rw [this]
    rw [sum_comm, sum_div]
    refine sum_congr rfl fun k _ => ?_
    rw [sum_comm]
    simp_rw [← mul_sum, ker_orth]
    simp only [mul_ite, mul_zero, sum_ite_eq', mem_univ, if_true]
    field_simp
  have := congrArg Complex.re key
  rw [ofReal_re] at this
  rw [this, Complex.div_natCast_re, Complex.re_sum]
  congr 1
  refine sum_congr rfl fun k _ => ?_
  rw [← ker_mul_inv_re, ← ofReal_pow, re_ofReal_mul]

/-- The phase noise is a linear function of the numbers drawn, with coefficients whose products sum up to the correlation. -/
theorem phase_form (hn : 2 ≤ n) (he : n % 2 = 0) {P : Prop_ n} (hw : 0 < P.window) (mask : Option (Signal n)) {w : ℝ} (h0 : 0 < w) (g : Signal n) :
    ∃ h : Fin n → Fin n → ℝ,
      (∀ r : Fin n → ℝ, (∃ s, sampleNoise P mask (.phase w) g r = .ok s ∧ ∀ i, s.vec i = ((∑ m, h i m * r m : ℝ) : ℂ)) ∧
        ∃ s, sampleNoise P mask (.fwhm w) g r = .ok s ∧ ∀ x : Signal n, ∃ y, mixNoise P [s] x = .ok y ∧
          ∀ i, y i = x i * exp (I * ((∑ m, h i m * r m : ℝ) : ℂ))) ∧
      ∀ i j, ∑ m, h i m * h j m = w / (2 * Real.pi * P.dt) *
        ((∑ k : Fin n, binWeight P k * Real.cos (2 * Real.pi * k.val * ((i.val : ℝ) - j.val) / n)) / n) := by
  have hdt := dt_pos_grid hn hw
  have hdc : (P.dt : ℂ) ≠ 0 := by exact_mod_cast hdt.ne'
  choose p hp1 hp2 hp3 using fun r => C66_linewidth_spectrum hn he hw mask h0 g r
  obtain ⟨G, hG⟩ : ∃ G : Fin n → ℝ, G = fun k => Real.sqrt (w / (2 * Real.pi)) * Real.sqrt P.dt *
    ((1 / |ifftShift P.f k| + 1 / |ifftShift P.f (oppBin k)|) / 2) / P.dt := ⟨_, rfl⟩
  have hF : ∀ r k, npFft (fun i => (p r i : ℂ)) k = (G k : ℂ) * npFft (fun i => (r i : ℂ)) k := by
    intro r k
    have := hp1 r k
    unfold fft_ at this
    rw [eq_comm, ← mul_left_inj' hdc, this, hG]
    push_cast
    field_simp
  have hlin : ∀ r i, p r i = ∑ m, p (Pi.single m 1) i * r m := by
    intro r i
    have : (fun i => (p r i : ℂ)) = fun i => ((∑ m, p (Pi.single m 1) i * r m : ℝ) : ℂ) := by
      apply npFft_inj
      funext k
      rw [hF, npFft_ker, npFft_ker, mul_sum]
      have : ∀ m, (G k : ℂ) * ((r m : ℂ) * (ker n m k)⁻¹) = ∑ j : Fin n, ((p (Pi.single m 1) j * r m : ℝ) : ℂ) * (ker n j k)⁻¹ := by
        intro m
        have h1 := hF (Pi.single m 1) k
        rw [npFft_ker, npFft_ker] at h1
        have h2 : ∑ j : Fin n, ((Pi.single m 1 : Fin n → ℝ) j : ℂ) * (ker n j k)⁻¹ = (ker n m k)⁻¹ := by
          rw [sum_eq_single m]
          · simp
          · intro b _ hb; simp [Pi.single_eq_of_ne hb]
          · simp
        rw [h2] at h1
        push_cast
        rw [mul_left_comm, ← h1, mul_sum]
        exact sum_congr rfl fun j _ => by ring
      simp_rw [this]
      rw [sum_comm]
      refine sum_congr rfl fun j _ => ?_
      push_cast
      rw [sum_mul]
    exact_mod_cast congrFun this i
  refine ⟨fun i m => p (Pi.single m 1) i, fun r => ⟨?_, ?_⟩, fun i j => ?_⟩
  · obtain ⟨s, h1, h2⟩ := hp2 r
    exact ⟨s, h1, fun i => by rw [h2, hlin]⟩
  · obtain ⟨s, h1, h2⟩ := hp3 r
    refine ⟨s, h1, fun x => ?_⟩
    obtain ⟨y, h3, h4⟩ := h2 x
    exact ⟨y, h3, fun i => by rw [h4, hlin]⟩
  · rw [impulse_sum G (fun i m => p (Pi.single m 1) i) (fun m k => ?_) i j]
    · have : ∀ k, G k ^ 2 = w / (2 * Real.pi * P.dt) * binWeight P k := by
        intro k
        rw [hG]
        simp only
        rw [div_pow, mul_pow, mul_pow, Real.sq_sqrt (by positivity), Real.sq_sqrt hdt.le]
        unfold binWeight
        field_simp
      simp_rw [this, mul_assoc]
      rw [← mul_sum]
      ring
    · rw [hF]
      congr 1
      rw [npFft_ker, sum_eq_single m]
      · simp
      · intro b _ hb; simp [Pi.single_eq_of_ne hb]
      · simp


/-! ### The weights in numbers -/

theorem shifted_f (hn : 2 ≤ n) (he : n % 2 = 0) {P : Prop_ n} (hw : 0 < P.window) (k : Fin n) :
    ifftShift P.f k = (if k.val < n / 2 then (k.val : ℝ) + 1 / 2 else (k.val : ℝ) - n + 1 / 2) / (P.window * (n - 1) / n) := by
  have h2 : (2 : ℝ) ≤ n := by exact_mod_cast hn
  have hk := k.isLt
  have h1 : (n : ℝ) - 1 ≠ 0 := by linarith
  have h3 : (n : ℝ) ≠ 0 := by linarith
  obtain ⟨N, rfl⟩ : ∃ N, n = 2 * N := ⟨n / 2, by omega⟩
  have hN : 2 * N / 2 = N := by omega
  unfold ifftShift Prop_.f Prop_.linspace rotIdx
  simp only [hN]
  push_cast at h1 h3 ⊢
  split
  · rw [Nat.mod_eq_of_lt (by omega)]
    push_cast
    field_simp
    ring
  · next h =>
    have : (k.val + N) % (2 * N) = k.val - N := by
      rw [Nat.mod_eq_sub_mod (by omega), Nat.mod_eq_of_lt (by omega)]; omega
    rw [this, Nat.cast_sub (by omega)]
    field_simp
    ring

theorem binWeight_eq (hn : 4 ≤ n) (he : n % 2 = 0) {P : Prop_ n} (hw : 0 < P.window) (k : Fin n) (hk : 0 < k.val) :
    binWeight P k = (P.window * (n - 1) / n) ^ 2 * halfWeight (n / 2) (min k.val (n - k.val)) := by
  have h2 : (4 : ℝ) ≤ n := by exact_mod_cast hn
  have hkl := k.isLt
  obtain ⟨u, hu⟩ : ∃ u, u = P.window * ((n : ℝ) - 1) / n := ⟨_, rfl⟩
  have hu0 : 0 < u := by rw [hu]; exact div_pos (mul_pos hw (by linarith)) (by linarith)
  unfold binWeight
  rw [shifted_f (by omega) he hw, shifted_f (by omega) he hw, ← hu]
  have hopp : (oppBin k).val = n - k.val := Nat.mod_eq_of_lt (by omega)
  have hkc : ((n - k.val : ℕ) : ℝ) = n - k.val := Nat.cast_sub hkl.le
  have hk1 : (1 : ℝ) ≤ k.val := by exact_mod_cast hk
  rw [hopp, hkc]
  rcases Nat.lt_trichotomy k.val (n / 2) with h | h | h
  · rw [if_pos h, if_neg (by omega), min_eq_left (by omega)]
    unfold halfWeight
    rw [if_neg (by omega), abs_div, abs_div, abs_of_pos hu0, abs_of_pos (by linarith : (0 : ℝ) < k.val + 1 / 2),
      abs_of_neg (by linarith : (n : ℝ) - k.val - n + 1 / 2 < 0)]
    have a1 : (k.val : ℝ) + 1 / 2 ≠ 0 := by linarith
    have a2 : (k.val : ℝ) - 1 / 2 ≠ 0 := by linarith
    have e : (k.val : ℝ) ^ 2 - 1 / 4 = (k.val + 1 / 2) * (k.val - 1 / 2) := by ring
    have e2 : -((n : ℝ) - k.val - n + 1 / 2) = k.val - 1 / 2 := by ring
    rw [e, e2, ← mul_pow]
    congr 1
    rw [one_div_div, one_div_div, div_add_div _ _ a1 a2, mul_div_assoc', div_div, div_eq_div_iff (mul_ne_zero (mul_ne_zero a1 a2) two_ne_zero) (mul_ne_zero a1 a2)]
    ring
  · have hnn : (n : ℝ) = 2 * k.val := by exact_mod_cast (by omega : n = 2 * k.val)
    rw [if_neg (by omega), if_neg (by omega), min_eq_left (by omega)]
    unfold halfWeight
    rw [if_pos h, ← h, hnn, abs_div, abs_div, abs_of_pos hu0, abs_of_neg (by linarith : (k.val : ℝ) - 2 * k.val + 1 / 2 < 0),
      abs_of_neg (by linarith : 2 * (k.val : ℝ) - k.val - 2 * k.val + 1 / 2 < 0)]
    have a2 : (k.val : ℝ) - 1 / 2 ≠ 0 := by linarith
    have e1 : -((k.val : ℝ) - 2 * k.val + 1 / 2) = k.val - 1 / 2 := by ring
    have e2 : -(2 * (k.val : ℝ) - k.val - 2 * k.val + 1 / 2) = k.val - 1 / 2 := by ring
    rw [e1, e2, one_div_div]
    field_simp
    ring
  · have hd1 : (1 : ℝ) ≤ n - k.val := by
      rw [← hkc]
      exact_mod_cast (by omega : 1 ≤ n - k.val)
    rw [if_neg (by omega), if_pos (by omega), min_eq_right (by omega)]
    unfold halfWeight
    rw [if_neg (by omega), hkc, abs_div, abs_div, abs_of_pos hu0, abs_of_neg (by linarith : (k.val : ℝ) - n + 1 / 2 < 0),
      abs_of_pos (by linarith : (0 : ℝ) < (n : ℝ) - k.val + 1 / 2)]
    obtain ⟨d, hd⟩ : ∃ d : ℝ, d = n - k.val := ⟨_, rfl⟩
    rw [← hd] at hd1 ⊢
    have a1 : d + 1 / 2 ≠ 0 := by linarith
    have a2 : d - 1 / 2 ≠ 0 := by linarith
    have e : d ^ 2 - 1 / 4 = (d + 1 / 2) * (d - 1 / 2) := by ring
    have e2 : -((k.val : ℝ) - n + 1 / 2) = d - 1 / 2 := by rw [hd]; ring
    rw [e, e2, ← mul_pow]
    congr 1
    rw [one_div_div, one_div_div, add_comm, div_add_div _ _ a1 a2, mul_div_assoc', div_div, div_eq_div_iff (mul_ne_zero (mul_ne_zero a1 a2) two_ne_zero) (mul_ne_zero a1 a2)]
    ring

/-- The sum in the exponent of the coherence, between two numbers. -/
theorem coherence_sum (hn : 4 ≤ n) (he : n % 2 = 0) {P : Prop_ n} (hw : 0 < P.window) (i j : Fin n) {x : ℝ} (hx : x = |(i.val : ℝ) - j.val| / n) :
    ∃ S, ∑ k : Fin n, binWeight P k * (1 - Real.cos (2 * Real.pi * k.val * ((i.val : ℝ) - j.val) / n)) = (P.window * (n - 1) / n) ^ 2 * S ∧
      2 * Real.pi ^ 2 * (x - x ^ 2) - 10 / n ≤ S ∧ S ≤ 2 * Real.pi ^ 2 * x * (1 + 2 * x) := by
  have h2 : (4 : ℝ) ≤ n := by exact_mod_cast hn
  have hi : (i.val : ℝ) + 1 ≤ n := by exact_mod_cast i.isLt
  have hj : (j.val : ℝ) + 1 ≤ n := by exact_mod_cast j.isLt
  have hx01 : x ∈ Set.Icc (0 : ℝ) 1 := by
    rw [hx]
    refine ⟨by positivity, (div_le_one (by linarith)).2 (abs_le.2 ⟨?_, ?_⟩)⟩
    · linarith [(Nat.cast_nonneg i.val : (0 : ℝ) ≤ i.val)]
    · linarith [(Nat.cast_nonneg j.val : (0 : ℝ) ≤ j.val)]
  have hcos : ∀ k : ℕ, Real.cos (2 * Real.pi * k * ((i.val : ℝ) - j.val) / n) = Real.cos (2 * Real.pi * k * x) := by
    intro k
    rw [hx]
    rcases abs_cases ((i.val : ℝ) - j.val) with ⟨e, _⟩ | ⟨e, _⟩
    · rw [e]; congr 1; ring
    · rw [e, ← Real.cos_neg]; congr 1; ring
  obtain ⟨N, hN⟩ : ∃ N, N = n / 2 := ⟨_, rfl⟩
  have hnN : n = 2 * N := by omega
  obtain ⟨F, hF⟩ : ∃ F : ℕ → ℝ, F = fun k => halfWeight N (min k (n - k)) * (1 - Real.cos (2 * Real.pi * k * ((i.val : ℝ) - j.val) / n)) := ⟨_, rfl⟩
  have hF0 : F 0 = 0 := by rw [hF]; simp
  have hsum : ∑ k : Fin n, binWeight P k * (1 - Real.cos (2 * Real.pi * k.val * ((i.val : ℝ) - j.val) / n)) = (P.window * (n - 1) / n) ^ 2 * ∑ k ∈ range n, F k := by
    rw [← Fin.sum_univ_eq_sum_range, mul_sum]
    refine sum_congr rfl fun k _ => ?_
    rcases Nat.eq_zero_or_pos k.val with h | h
    · rw [h, hF0]; simp
    · rw [binWeight_eq hn he hw k h, hF, ← hN]; ring
  have hfold : ∑ k ∈ range n, F k = 2 * ∑ d ∈ range N, F d + F N := by
    have := sum_fold F (N := N) (by omega) hF0 (fun d h1 h3 => by
      rw [hF]
      simp only
      rw [← hnN, show n - (n - d) = d by omega, min_comm]
      congr 2
      rw [Nat.cast_sub (by omega)]
      have : 2 * Real.pi * ((n : ℝ) - d) * ((i.val : ℝ) - j.val) / n = ((i.val : ℤ) - j.val : ℤ) * (2 * Real.pi) - 2 * Real.pi * d * ((i.val : ℝ) - j.val) / n := by
        push_cast
        field_simp
      rw [this, Real.cos_int_mul_two_pi_sub])
    rw [← hnN] at this
    exact this
  have hval : 2 * ∑ d ∈ range N, F d + F N =
      2 * ∑ d ∈ range N, halfWeight N d * (1 - Real.cos (2 * Real.pi * d * x)) + halfWeight N N * (1 - Real.cos (2 * Real.pi * N * x)) := by
    rw [hF]
    simp only [hcos]
    rw [show min N (n - N) = N by omega]
    congr 2
    refine sum_congr rfl fun d hd => ?_
    rw [mem_range] at hd
    rw [show min d (n - d) = d by omega]
  obtain ⟨b1, b2⟩ := fold_bounds hx01 (N := N) (by omega)
  refine ⟨_, hsum, ?_, ?_⟩
  · rw [hfold, hval]
    have : (10 : ℝ) / n = 5 / N := by
      have hNr : (n : ℝ) = 2 * N := by exact_mod_cast hnN
      have : (N : ℝ) ≠ 0 := by intro h; rw [h] at hNr; linarith
      rw [hNr]; field_simp; norm_num
    rw [this]
    exact b1
  · rw [hfold, hval]
    exact b2

/-! ### Mean values -/

variable {Ω : Type} [MeasurableSpace Ω]

theorem white_product {μ : Measure Ω} {X : Ω → Fin n → ℝ} (hX : WhiteNoise μ X) (a b : Fin n → ℝ) :
    ∫ ω, (∑ i, a i * X ω i) * (∑ i, b i * X ω i) ∂μ = ∑ i, a i * b i := by
  have e : ∀ ω, (∑ i, a i * X ω i) * (∑ i, b i * X ω i) = ∑ i, ∑ j, a i * b j * (X ω i * X ω j) := by
    intro ω
    rw [Finset.sum_mul_sum]
    exact Finset.sum_congr rfl fun i _ => Finset.sum_congr rfl fun j _ => by ring
  simp_rw [e]
  have hi : ∀ i j, Integrable (fun ω => a i * b j * (X ω i * X ω j)) μ := fun i j => (hX i j).1.const_mul _
  rw [integral_finsetSum _ fun i _ => integrable_finsetSum _ fun j _ => hi i j]
  refine Finset.sum_congr rfl fun i _ => ?_
  rw [integral_finsetSum _ fun j _ => hi i j]
  simp_rw [integral_const_mul, fun j => (hX i j).2]
  simp

/-- What `np.random.normal(scale=1, size=(n, 1))` draws: independent numbers, normally distributed with mean zero and variance one. -/
noncomputable def normalDraw (n : Nat) : Measure (Fin n → ℝ) := Measure.pi fun _ => ProbabilityTheory.gaussianReal 0 1

theorem normal_char (a : Fin n → ℝ) : ∫ r, exp (I * ((∑ m, a m * r m : ℝ) : ℂ)) ∂(normalDraw n) = ((Real.exp (-(∑ m, a m ^ 2) / 2) : ℝ) : ℂ) := by
  have e : ∀ r : Fin n → ℝ, exp (I * ((∑ m, a m * r m : ℝ) : ℂ)) = ∏ m, exp (((a m : ℝ) : ℂ) * (r m : ℂ) * I) := by
    intro r
    rw [← Complex.exp_sum]
    congr 1
    push_cast
    rw [mul_sum]
    exact sum_congr rfl fun m _ => by ring
  simp_rw [e]
  unfold normalDraw
  rw [integral_fintype_prod_eq_prod (fun m (x : ℝ) => exp (((a m : ℝ) : ℂ) * (x : ℂ) * I))]
  have h1 : ∀ t : ℝ, ∫ x, exp ((t : ℂ) * (x : ℂ) * I) ∂(ProbabilityTheory.gaussianReal 0 1) = ((Real.exp (-t ^ 2 / 2) : ℝ) : ℂ) := by
    intro t
    have := ProbabilityTheory.charFun_gaussianReal (μ := 0) (v := 1) t
    rw [charFun_apply_real] at this
    rw [this]
    push_cast
    congr 1
    simp
    ring
  simp_rw [h1]
  rw [← Complex.ofReal_prod, ← Real.exp_sum]
  congr 2
  rw [← sum_div, ← sum_neg_distrib]

/-- **C85.** Correlation of the phase noise of a linewidth `w`, over all that may be drawn, in closed form. -/
theorem C85_correlation (hn : 2 ≤ n) (he : n % 2 = 0) {P : Prop_ n} (hw : 0 < P.window) (mask : Option (Signal n)) {w : ℝ} (h0 : 0 < w) (g : Signal n)
    {μ : Measure Ω} {X : Ω → Fin n → ℝ} (hX : WhiteNoise μ X) :
    ∃ p : Ω → Fin n → ℝ, (∀ ω, ∃ s, sampleNoise P mask (.phase w) g (X ω) = .ok s ∧ ∀ i, s.vec i = p ω i) ∧
      ∀ i j, ∫ ω, p ω i * p ω j ∂μ = w / (2 * Real.pi * P.dt) *
        ((∑ k : Fin n, ((1 / |ifftShift P.f k| + 1 / |ifftShift P.f (oppBin k)|) / 2) ^ 2 * Real.cos (2 * Real.pi * k.val * ((i.val : ℝ) - j.val) / n)) / n) := by
  obtain ⟨h, h1, h2⟩ := phase_form hn he hw mask h0 g
  refine ⟨fun ω i => ∑ m, h i m * X ω m, fun ω => (h1 (X ω)).1, fun i j => ?_⟩
  rw [white_product hX, h2]
  rfl

/-- **C85.** The phase noise is stationary, and periodic with the time window: what two instants have in common depends on their distance only, counted around the window in either
direction.  So the phase varies equally much at every instant, and the last instant of the window is as close to the first one as a neighbour. -/
theorem C85_stationary (hn : 2 ≤ n) (he : n % 2 = 0) {P : Prop_ n} (hw : 0 < P.window) (mask : Option (Signal n)) {w : ℝ} (h0 : 0 < w) (g : Signal n)
    {μ : Measure Ω} {X : Ω → Fin n → ℝ} (hX : WhiteNoise μ X) :
    ∃ p : Ω → Fin n → ℝ, (∀ ω, ∃ s, sampleNoise P mask (.phase w) g (X ω) = .ok s ∧ ∀ i, s.vec i = p ω i) ∧
      ∀ i j i' j' : Fin n, ((n : ℤ) ∣ (i.val - j.val : ℤ) - (i'.val - j'.val) ∨ (n : ℤ) ∣ (i.val - j.val : ℤ) + (i'.val - j'.val)) →
        ∫ ω, p ω i * p ω j ∂μ = ∫ ω, p ω i' * p ω j' ∂μ := by
  obtain ⟨p, h1, h2⟩ := C85_correlation hn he hw mask h0 g hX
  refine ⟨p, h1, fun i j i' j' h => ?_⟩
  rw [h2, h2]
  congr 2
  refine sum_congr rfl fun k _ => ?_
  congr 1
  have hn0 : (n : ℝ) ≠ 0 := by have : (2 : ℝ) ≤ n := by exact_mod_cast hn
                               linarith
  rcases h with ⟨c, hc⟩ | ⟨c, hc⟩
  · have hr : ((i.val : ℝ) - j.val) - (i'.val - j'.val) = n * c := by exact_mod_cast hc
    have : 2 * Real.pi * k.val * ((i.val : ℝ) - j.val) / n = 2 * Real.pi * k.val * ((i'.val : ℝ) - j'.val) / n + ((k.val * c : ℤ) : ℝ) * (2 * Real.pi) := by
      rw [show (i.val : ℝ) - j.val = (i'.val - j'.val) + n * c by linarith]
      push_cast
      field_simp
    rw [this, Real.cos_add_int_mul_two_pi]
  · have hr : ((i.val : ℝ) - j.val) + (i'.val - j'.val) = n * c := by exact_mod_cast hc
    have : 2 * Real.pi * k.val * ((i.val : ℝ) - j.val) / n = ((k.val * c : ℤ) : ℝ) * (2 * Real.pi) - 2 * Real.pi * k.val * ((i'.val : ℝ) - j'.val) / n := by
      rw [show (i.val : ℝ) - j.val = n * c - (i'.val - j'.val) by linarith]
      push_cast
      field_simp
    rw [this, Real.cos_int_mul_two_pi_sub]

/-- **C85.** Coherence of light with a linewidth.  Averaged over all that may be drawn, the product of the fields at two instants is that of the undisturbed fields times a number `γ` which
is the same as for a Lorentzian line of width `w`, `exp (-π w T)` for instants `T` apart, up to the share of `T` in the time window and one time step. -/
theorem C85_coherence (hn : 4 ≤ n) (he : n % 2 = 0) {P : Prop_ n} (hw : 0 < P.window) (mask : Option (Signal n)) {w : ℝ} (h0 : 0 < w) (g : Signal n) (x : Signal n) :
    ∃ y : (Fin n → ℝ) → Signal n, (∀ r, ∃ s, sampleNoise P mask (.fwhm w) g r = .ok s ∧ mixNoise P [s] x = .ok (y r)) ∧
      ∀ i j, ∃ γ : ℝ, ∫ r, y r i * (starRingEnd ℂ) (y r j) ∂(normalDraw n) = x i * (starRingEnd ℂ) (x j) * γ ∧
        ∀ T, T = |P.t i - P.t j| →
          Real.exp (-(Real.pi * w * T * (1 + 2 * (|(i.val : ℝ) - j.val| / n)))) ≤ γ ∧
          γ ≤ Real.exp (-((((n : ℝ) - 1) / n) ^ 4 * (Real.pi * w * T * (1 - |(i.val : ℝ) - j.val| / n) - 5 / Real.pi * w * P.dt))) := by
  have h2 : (4 : ℝ) ≤ n := by exact_mod_cast hn
  have hdt := dt_pos_grid (by omega : 2 ≤ n) hw
  have hpi := Real.pi_pos
  obtain ⟨h, h1, hc⟩ := phase_form (by omega) he hw mask h0 g
  choose s hs y0 hy1 hy2 using fun r => (h1 r).2
  refine ⟨fun r => y0 r x, fun r => ⟨s r, hs r, hy1 r x⟩, fun i j => ?_⟩
  have hint : ∫ r, y0 r x i * (starRingEnd ℂ) (y0 r x j) ∂(normalDraw n) =
      x i * (starRingEnd ℂ) (x j) * ((Real.exp (-(∑ m, (h i m - h j m) ^ 2) / 2) : ℝ) : ℂ) := by
    rw [← normal_char, ← integral_const_mul]
    congr 1
    funext r
    rw [hy2, hy2, map_mul, ← Complex.exp_conj, map_mul, conj_I, conj_ofReal]
    have : exp (I * ((∑ m, (h i m - h j m) * r m : ℝ) : ℂ)) = exp (I * ((∑ m, h i m * r m : ℝ) : ℂ)) * exp (-I * ((∑ m, h j m * r m : ℝ) : ℂ)) := by
      rw [← Complex.exp_add]
      congr 1
      simp_rw [sub_mul, sum_sub_distrib]
      push_cast
      ring
    rw [this]
    ring
  refine ⟨_, hint, ?_⟩
  rintro T rfl
  obtain ⟨τ, hτ⟩ : ∃ τ, τ = |(i.val : ℝ) - j.val| := ⟨_, rfl⟩
  obtain ⟨S, hS, b1, b2⟩ := coherence_sum hn he hw i j rfl
  have hT : |P.t i - P.t j| = P.dt * τ := by
    rw [(dt_df P).1]
    unfold Prop_.t Prop_.linspace
    have : -P.window / 2 + (i.val : ℝ) * ((P.window / 2 - -P.window / 2) / ((n : ℝ) - 1)) - (-P.window / 2 + (j.val : ℝ) * ((P.window / 2 - -P.window / 2) / ((n : ℝ) - 1))) =
        P.window / (n - 1) * ((i.val : ℝ) - j.val) := by ring
    rw [this, abs_mul, hτ, abs_of_pos (div_pos hw (by linarith))]
  have hD : (∑ m, (h i m - h j m) ^ 2) / 2 = (((n : ℝ) - 1) / n) ^ 4 * (w * P.dt * n / (2 * Real.pi)) * S := by
    have e : ∑ m, (h i m - h j m) ^ 2 = ∑ m, h i m * h i m + ∑ m, h j m * h j m - 2 * ∑ m, h i m * h j m := by
      rw [mul_sum, ← sum_add_distrib, ← sum_sub_distrib]
      exact sum_congr rfl fun m _ => by ring
    have e2 : ∑ k : Fin n, binWeight P k * (1 - Real.cos (2 * Real.pi * k.val * ((i.val : ℝ) - j.val) / n)) =
        ∑ k : Fin n, binWeight P k - ∑ k : Fin n, binWeight P k * Real.cos (2 * Real.pi * k.val * ((i.val : ℝ) - j.val) / n) := by
      rw [← sum_sub_distrib]
      exact sum_congr rfl fun k _ => by ring
    rw [e, hc, hc, hc]
    simp only [sub_self, mul_zero, zero_div, Real.cos_zero, mul_one]
    rw [e2] at hS
    have hW : P.window = P.dt * (n - 1) := by rw [(dt_df P).1]; field_simp [show (n : ℝ) - 1 ≠ 0 by linarith]
    have e3 : ∑ k : Fin n, binWeight P k = (P.window * (n - 1) / n) ^ 2 * S +
        ∑ k : Fin n, binWeight P k * Real.cos (2 * Real.pi * k.val * ((i.val : ℝ) - j.val) / n) := by linarith
    have hn0 : (n : ℝ) ≠ 0 := by linarith
    have e4 : ∀ A B : ℝ, (w / (2 * Real.pi * P.dt) * ((A + B) / n) + w / (2 * Real.pi * P.dt) * ((A + B) / n) - 2 * (w / (2 * Real.pi * P.dt) * (B / n))) / 2 =
        w / (2 * Real.pi * P.dt) * (A / n) := fun A B => by ring
    rw [e3, e4, hW]
    have hd0 := hdt.ne'
    field_simp
  rw [neg_div, hD, hT, ← hτ]
  rw [← hτ] at b1 b2
  have hτ0 : 0 ≤ τ := by rw [hτ]; positivity
  have hr1 : (((n : ℝ) - 1) / n) ^ 4 ≤ 1 := pow_le_one₀ (div_nonneg (by linarith) (by linarith)) ((div_le_one (by linarith)).2 (by linarith))
  have hr0 : 0 ≤ (((n : ℝ) - 1) / n) ^ 4 := pow_nonneg (div_nonneg (by linarith) (by linarith)) 4
  have hc0 : 0 ≤ w * P.dt * n / (2 * Real.pi) := by positivity
  constructor
  · apply Real.exp_le_exp.2
    apply neg_le_neg
    have hA := mul_le_mul_of_nonneg_left b2 hc0
    have hB : w * P.dt * n / (2 * Real.pi) * (2 * Real.pi ^ 2 * (τ / n) * (1 + 2 * (τ / n))) = Real.pi * w * (P.dt * τ) * (1 + 2 * (τ / n)) := by
      field_simp
    rw [hB] at hA
    have hpos : 0 ≤ Real.pi * w * (P.dt * τ) * (1 + 2 * (τ / n)) := by positivity
    calc (((n : ℝ) - 1) / n) ^ 4 * (w * P.dt * n / (2 * Real.pi)) * S = (((n : ℝ) - 1) / n) ^ 4 * (w * P.dt * n / (2 * Real.pi) * S) := by ring
      _ ≤ (((n : ℝ) - 1) / n) ^ 4 * (Real.pi * w * (P.dt * τ) * (1 + 2 * (τ / n))) := mul_le_mul_of_nonneg_left hA hr0
      _ ≤ 1 * (Real.pi * w * (P.dt * τ) * (1 + 2 * (τ / n))) := mul_le_mul_of_nonneg_right hr1 hpos
      _ = _ := one_mul _
  · apply Real.exp_le_exp.2
    apply neg_le_neg
    have hA := mul_le_mul_of_nonneg_left b1 hc0
    have hB : w * P.dt * n / (2 * Real.pi) * (2 * Real.pi ^ 2 * (τ / n - (τ / n) ^ 2) - 10 / n) =
        Real.pi * w * (P.dt * τ) * (1 - τ / n) - 5 / Real.pi * w * P.dt := by
      field_simp
      ring
    rw [hB] at hA
    exact (mul_le_mul_of_nonneg_left hA hr0).trans (le_of_eq (by ring))

/-- **C85.** How the linewidth enters: for any two different instants there is a positive number, given by the grid alone, such that the coherence for the linewidth `w` is the exponential
of minus `w` times that number.  So a wider line is less coherent at every distance, and the mean power at each instant does not change. -/
theorem C85_width (hn : 2 ≤ n) (he : n % 2 = 0) {P : Prop_ n} (hw : 0 < P.window) :
    ∃ K : Fin n → Fin n → ℝ, (∀ i j, 0 ≤ K i j ∧ (K i j = 0 ↔ i = j)) ∧
      ∀ (mask : Option (Signal n)) (w : ℝ), 0 < w → ∀ g x : Signal n,
        ∃ y : (Fin n → ℝ) → Signal n, (∀ r, ∃ s, sampleNoise P mask (.fwhm w) g r = .ok s ∧ mixNoise P [s] x = .ok (y r)) ∧
          ∀ i j, ∫ r, y r i * (starRingEnd ℂ) (y r j) ∂(normalDraw n) = x i * (starRingEnd ℂ) (x j) * (Real.exp (-(w * K i j)) : ℝ) := by
  have h2 : (2 : ℝ) ≤ n := by exact_mod_cast hn
  have hdt := dt_pos_grid hn hw
  have hpi := Real.pi_pos
  have hb0 : ∀ k, 0 ≤ binWeight P k := fun k => sq_nonneg _
  have ht0 : ∀ (i j k : Fin n), 0 ≤ binWeight P k * (1 - Real.cos (2 * Real.pi * k.val * ((i.val : ℝ) - j.val) / n)) := fun i j k =>
    mul_nonneg (hb0 k) (one_sub_cos_nonneg _)
  refine ⟨fun i j => 1 / (2 * Real.pi * P.dt) * ((∑ k : Fin n, binWeight P k * (1 - Real.cos (2 * Real.pi * k.val * ((i.val : ℝ) - j.val) / n))) / n), fun i j => ⟨?_, ?_⟩, ?_⟩
  · exact mul_nonneg (by positivity) (div_nonneg (sum_nonneg fun k _ => ht0 i j k) (by linarith))
  · constructor
    · intro h
      have hs : ∑ k : Fin n, binWeight P k * (1 - Real.cos (2 * Real.pi * k.val * ((i.val : ℝ) - j.val) / n)) = 0 := by
        rcases mul_eq_zero.1 h with h | h
        · exact absurd h (by positivity)
        · rcases div_eq_zero_iff.1 h with h | h
          · exact h
          · linarith
      have h1 := (sum_eq_zero_iff_of_nonneg fun k _ => ht0 i j k).1 hs ⟨1, by omega⟩ (mem_univ _)
      have hz : ∀ k, ifftShift P.f k ≠ 0 := fun k hk => by
        have : ∃ k, P.f k = 0 := ⟨_, hk⟩
        rw [exists_f_zero hn hw] at this
        omega
      have hbp : 0 < binWeight P ⟨1, by omega⟩ := by
        unfold binWeight
        have a1 := abs_pos.2 (hz ⟨1, by omega⟩)
        have a2 := abs_pos.2 (hz (oppBin ⟨1, by omega⟩))
        positivity
      have hcos : Real.cos (2 * Real.pi * ((i.val : ℝ) - j.val) / n) = 1 := by
        rcases mul_eq_zero.1 h1 with h | h
        · exact absurd h hbp.ne'
        · simp only [Nat.cast_one, mul_one] at h
          linarith
      obtain ⟨m, hm⟩ := (Real.cos_eq_one_iff _).1 hcos
      have hn0 : (n : ℝ) ≠ 0 := by linarith
      have hr : (m : ℝ) * n = (i.val : ℝ) - j.val := by
        have h3 : (m : ℝ) * (2 * Real.pi) * n = 2 * Real.pi * ((i.val : ℝ) - j.val) := by rw [hm]; field_simp
        have h4 : 2 * Real.pi * ((m : ℝ) * n) = 2 * Real.pi * ((i.val : ℝ) - j.val) := by linarith
        exact mul_left_cancel₀ (by positivity) h4
      have hz' : m * (n : ℤ) = (i.val : ℤ) - j.val := by exact_mod_cast hr
      have hi := i.isLt
      have hj := j.isLt
      have hm0 : m = 0 := by
        by_contra hne
        rcases lt_or_gt_of_ne hne with hlt | hgt
        · have : m * (n : ℤ) ≤ -1 * n := mul_le_mul_of_nonneg_right (by omega) (by omega)
          omega
        · have : 1 * (n : ℤ) ≤ m * n := mul_le_mul_of_nonneg_right (by omega) (by omega)
          omega
      rw [hm0, zero_mul] at hz'
      exact Fin.ext (by omega)
    · rintro rfl
      simp
  · intro mask w h0 g x
    obtain ⟨h, h1, hc⟩ := phase_form hn he hw mask h0 g
    choose s hs y0 hy1 hy2 using fun r => (h1 r).2
    refine ⟨fun r => y0 r x, fun r => ⟨s r, hs r, hy1 r x⟩, fun i j => ?_⟩
    have hint : ∫ r, y0 r x i * (starRingEnd ℂ) (y0 r x j) ∂(normalDraw n) =
        x i * (starRingEnd ℂ) (x j) * ((Real.exp (-(∑ m, (h i m - h j m) ^ 2) / 2) : ℝ) : ℂ) := by
      rw [← normal_char, ← integral_const_mul]
      congr 1
      funext r
      rw [hy2, hy2, map_mul, ← Complex.exp_conj, map_mul, conj_I, conj_ofReal]
      have : exp (I * ((∑ m, (h i m - h j m) * r m : ℝ) : ℂ)) = exp (I * ((∑ m, h i m * r m : ℝ) : ℂ)) * exp (-I * ((∑ m, h j m * r m : ℝ) : ℂ)) := by
        rw [← Complex.exp_add]
        congr 1
        simp_rw [sub_mul, sum_sub_distrib]
        push_cast
        ring
      rw [this]
      ring
    rw [hint]
    congr 3
    have e : ∑ m, (h i m - h j m) ^ 2 = ∑ m, h i m * h i m + ∑ m, h j m * h j m - 2 * ∑ m, h i m * h j m := by
      rw [mul_sum, ← sum_add_distrib, ← sum_sub_distrib]
      exact sum_congr rfl fun m _ => by ring
    have e2 : ∑ k : Fin n, binWeight P k * (1 - Real.cos (2 * Real.pi * k.val * ((i.val : ℝ) - j.val) / n)) =
        ∑ k : Fin n, binWeight P k - ∑ k : Fin n, binWeight P k * Real.cos (2 * Real.pi * k.val * ((i.val : ℝ) - j.val) / n) := by
      rw [← sum_sub_distrib]
      exact sum_congr rfl fun k _ => by ring
    rw [e, hc, hc, hc]
    dsimp only
    rw [e2]
    simp only [sub_self, mul_zero, zero_div, Real.cos_zero, mul_one]
    ring

/-! Cases: a laser with a linewidth on the demonstration grid of four samples. -/

example (g : Signal 4) := C85_correlation (n := 4) (by norm_num) (by norm_num) (P := demoProp) (by norm_num [demoProp]) none (w := 1 / 10) (by norm_num) g (gaussian_white (Fin 4))
example (g : Signal 4) := C85_stationary (n := 4) (by norm_num) (by norm_num) (P := demoProp) (by norm_num [demoProp]) none (w := 1 / 10) (by norm_num) g (gaussian_white (Fin 4))

/-- The first and the last sample are neighbours. -/
example : ((4 : ℕ) : ℤ) ∣ ((0 : Fin 4).val - (3 : Fin 4).val : ℤ) - ((1 : Fin 4).val - (0 : Fin 4).val) := by decide

example (g x : Signal 4) := C85_coherence (n := 4) (by norm_num) (by norm_num) (P := demoProp) (by norm_num [demoProp]) none (w := 1 / 10) (by norm_num) g x

example := C85_width (n := 4) (by norm_num) (by norm_num) (P := demoProp) (by norm_num [demoProp])

end Verif
