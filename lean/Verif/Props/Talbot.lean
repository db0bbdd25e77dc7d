import Verif.Props.Dispersion
/-!
# C121: fractions of the Talbot length multiply the rate of a pulse train by any factor
-/

namespace Verif
open Complex Finset

variable {n : Nat}

/-! ### Quadratic phases -/

/-- The phase that dispersion of `p / q` of half a Talbot length gives to line `j` of a train. -/
noncomputable def talbotPhase (p : ℤ) (q : ℕ) (j : ℤ) : ℂ := exp (I * ((-(Real.pi * p * j ^ 2 / q) : ℝ) : ℂ))

theorem norm_talbotPhase (p : ℤ) (q : ℕ) (j : ℤ) : ‖talbotPhase p q j‖ = 1 := norm_expI _

theorem expI_turns (z : ℤ) : exp (I * ((2 * Real.pi * z : ℝ) : ℂ)) = 1 := by
  rw [show I * ((2 * Real.pi * z : ℝ) : ℂ) = (z : ℂ) * (2 * Real.pi * I) by push_cast; ring, exp_int_mul_two_pi_mul_I]

theorem talbotPhase_period {p : ℤ} {q : ℕ} (hq : 0 < q) (hpq : Even (p * q)) (j z : ℤ) : talbotPhase p q (j + q * z) = talbotPhase p q j := by
  obtain ⟨h, hh⟩ := hpq
  have hq' : (q : ℝ) ≠ 0 := by exact_mod_cast hq.ne'
  have hhR : (p : ℝ) * q = 2 * h := by
    have : ((p * q : ℤ) : ℝ) = ((h + h : ℤ) : ℝ) := by rw [hh]
    push_cast at this
    linarith
  unfold talbotPhase
  rw [show (-(Real.pi * p * ((j + q * z : ℤ) : ℝ) ^ 2 / q) : ℝ) = -(Real.pi * p * j ^ 2 / q) + 2 * Real.pi * ((-(p * j * z + h * z ^ 2) : ℤ) : ℝ) by
    push_cast
    field_simp
    linear_combination (-(z : ℝ) ^ 2 * q) * hhR]
  rw [expI_add, expI_turns, mul_one]

theorem talbotPhase_emod {p : ℤ} {q : ℕ} (hq : 0 < q) (hpq : Even (p * q)) (j : ℤ) : talbotPhase p q (j % q) = talbotPhase p q j := by
  conv_rhs => rw [← Int.emod_add_mul_ediv j q]
  rw [talbotPhase_period hq hpq]

/-- The weights of the copies: the discrete Fourier transform of the phases. -/
noncomputable def talbotWeight (p : ℤ) (q : ℕ) (s : ℤ) : ℂ := (∑ k : Fin q, talbotPhase p q k * kerZ q s k) / q

theorem talbotWeight_fft (p : ℤ) (q : ℕ) (s : Fin q) : talbotWeight p q s = npIfft (fun k : Fin q => talbotPhase p q k) s := by
  rw [npIfft_ker]
  unfold talbotWeight
  congr 1
  refine sum_congr rfl (fun k _ => ?_)
  rw [← kerZ_ker]

/-- The phase of every line is the sum of the weights, each with the phase of its delay. -/
theorem talbotPhase_sum {p : ℤ} {q : ℕ} (hq : 0 < q) (hpq : Even (p * q)) (j : ℤ) :
    talbotPhase p q j = ∑ s : Fin q, talbotWeight p q s * (kerZ q s j)⁻¹ := by
  have hq' : (0 : ℤ) < q := by exact_mod_cast hq
  have h1 := Int.emod_nonneg j hq'.ne'
  have h2 := Int.emod_lt_of_pos j hq'
  have hk : (j % q).toNat < q := by omega
  have hj : (((j % q).toNat : ℕ) : ℤ) = j % q := by omega
  have := congrFun (npFft_npIfft (fun k : Fin q => talbotPhase p q k)) ⟨(j % q).toNat, hk⟩
  rw [npFft_ker] at this
  simp only [hj] at this
  rw [← talbotPhase_emod hq hpq j, ← this]
  refine sum_congr rfl (fun s _ => ?_)
  rw [talbotWeight_fft, ← kerZ_ker]
  simp only [hj]
  congr 2
  rw [kerZ_comm q s (j % q), kerZ_comm q s j]
  exact kerZ_congr hq (Int.emod_emod_of_dvd _ (dvd_refl _)) _

/-- Going `p` further turns the weight only. -/
theorem talbotWeight_step {p : ℤ} {q : ℕ} (hq : 0 < q) (hpq : Even (p * q)) (s : ℤ) : ‖talbotWeight p q (s + p)‖ = ‖talbotWeight p q s‖ := by
  have hq' : (q : ℝ) ≠ 0 := by exact_mod_cast hq.ne'
  have hmod : ∀ j : ℤ, talbotPhase p q (j % q) * kerZ q s (j % q) = talbotPhase p q j * kerZ q s j := by
    intro j
    rw [talbotPhase_emod hq hpq, kerZ_comm q s (j % q), kerZ_comm q s j]
    congr 1
    exact kerZ_congr hq (Int.emod_emod_of_dvd _ (dvd_refl _)) _
  set u : ℂ := exp (I * ((Real.pi * p / q : ℝ) : ℂ)) * kerZ q s 1 with hu
  have hun : ‖u‖ = 1 := by rw [hu, norm_mul, norm_expI, norm_kerZ, one_mul]
  have hterm : ∀ k : Fin q, talbotPhase p q k * kerZ q (s + p) k = u * delayed 1 (fun i : Fin q => talbotPhase p q i * kerZ q s i) k := by
    intro k
    have hq0 : (0 : ℤ) < q := by exact_mod_cast hq
    have h1 := Int.emod_nonneg ((k.val : ℤ) - 1) hq0.ne'
    have e : delayed 1 (fun i : Fin q => talbotPhase p q i * kerZ q s i) k = talbotPhase p q ((k : ℤ) - 1) * kerZ q s ((k : ℤ) - 1) := by
      unfold delayed
      dsimp only
      rw [Int.toNat_of_nonneg h1, hmod]
    rw [e, hu]
    unfold talbotPhase kerZ
    rw [← expI_add, ← expI_add, ← expI_add, ← expI_add]
    congr 3
    push_cast
    field_simp
    ring
  unfold talbotWeight
  rw [sum_congr rfl (fun k _ => hterm k), ← mul_sum, sum_delayed, mul_div_assoc, norm_mul, hun, one_mul]

theorem talbotWeight_steps {p : ℤ} {q : ℕ} (hq : 0 < q) (hpq : Even (p * q)) (t : ℕ) : ‖talbotWeight p q (t * p)‖ = ‖talbotWeight p q 0‖ := by
  induction t with
  | zero => simp
  | succ t ih => rw [show ((t + 1 : ℕ) : ℤ) * p = t * p + p by push_cast; ring, talbotWeight_step hq hpq, ih]

/-- For a fraction in lowest terms all weights have the same size. -/
theorem talbotWeight_norm {p : ℤ} {q : ℕ} (hq : 0 < q) (hpq : Even (p * q)) (hc : IsCoprime p q) (s : Fin q) : ‖talbotWeight p q s‖ ^ 2 = 1 / q := by
  have hq0 : (0 : ℤ) < q := by exact_mod_cast hq
  have hqR : (q : ℝ) ≠ 0 := by exact_mod_cast hq.ne'
  have hper : ∀ a b : ℤ, a % q = b % q → talbotWeight p q a = talbotWeight p q b := by
    intro a b hab
    unfold talbotWeight
    congr 1
    exact sum_congr rfl (fun k _ => by rw [kerZ_congr hq hab])
  have hall : ∀ s : ℤ, ‖talbotWeight p q s‖ = ‖talbotWeight p q 0‖ := by
    intro s
    obtain ⟨a, b, hab⟩ := hc
    have h1 := Int.emod_nonneg (s * a) hq0.ne'
    have hs : s % q = (((s * a % q).toNat : ℕ) * p) % q := by
      rw [Int.toNat_of_nonneg h1, Int.mul_emod (s * a % q), Int.emod_emod_of_dvd _ (dvd_refl _), ← Int.mul_emod]
      have : s = s * a * p + q * (s * b) := by linear_combination (-s) * hab
      conv_lhs => rw [this]
      rw [Int.add_mul_emod_self_left]
    rw [hper _ _ hs, talbotWeight_steps hq hpq]
  have hpars := npIfft_parseval (fun k : Fin q => talbotPhase p q k)
  simp only [norm_talbotPhase, one_pow, sum_const, card_univ, Fintype.card_fin, nsmul_eq_mul, mul_one] at hpars
  rw [sum_congr rfl (fun k _ => by rw [← talbotWeight_fft, hall])] at hpars
  rw [sum_const, card_univ, Fintype.card_fin, nsmul_eq_mul] at hpars
  rw [hall]
  field_simp
  have := mul_left_cancel₀ hqR (show (q : ℝ) * (q * ‖talbotWeight p q 0‖ ^ 2) = q * 1 by rw [hpars, mul_one])
  linarith

/-! ### The fibre -/

theorem npIfft_sum {ι : Type} (S : Finset ι) (F : ι → Signal n) : npIfft (fun k => ∑ s ∈ S, F s k) = fun i => ∑ s ∈ S, npIfft (F s) i := by
  funext i
  unfold npIfft
  rw [← sum_div]
  congr 1
  simp_rw [sum_mul]
  rw [sum_comm]

/-- **C121.** After `p / q` of half the (code's) Talbot length a train of `m` pulses is a sum of `q` copies of itself, moved by multiples of the `q`-th part of its period, with
weights of modulus `1 / √q`; besides, for an even number of samples, the whole is late by `p / (2 m)` of that part. -/
theorem C121_copies (hn : 2 ≤ n) {P : Prop_ n} (hw : 0 < P.window) {m q r p : ℕ} (hm : 0 < m) (hq : 0 < q) (hr : 0 < r) (hmr : n = m * (q * r))
    (hpq : Even (p * q)) (hc : Nat.Coprime p q) {x : Signal n} (hx : delayed (q * r) x = x) :
    ∃ (c : ℂ) (g : Fin q → ℂ), ‖c‖ = 1 ∧ (∀ s, ‖g s‖ ^ 2 = 1 / q) ∧
      fiber P (p / (q * (4 * Real.pi * (22 / 10 ^ 27) * (m * P.df) ^ 2))) false x =
        .ok (fun i => c * fracDelay (if n % 2 = 0 then p * r / (2 * m) else 0) (fun i => ∑ s : Fin q, g s * delayed (s * r) x i) i) := by
  have hd := dt_ne_zero hn hw
  have hdf := (df_pos hn hw).ne'
  have hm' : (m : ℝ) ≠ 0 := by exact_mod_cast hm.ne'
  have hr' : (r : ℝ) ≠ 0 := by exact_mod_cast hr.ne'
  have hq' : (q : ℝ) ≠ 0 := by exact_mod_cast hq.ne'
  have hpi := Real.pi_ne_zero
  have hnR : (n : ℝ) = m * (q * r) := by exact_mod_cast hmr
  have hpqZ : Even ((p : ℤ) * q) := by exact_mod_cast hpq
  have hcZ : IsCoprime (p : ℤ) q := Nat.isCoprime_iff_coprime.2 hc
  refine ⟨exp (I * ((-(Real.pi * p / q * ((if n % 2 = 0 then 1 / 2 else 0) / m) ^ 2) : ℝ) : ℂ)), fun s => talbotWeight p q s, norm_expI _,
    fun s => talbotWeight_norm hq hpqZ hcZ s, ?_⟩
  rw [fiber_mask, ← freqMul_frac _ _ hd]
  congr 1
  have hG : freqMul (fun k : Fin n => ∑ s : Fin q, talbotWeight p q s * (kerZ n (s * r) k)⁻¹) P.dt x =
      fun i => ∑ s : Fin q, talbotWeight p q s * delayed (s * r) x i := by
    have h2 : ∀ s : Fin q, npIfft (fun k => talbotWeight p q s * (kerZ n (s * r) k)⁻¹ * npFft x k) = fun i => talbotWeight p q s * delayed (s * r) x i := by
      intro s
      rw [← freqMul_shift _ _ hd, freqMul_eq _ hd]
    rw [freqMul_eq _ hd]
    simp_rw [sum_mul]
    rw [npIfft_sum]
    funext i
    exact sum_congr rfl (fun s _ => by rw [h2])
  rw [← hG, freqMul_comp _ _ hd]
  refine freqMul_congr hd (fun k hk => ?_)
  obtain ⟨j, hj⟩ := periodic_signed (q := q * r) hm (by positivity) hmr (by exact_mod_cast hx) hk
  have hker : ∀ s : Fin q, (kerZ n (s * r) k)⁻¹ = (kerZ q s j)⁻¹ := by
    intro s
    rw [← kerZ_signed, hj]
    unfold kerZ
    congr 4
    rw [hnR]
    push_cast
    field_simp
  simp_rw [hker]
  rw [← talbotPhase_sum hq hpqZ, C53_shifted_axis hn, hj, beta2_val]
  unfold talbotPhase
  rw [← mul_neg I, ← ofReal_neg, ← expI_add, ← expI_add]
  congr 3
  rw [hnR]
  push_cast
  split
  · field_simp
    ring
  · field_simp
    ring

/-- The sum over a full period of `q` delays does not notice one delay more. -/
theorem delayed_sum_round {q r : ℕ} {f : Fin n → ℝ} (hf : delayed (q * r) f = f) :
    delayed r (fun i => ∑ s : Fin q, delayed (s * r) f i) = fun i => ∑ s : Fin q, delayed (s * r) f i := by
  funext i
  change ∑ s : Fin q, delayed r (delayed (s * r) f) i = _
  have h : ∀ s : ℕ, delayed r (delayed (s * r) f) i = delayed ((s + 1 : ℕ) * r) f i := by
    intro s
    rw [delayed_delayed, show (r : ℤ) + s * r = ((s + 1 : ℕ) : ℤ) * r by push_cast; ring]
  rw [Fin.sum_univ_eq_sum_range (fun s : ℕ => delayed r (delayed (s * r) f) i) q, Fin.sum_univ_eq_sum_range (fun s : ℕ => delayed (s * r) f i) q,
    sum_congr rfl (fun s _ => h s)]
  have h1 := sum_range_succ (fun s : ℕ => delayed (s * r) f i) q
  have h2 := sum_range_succ' (fun s : ℕ => delayed (s * r) f i) q
  rw [h1] at h2
  have h3 : delayed ((q : ℕ) * r) f i = delayed ((0 : ℕ) * r) f i := by rw [hf, Nat.cast_zero, zero_mul, delayed_zero]
  rw [h3] at h2
  exact (add_right_cancel h2).symm

/-- Where at most one of several fields is not zero, the power of a sum is the sum of the powers. -/
theorem norm_sq_apart {q : ℕ} (g z : Fin q → ℂ) (hg : ∀ s, ‖g s‖ ^ 2 = 1 / q) (hz : ∀ s s', s ≠ s' → z s = 0 ∨ z s' = 0) :
    ‖∑ s, g s * z s‖ ^ 2 = (∑ s, ‖z s‖ ^ 2) / q := by
  by_cases h : ∃ a, z a ≠ 0
  · obtain ⟨a, ha⟩ := h
    have h0 : ∀ s, s ≠ a → z s = 0 := fun s hs => (hz s a hs).resolve_right ha
    rw [sum_eq_single a (fun s _ hs => by rw [h0 s hs, mul_zero]) (fun h => absurd (mem_univ a) h),
      sum_eq_single a (fun s _ hs => by rw [h0 s hs, norm_zero]; norm_num) (fun h => absurd (mem_univ a) h), norm_mul, mul_pow, hg]
    ring
  · push Not at h
    simp [h]

/-- **C121.** If the pulses are shorter than the `q`-th part of the period, and the lateness is a number of samples, the power after the fibre is a train of `q` times the rate
whose pulses are those of the input at the `q`-th part of their power. -/
theorem C121_rate (hn : 2 ≤ n) {P : Prop_ n} (hw : 0 < P.window) {m q r p d : ℕ} (hm : 0 < m) (hq : 0 < q) (hr : 0 < r) (hmr : n = m * (q * r))
    (hpq : Even (p * q)) (hc : Nat.Coprime p q) (hd : if n % 2 = 0 then p * r = d * (2 * m) else d = 0) {x : Signal n} (hx : delayed (q * r) x = x)
    (hshort : ∀ i, ∀ s s' : Fin q, s ≠ s' → delayed (s * r) x i = 0 ∨ delayed (s' * r) x i = 0) :
    ∃ y, fiber P (p / (q * (4 * Real.pi * (22 / 10 ^ 27) * (m * P.df) ^ 2))) false x = .ok y ∧
      (∀ i, power_ y i = delayed d (fun i => ∑ s : Fin q, delayed (s * r) (power_ x) i) i / q) ∧ delayed r (power_ y) = power_ y := by
  obtain ⟨c, g, hcn, hg, h⟩ := C121_copies hn hw hm hq hr hmr hpq hc hx
  have hm' : (m : ℝ) ≠ 0 := by exact_mod_cast hm.ne'
  have hs : (if n % 2 = 0 then (p : ℝ) * r / (2 * m) else 0) = ((d : ℤ) : ℝ) := by
    split at hd
    · rw [if_pos ‹_›, div_eq_iff (by positivity)]
      exact_mod_cast hd
    · rw [if_neg ‹_›, hd]
      simp
  rw [hs, fracDelay_int] at h
  have hp : ∀ i, power_ (fun i => c * delayed d (fun i => ∑ s : Fin q, g s * delayed (s * r) x i) i) i =
      delayed d (fun i => ∑ s : Fin q, delayed (s * r) (power_ x) i) i / q := by
    intro i
    unfold power_
    rw [norm_mul, hcn, one_mul]
    exact norm_sq_apart g _ hg (hshort _)
  refine ⟨_, h, hp, ?_⟩
  have hpx : delayed (q * r) (power_ x) = power_ x := by
    conv_rhs => rw [← hx]
    rfl
  have hround := delayed_sum_round hpx
  funext i
  have h1 : ∀ j, delayed r (delayed d (fun i => ∑ s : Fin q, delayed (s * r) (power_ x) i)) j = delayed d (fun i => ∑ s : Fin q, delayed (s * r) (power_ x) i) j := by
    intro j
    rw [delayed_delayed, add_comm, ← delayed_delayed, hround]
  rw [hp i, ← h1 i]
  exact hp _

/-! ### The score -/

/-- At the new repetition rate the new train is as strong as the old one. -/
theorem multiplied_harmonic {m q r : ℕ} (hm : 0 < m) (hq : 0 < q) (hr : 0 < r) (hmr : n = m * (q * r)) (f : Fin n → ℝ) {k : Fin n} (hk : k.val = m * q) :
    npFft (fun i => (((∑ s : Fin q, delayed (s * r) f i) / q : ℝ) : ℂ)) k = npFft (fun i => ((f i : ℝ) : ℂ)) k := by
  have hq' : (q : ℂ) ≠ 0 := by exact_mod_cast hq.ne'
  have h1 : ∀ s : Fin q, npFft (delayed (s * r) (fun i => ((f i : ℝ) : ℂ))) k = npFft (fun i => ((f i : ℝ) : ℂ)) k := by
    intro s
    rw [congrFun (delayed_fft _ _) k]
    have : kerZ n (s * r) k = 1 := by
      unfold kerZ
      have hm' : (m : ℝ) ≠ 0 := by exact_mod_cast hm.ne'
      have hr' : (r : ℝ) ≠ 0 := by exact_mod_cast hr.ne'
      have hqR : (q : ℝ) ≠ 0 := by exact_mod_cast hq.ne'
      have hnR : (n : ℝ) = m * (q * r) := by exact_mod_cast hmr
      rw [show (2 * Real.pi * ((s * r : ℤ) : ℝ) * ((k : ℤ) : ℝ) / n : ℝ) = 2 * Real.pi * ((s : ℤ) : ℝ) by
        rw [hnR]
        push_cast [hk]
        field_simp]
      exact expI_turns _
    rw [this, inv_one, mul_one]
  have h2 : npFft (fun i => (((∑ s : Fin q, delayed (s * r) f i) / q : ℝ) : ℂ)) k =
      (∑ s : Fin q, npFft (delayed (s * r) (fun i => ((f i : ℝ) : ℂ))) k) / q := by
    unfold npFft
    rw [sum_comm, sum_div]
    refine sum_congr rfl (fun i _ => ?_)
    rw [← sum_mul]
    push_cast
    rw [div_mul_eq_mul_div]
    rfl
  rw [h2, sum_congr rfl (fun s _ => h1 s), sum_const, card_univ, Fintype.card_fin, nsmul_eq_mul]
  field_simp

/-- **C121.** `PulseRepetition`, given the repetition time of the *target* (`q` times the input's rate, pulses of the `q`-th part of the power), gives such a fibre the score zero,
however late the pulses are. -/
theorem C121_perfect (hn : 2 ≤ n) {P : Prop_ n} (hw : 0 < P.window) {m q r p d : ℕ} (hm : 0 < m) (hq : 0 < q) (hr : 1 < r) (hmr : n = m * (q * r))
    (hpq : Even (p * q)) (hc : Nat.Coprime p q) (hd : if n % 2 = 0 then p * r = d * (2 * m) else d = 0) {x : Signal n} (hx : delayed (q * r) x = x)
    (hshort : ∀ i, ∀ s s' : Fin q, s ≠ s' → delayed (s * r) x i = 0 ∨ delayed (s' * r) x i = 0)
    {tp : Fin n → ℝ} (htp : ∀ i, tp i = (∑ s : Fin q, delayed (s * r) (power_ x) i) / q)
    (hh : npFft (fun i => ((power_ x i : ℝ) : ℂ)) ⟨m * q, by subst hmr; have := Nat.mul_pos hm hq; nlinarith⟩ ≠ 0) :
    ∃ y, fiber P (p / (q * (4 * Real.pi * (22 / 10 ^ 27) * (m * P.df) ^ 2))) false x = .ok y ∧
      pulseScore P tp ((m * q : ℕ) / (n * P.dt)) (fun i => ((power_ y i : ℝ) : ℂ)) = .ok 0 := by
  obtain ⟨y, hy, hp, -⟩ := C121_rate hn hw hm hq (by omega) hmr hpq hc hd hx hshort
  have hpx : delayed (q * r) (power_ x) = power_ x := by
    conv_rhs => rw [← hx]
    rfl
  have hper : delayed r tp = tp := by
    have := delayed_sum_round hpx
    funext i
    rw [htp i, ← congrFun this i]
    exact htp _
  have h0 : ∀ i, 0 ≤ tp i := by
    intro i
    rw [htp i]
    exact div_nonneg (sum_nonneg (fun s _ => sq_nonneg _)) (Nat.cast_nonneg _)
  refine ⟨y, hy, ?_⟩
  have e : (fun i => ((power_ y i : ℝ) : ℂ)) = fun i => ((delayed d tp i : ℝ) : ℂ) := by
    funext i
    rw [hp i, delayed, delayed, htp]
  rw [e]
  exact C68_pulse_target_perfect hn hw (Nat.mul_pos hm hq) (by rw [hmr]; ring) hr hper h0 (by
    rw [← multiplied_harmonic hm hq (by omega) hmr (power_ x) rfl] at hh
    simp_rw [htp]
    exact hh) d

/-- **C121 (finding).** The scripts give the evaluator the repetition time of the *input*.  A target of `q ≥ 2` times that rate has nothing at that frequency: an output which has
something there cannot be scored (a division by zero), and one which has not is compared without being moved into place. -/
theorem C121_wrong_reference (hn : 2 ≤ n) {P : Prop_ n} (hw : 0 < P.window) {m q r : ℕ} (hm : 0 < m) (hq : 2 ≤ q) (hr : 0 < r) (hmr : n = m * (q * r))
    {tp : Fin n → ℝ} (hper : delayed r tp = tp) (x : Signal n) :
    (npFft x ⟨m, by subst hmr; have := Nat.mul_pos hm hr; nlinarith⟩ ≠ 0 → pulseScore P tp (m / (n * P.dt)) x = .error .zeroDivision) ∧
    (npFft x ⟨m, by subst hmr; have := Nat.mul_pos hm hr; nlinarith⟩ = 0 → pulseScore P tp (m / (n * P.dt)) x = .ok (∑ i, (x i - (tp i : ℂ)) ^ 2)) := by
  have hmn : m < n := by subst hmr; have := Nat.mul_pos hm hr; nlinarith
  have hind : harmonicInd P (m / (n * P.dt)) = m := (C68_harmonic_index hn hw hm).1 (by subst hmr; have := Nat.mul_pos hm hr; nlinarith)
  have hT : npFft (fun i => ((tp i : ℝ) : ℂ)) ⟨m, hmn⟩ = 0 := by
    by_contra hne
    have := periodic_spectrum (m := m * q) (q := r) (Nat.mul_pos hm (by omega)) hr (by rw [hmr]; ring) (x := fun i => ((tp i : ℝ) : ℂ))
      (by funext i; exact congrArg _ (congrFun hper i)) hne
    have h2 : m * q ∣ m := by exact_mod_cast this
    have := Nat.le_of_dvd hm h2
    nlinarith
  unfold pulseScore pulseShift
  simp only [hind]
  rw [dif_pos hmn]
  constructor <;> intro h
  · rw [if_neg h, if_pos hT]
  · rw [if_pos h]

/-- **C121 (finding).** … so with the scripts' reference the fibre that does exactly what is asked is scored by how late its pulses are. -/
theorem C121_late (hn : 2 ≤ n) {P : Prop_ n} (hw : 0 < P.window) {m q r p d : ℕ} (hm : 0 < m) (hq : 2 ≤ q) (hr : 0 < r) (hmr : n = m * (q * r))
    (hpq : Even (p * q)) (hc : Nat.Coprime p q) (hd : if n % 2 = 0 then p * r = d * (2 * m) else d = 0) {x : Signal n} (hx : delayed (q * r) x = x)
    (hshort : ∀ i, ∀ s s' : Fin q, s ≠ s' → delayed (s * r) x i = 0 ∨ delayed (s' * r) x i = 0)
    {tp : Fin n → ℝ} (htp : ∀ i, tp i = (∑ s : Fin q, delayed (s * r) (power_ x) i) / q) :
    ∃ y, fiber P (p / (q * (4 * Real.pi * (22 / 10 ^ 27) * (m * P.df) ^ 2))) false x = .ok y ∧
      pulseScore P tp (m / (n * P.dt)) (fun i => ((power_ y i : ℝ) : ℂ)) = .ok ((∑ i, (delayed d tp i - tp i) ^ 2 : ℝ) : ℂ) := by
  obtain ⟨y, hy, hp, hpy⟩ := C121_rate hn hw hm (by omega) hr hmr hpq hc hd hx hshort
  have hpx : delayed (q * r) (power_ x) = power_ x := by
    conv_rhs => rw [← hx]
    rfl
  have hper : delayed r tp = tp := by
    have := delayed_sum_round hpx
    funext i
    rw [htp i, ← congrFun this i]
    exact htp _
  have hmn : m < n := by subst hmr; have := Nat.mul_pos hm hr; nlinarith
  refine ⟨y, hy, ?_⟩
  have h0 : npFft (fun i => ((power_ y i : ℝ) : ℂ)) ⟨m, hmn⟩ = 0 := by
    by_contra hne
    have := periodic_spectrum (m := m * q) (q := r) (Nat.mul_pos hm (by omega)) hr (by rw [hmr]; ring) (x := fun i => ((power_ y i : ℝ) : ℂ))
      (by funext i; exact congrArg _ (congrFun hpy i)) hne
    have h2 : m * q ∣ m := by exact_mod_cast this
    have := Nat.le_of_dvd hm h2
    nlinarith
  rw [(C121_wrong_reference hn hw hm hq hr hmr hper _).2 h0]
  congr 1
  push_cast
  refine sum_congr rfl (fun i _ => ?_)
  congr 2
  rw [hp i, delayed, delayed, htp]

/-! ### Examples -/

namespace TalbotExample

/-- One short pulse in a window of nine samples. -/
noncomputable def pulse : Signal 9 := fun i => if i.val = 0 then 1 else 0

theorem pulse_short (i : Fin 9) (s s' : Fin 3) (h : s ≠ s') : delayed (s * (3 : ℕ)) pulse i = 0 ∨ delayed (s' * (3 : ℕ)) pulse i = 0 := by
  have : ∀ (i : Fin 9) (s s' : Fin 3), s ≠ s' → ¬ ((((i.val : ℤ) - s.val * (3 : ℕ)) % (9 : ℕ)).toNat = 0 ∧ (((i.val : ℤ) - s'.val * (3 : ℕ)) % (9 : ℕ)).toNat = 0) := by decide
  have := this i s s' h
  unfold delayed pulse
  dsimp only
  by_cases h1 : (((i.val : ℤ) - s.val * (3 : ℕ)) % (9 : ℕ)).toNat = 0
  · exact .inr (if_neg (fun h2 => this ⟨h1, h2⟩))
  · exact .inl (if_neg h1)

theorem pulse_train : delayed ((3 : ℕ) * (3 : ℕ)) pulse = pulse := by
  have h : ∀ i : Fin 9, ((((i.val : ℤ) - (3 : ℕ) * (3 : ℕ)) % (9 : ℕ)).toNat = 0 ↔ i.val = 0) := by decide
  funext i
  unfold delayed pulse
  simp only [h i]

/-- One pulse in the window becomes three: two thirds of the length. -/
example := C121_copies (n := 9) (by norm_num) (P := ⟨1, 1⟩) (by norm_num) (m := 1) (q := 3) (r := 3) (p := 2) (by norm_num) (by norm_num) (by norm_num) rfl (by decide)
  (by decide) pulse_train

example := C121_rate (n := 9) (by norm_num) (P := ⟨1, 1⟩) (by norm_num) (m := 1) (q := 3) (r := 3) (p := 2) (d := 0) (by norm_num) (by norm_num) (by norm_num) rfl (by decide)
  (by decide) (by norm_num) pulse_train pulse_short

example := C121_perfect (n := 9) (by norm_num) (P := ⟨1, 1⟩) (by norm_num) (m := 1) (q := 3) (r := 3) (p := 2) (d := 0) (by norm_num) (by norm_num) (by norm_num) rfl (by decide)
  (by decide) (by norm_num) pulse_train pulse_short (fun _ => rfl) (by
    have : ∀ i : Fin 9, ((power_ pulse i : ℝ) : ℂ) = if i = 0 then 1 else 0 := by
      intro i
      unfold power_ pulse
      by_cases hi : i = 0
      · simp [hi]
      · rw [if_neg hi, if_neg (fun h : i.val = 0 => hi (Fin.ext h))]
        simp
    unfold npFft
    simp only [this, ite_mul, zero_mul, Finset.sum_ite_eq', Finset.mem_univ, if_true]
    simp)

example := C121_late (n := 9) (by norm_num) (P := ⟨1, 1⟩) (by norm_num) (m := 1) (q := 3) (r := 3) (p := 2) (d := 0) (by norm_num) (by norm_num) (by norm_num) rfl (by decide)
  (by decide) (by norm_num) pulse_train pulse_short (fun _ => rfl)

/-- Pulses that are late: sixteen samples, two pulses, a quarter of the length. -/
example : delayed ((2 : ℕ) * (4 : ℕ)) trainDemo = trainDemo ∧ (if 16 % 2 = 0 then 1 * 4 = 1 * (2 * 2) else 1 = 0) := ⟨by simpa using trainDemo_train.1, by norm_num⟩

example (x : Signal 16) := C121_wrong_reference (n := 16) (by norm_num) (P := ⟨1, 1⟩) (by norm_num) (m := 2) (q := 2) (r := 4) (by norm_num) (by norm_num) (by norm_num) rfl
  (tp := fun i => if i.val % 4 = 0 then 1 else 0) (by
    have h : ∀ i : Fin 16, ((((i.val : ℤ) - (4 : ℕ)) % (16 : ℕ)).toNat % 4 = 0 ↔ i.val % 4 = 0) := by decide
    funext i
    unfold delayed
    simp only [h i]) x

end TalbotExample

end Verif
