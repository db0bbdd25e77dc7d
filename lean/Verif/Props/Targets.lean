import Verif.Model.Targets
import Verif.Props.Alignment
import Verif.Props.Evaluate
import Mathlib.Analysis.Real.Pi.Bounds
/-!
# What the evaluators ask for (C80)
-/

namespace Verif
open Complex Finset

variable {n : Nat}

theorem npMod_fract {m : ℝ} (hm : m ≠ 0) (x : ℝ) : npMod x m = m * Int.fract (x / m) := by
  unfold npMod Int.fract
  field_simp

theorem npMod_wave (h t : ℝ) : npMod (2 * Real.pi * h * t) (2 * Real.pi) = 2 * Real.pi * Int.fract (h * t) := by
  have hp := Real.pi_ne_zero
  rw [npMod_fract (by positivity)]
  congr 2
  field_simp

/-- Where time `t` is within the period of a signal with frequency `h`: from 0 (included) to 1 (excluded). -/
noncomputable def phaseOf (h t : ℝ) : ℝ := Int.fract (h * t)

/-- **C80.** The four named waveforms, by the position within the period: falling and rising ramp, triangle, square wave, from 0 to the amplitude; other names are
refused, an array is taken as it is, and an object of another type fails. -/
theorem C80_rf_shapes (P : Prop_ n) (h a : ℝ) :
    rfTarget P h a (.name "saw") = .ok (fun i => a * (1 - phaseOf h (P.t i))) ∧
    rfTarget P h a (.name "other-saw") = .ok (fun i => a * phaseOf h (P.t i)) ∧
    rfTarget P h a (.name "tri") = .ok (fun i => a * if phaseOf h (P.t i) < 1 / 2 then 2 * phaseOf h (P.t i) else 2 * (1 - phaseOf h (P.t i))) ∧
    rfTarget P h a (.name "square") = .ok (fun i => if phaseOf h (P.t i) < 1 / 2 then a else 0) ∧
    (∀ s, s ∉ ["saw", "other-saw", "tri", "square"] → rfTarget P h a (.name s) = .error .notImplemented) ∧
    (∀ x, rfTarget P h a (.array x) = .ok x) ∧ rfTarget P h a .other = .error .attributeError := by
  have hp := Real.pi_pos
  have key : ∀ t : ℝ, 0 ≤ Int.fract (h * t) ∧ Int.fract (h * t) < 1 := fun t => ⟨Int.fract_nonneg _, Int.fract_lt_one _⟩
  refine ⟨?_, ?_, ?_, ?_, ?_, fun x => rfl, rfl⟩
  · unfold rfTarget
    dsimp only
    rw [if_pos rfl]
    congr 1; funext i
    unfold sawtooth phaseOf
    simp only [npMod_wave]
    obtain ⟨h0, _⟩ := key (P.t i)
    rw [if_neg (by nlinarith)]
    field_simp; ring
  · unfold rfTarget
    dsimp only
    rw [if_neg (by decide), if_pos rfl]
    congr 1; funext i
    unfold sawtooth phaseOf
    simp only [npMod_wave]
    obtain ⟨_, h1⟩ := key (P.t i)
    rw [if_pos (by nlinarith)]
    field_simp; ring
  · unfold rfTarget
    dsimp only
    rw [if_neg (by decide), if_neg (by decide), if_pos rfl]
    congr 1; funext i
    unfold sawtooth phaseOf
    simp only [npMod_wave]
    by_cases hh : Int.fract (h * P.t i) < 1 / 2
    · rw [if_pos (by nlinarith), if_pos hh]; field_simp; ring
    · rw [if_neg (by push Not at hh ⊢; nlinarith), if_neg hh]; field_simp; ring
  · unfold rfTarget
    dsimp only
    rw [if_neg (by decide), if_neg (by decide), if_neg (by decide), if_pos rfl]
    congr 1; funext i
    unfold squareWave phaseOf
    simp only [npMod_wave]
    by_cases hh : Int.fract (h * P.t i) < 1 / 2
    · rw [if_pos (by nlinarith), if_pos hh]; ring
    · rw [if_neg (by push Not at hh ⊢; nlinarith), if_neg hh]; ring
  · intro s hs
    simp only [List.mem_cons, List.not_mem_nil, or_false, not_or] at hs
    unfold rfTarget
    dsimp only
    rw [if_neg hs.1, if_neg hs.2.1, if_neg hs.2.2.1, if_neg hs.2.2.2]

/-- **C80.** Every named target lies between 0 and the amplitude, and instants a whole number of periods apart have the same value. -/
theorem C80_rf_range_period (P : Prop_ n) {h a : ℝ} (ha : 0 ≤ a) {s : String} {x : Fin n → ℝ} (hx : rfTarget P h a (.name s) = .ok x) :
    (∀ i, 0 ≤ x i ∧ x i ≤ a) ∧ ∀ i j, (∃ k : ℤ, h * P.t j = h * P.t i + k) → x j = x i := by
  obtain ⟨h1, h2, h3, h4, h5, _⟩ := C80_rf_shapes P h a
  have hmem : s ∈ ["saw", "other-saw", "tri", "square"] := by
    by_contra hc
    rw [h5 s hc] at hx; cases hx
  have key : ∀ t, 0 ≤ phaseOf h t ∧ phaseOf h t < 1 := fun t => ⟨Int.fract_nonneg _, Int.fract_lt_one _⟩
  have per : ∀ i j, (∃ k : ℤ, h * P.t j = h * P.t i + k) → phaseOf h (P.t j) = phaseOf h (P.t i) := by
    rintro i j ⟨k, hk⟩
    unfold phaseOf
    rw [hk, Int.fract_add_intCast]
  simp only [List.mem_cons, List.not_mem_nil, or_false] at hmem
  rcases hmem with rfl | rfl | rfl | rfl
  · rw [h1] at hx; cases hx
    refine ⟨fun i => ?_, fun i j hk => by simp only [per i j hk]⟩
    have := key (P.t i)
    constructor <;> simp only <;> nlinarith
  · rw [h2] at hx; cases hx
    refine ⟨fun i => ?_, fun i j hk => by simp only [per i j hk]⟩
    have := key (P.t i)
    constructor <;> simp only <;> nlinarith
  · rw [h3] at hx; cases hx
    refine ⟨fun i => ?_, fun i j hk => by simp only [per i j hk]⟩
    have := key (P.t i)
    simp only
    split <;> constructor <;> nlinarith
  · rw [h4] at hx; cases hx
    refine ⟨fun i => ?_, fun i j hk => by simp only [per i j hk]⟩
    simp only
    split <;> constructor <;> linarith

/-! ### The ideal output -/

theorem npFft_diff (x : Signal n) (k : Fin n) : npFft (fun i => x i - delayed 1 x i) k = npFft x k * (1 - (kerZ n 1 k)⁻¹) := by
  have : (fun i => x i - delayed 1 x i) = fun i => x i + (-1 : ℂ) * delayed 1 x i := by funext i; ring
  rw [this, npFft_add, npFft_smul, delayed_fft]
  ring

theorem npFft_sum_kerZ (x : Signal n) (k : Fin n) : npFft x k = ∑ j : Fin n, x j * (kerZ n (j : ℕ) (k : ℕ))⁻¹ := by
  rw [npFft_ker]
  exact sum_congr rfl (fun j _ => by rw [kerZ_ker])

theorem npFft_const (c : ℂ) {k : Fin n} (hk : k.val ≠ 0) : npFft (fun _ : Fin n => c) k = 0 := by
  have hn : 0 < n := by have := k.isLt; omega
  have h := ker_orth (⟨0, hn⟩ : Fin n) k
  rw [if_neg (fun e => hk (by rw [← e]))] at h
  rw [npFft_ker, ← mul_sum]
  have : ∑ j : Fin n, (ker n j k)⁻¹ = 0 := by
    rw [← h]
    refine sum_congr rfl (fun j _ => ?_)
    rw [ker_symm n k j]
    have : ker n 0 j = 1 := by unfold ker; simp
    simp only [this, one_mul]
  rw [this, mul_zero]

/-- Weights on samples for which the kernel has one and the same value. -/
theorem npFft_class (w : Signal n) (k : Fin n) (h : ∀ i j : Fin n, w i ≠ 0 → w j ≠ 0 → kerZ n (i : ℕ) (k : ℕ) = kerZ n (j : ℕ) (k : ℕ)) (i : Fin n) (hi : w i ≠ 0) :
    npFft w k = (∑ j, w j) * (kerZ n (i : ℕ) (k : ℕ))⁻¹ := by
  rw [npFft_sum_kerZ, sum_mul]
  refine sum_congr rfl (fun j _ => ?_)
  by_cases hj : w j = 0
  · rw [hj]; simp
  · rw [h i j hi hj]

/-- The phase of sample `j` of a signal with `m` periods on the grid. -/
noncomputable def gridPhase (c : ℝ) (q : ℕ) (j : ℤ) : ℝ := Int.fract (c + j / q)

theorem phase_grid (hn : 2 ≤ n) {P : Prop_ n} (hw : 0 < P.window) {m q : ℕ} (hm : 0 < m) (hq : n = m * q) :
    ∃ c : ℝ, ∀ i : Fin n, phaseOf (m / (n * P.dt)) (P.t i) = gridPhase c q (i : ℕ) := by
  have hdt := dt_ne_zero hn hw
  have hn0 : (n : ℝ) ≠ 0 := by have : 0 < n := by omega
                               exact_mod_cast this.ne'
  have hq0 : (q : ℝ) ≠ 0 := by
    rintro h
    have : q = 0 := by exact_mod_cast h
    rw [this] at hq; omega
  have hm0 : (m : ℝ) ≠ 0 := by exact_mod_cast hm.ne'
  refine ⟨m / (n * P.dt) * (-P.window / 2), fun i => ?_⟩
  unfold phaseOf gridPhase
  congr 1
  have ht : P.t i = -P.window / 2 + i * P.dt := rfl
  have hc : (n : ℝ) = m * q := by exact_mod_cast hq
  rw [ht, mul_add]
  congr 1
  push_cast
  rw [hc]
  field_simp

theorem gridPhase_range (c : ℝ) (q : ℕ) (j : ℤ) : 0 ≤ gridPhase c q j ∧ gridPhase c q j < 1 := ⟨Int.fract_nonneg _, Int.fract_lt_one _⟩

/-- From one sample to the next. -/
theorem gridPhase_step (c : ℝ) {q : ℕ} (hq : 2 ≤ q) (j : ℤ) :
    gridPhase c q j - gridPhase c q (j - 1) = 1 / q - (if gridPhase c q j < 1 / q then 1 else 0) := by
  have hq2 : (2 : ℝ) ≤ q := by exact_mod_cast hq
  have he : (0 : ℝ) < 1 / q := by positivity
  have he1 : (1 : ℝ) / q < 1 := by rw [div_lt_one (by linarith)]; linarith
  have hr := gridPhase_range c q j
  have hd : c + ((j - 1 : ℤ) : ℝ) / q = c + j / q - 1 / q := by push_cast; ring
  have hf : Int.fract (c + (j : ℝ) / q) = c + j / q - ⌊c + (j : ℝ) / q⌋ := rfl
  split
  · rename_i h
    have : gridPhase c q (j - 1) = gridPhase c q j - 1 / q + 1 := by
      unfold gridPhase at h hr ⊢
      rw [hd, Int.fract_eq_iff]
      refine ⟨by linarith, by linarith, ⌊c + (j : ℝ) / q⌋ - 1, ?_⟩
      rw [hf]; push_cast; ring
    rw [this]; ring
  · rename_i h
    have : gridPhase c q (j - 1) = gridPhase c q j - 1 / q := by
      unfold gridPhase at h hr ⊢
      push Not at h
      rw [hd, Int.fract_eq_iff]
      refine ⟨by linarith, by linarith, ⌊c + (j : ℝ) / q⌋, ?_⟩
      rw [hf]; ring
    rw [this]; ring

/-- Phases closer than a step belong to samples a whole number of periods apart. -/
theorem gridPhase_close (c : ℝ) {q : ℕ} (hq : 2 ≤ q) {i j : ℤ} (h : |gridPhase c q i - gridPhase c q j| < 1 / q) : ∃ z : ℤ, i = j + q * z := by
  have hq0 : (0 : ℝ) < q := by exact_mod_cast (by omega : 0 < q)
  refine ⟨⌊c + (i : ℝ) / q⌋ - ⌊c + (j : ℝ) / q⌋, ?_⟩
  set z := ⌊c + (i : ℝ) / q⌋ - ⌊c + (j : ℝ) / q⌋ with hz
  have e : gridPhase c q i - gridPhase c q j = ((i - j - q * z : ℤ) : ℝ) / q := by
    unfold gridPhase Int.fract
    rw [hz]; push_cast; field_simp; ring
  rw [e, abs_div, abs_of_pos hq0, div_lt_div_iff_of_pos_right hq0] at h
  have : |i - j - q * z| < 1 := by exact_mod_cast h
  rw [Int.abs_lt_one_iff] at this
  linarith

theorem gridPhase_period (c : ℝ) {q : ℕ} (hq : 2 ≤ q) (j z : ℤ) : gridPhase c q (j + q * z) = gridPhase c q j := by
  have hq0 : (q : ℝ) ≠ 0 := by exact_mod_cast (by omega : q ≠ 0)
  unfold gridPhase
  have : c + ((j + q * z : ℤ) : ℝ) / q = c + j / q + z := by push_cast; field_simp; ring
  rw [this, Int.fract_add_intCast]

theorem kerZ_period {m q : ℕ} (hm : 0 < m) (hq : n = m * q) (hq2 : 2 ≤ q) (i j : ℤ) : kerZ n i m = kerZ n j m ↔ ∃ z : ℤ, i = j + q * z := by
  have hq0 : (q : ℂ) ≠ 0 := by exact_mod_cast (by omega : q ≠ 0)
  have hm0 : (m : ℂ) ≠ 0 := by exact_mod_cast hm.ne'
  have hnC : (n : ℂ) = m * q := by exact_mod_cast hq
  have hpi : (Real.pi : ℂ) ≠ 0 := by exact_mod_cast Real.pi_ne_zero
  have e : kerZ n (i - j) m = exp (2 * Real.pi * I * ((i - j : ℤ) / q)) := by
    unfold kerZ
    congr 1
    push_cast
    rw [hnC]
    field_simp
  have h1 : kerZ n i m = kerZ n (i - j) m * kerZ n j m := by rw [← kerZ_add]; congr 1; ring
  have h2 : kerZ n i m = kerZ n j m ↔ kerZ n (i - j) m = 1 := by
    rw [h1]
    constructor
    · intro h; exact mul_right_cancel₀ (kerZ_ne n j m) (by rw [h, one_mul])
    · intro h; rw [h, one_mul]
  rw [h2, e, Complex.exp_eq_one_iff]
  constructor
  · rintro ⟨z, hz⟩
    refine ⟨z, ?_⟩
    have : (((i - j : ℤ) : ℂ)) / q = z := by
      have h2 : (2 * Real.pi * I : ℂ) ≠ 0 := by simp [hpi]
      exact mul_left_cancel₀ h2 (by rw [hz]; ring)
    rw [div_eq_iff hq0] at this
    have : i - j = z * q := by exact_mod_cast this
    linarith
  · rintro ⟨z, hz⟩
    refine ⟨z, ?_⟩
    rw [hz]; push_cast; field_simp; ring

theorem delayed_grid (hn : 0 < n) (c : ℝ) {m q : ℕ} (hq : n = m * q) (hq2 : 2 ≤ q) (G : ℝ → ℂ) (i : Fin n) :
    delayed 1 (fun i : Fin n => G (gridPhase c q (i : ℕ))) i = G (gridPhase c q ((i : ℕ) - 1)) := by
  unfold delayed
  simp only
  have h0 := Int.emod_nonneg ((i.val : ℤ) - 1) (by omega : (n : ℤ) ≠ 0)
  rw [Int.toNat_of_nonneg h0]
  have e : ((i.val : ℤ) - 1) = ((i.val : ℤ) - 1) % n + q * (m * (((i.val : ℤ) - 1) / n)) := by
    have h := Int.emod_add_mul_ediv ((i.val : ℤ) - 1) n
    have hc : (n : ℤ) = m * q := by exact_mod_cast hq
    have : (n : ℤ) * (((i.val : ℤ) - 1) / n) = q * (m * (((i.val : ℤ) - 1) / n)) := by
      conv_lhs => rw [show (n : ℤ) * (((i.val : ℤ) - 1) / n) = (m * q) * (((i.val : ℤ) - 1) / n) from by rw [← hc]]
      ring
    rw [← this]; exact h.symm
  conv_rhs => rw [e, gridPhase_period c hq2]

/-- The samples at which a new period has begun: `m` in all, a whole number of periods apart. -/
theorem sum_jumps (hn : 0 < n) (c : ℝ) {m q : ℕ} (hq : n = m * q) (hq2 : 2 ≤ q) :
    ∑ i : Fin n, (if gridPhase c q (i : ℕ) < 1 / q then (1 : ℂ) else 0) = m := by
  have hq0 : (q : ℂ) ≠ 0 := by exact_mod_cast (by omega : q ≠ 0)
  have h1 : ∀ i : Fin n, (if gridPhase c q (i : ℕ) < 1 / q then (1 : ℂ) else 0) =
      1 / q - (((gridPhase c q (i : ℕ) : ℝ) : ℂ) - delayed 1 (fun i : Fin n => ((gridPhase c q (i : ℕ) : ℝ) : ℂ)) i) := fun i => by
    rw [delayed_grid hn c hq hq2 (fun x => ((x : ℝ) : ℂ)), ← Complex.ofReal_sub, gridPhase_step c hq2]
    split <;> push_cast <;> ring
  rw [sum_congr rfl (fun i _ => h1 i), sum_sub_distrib, sum_sub_distrib, sum_delayed, sub_self, sub_zero]
  simp only [sum_const, card_univ, Fintype.card_fin, nsmul_eq_mul]
  have : (n : ℂ) = m * q := by exact_mod_cast hq
  rw [this]; field_simp

theorem jumps_class (c : ℝ) {m q : ℕ} (hm : 0 < m) (hq : n = m * q) (hq2 : 2 ≤ q) {i j : ℤ} (hi : gridPhase c q i < 1 / q) (hj : gridPhase c q j < 1 / q) :
    kerZ n i m = kerZ n j m := by
  rw [kerZ_period hm hq hq2]
  refine gridPhase_close c hq2 ?_
  rw [abs_lt]
  constructor <;> linarith [(gridPhase_range c q i).1, (gridPhase_range c q j).1]

theorem npFft_jumps (c : ℝ) {m q : ℕ} (hm : 0 < m) (hq : n = m * q) (hq2 : 2 ≤ q) (hmn : m < n) :
    npFft (fun i : Fin n => if gridPhase c q (i : ℕ) < 1 / q then (1 : ℂ) else 0) ⟨m, hmn⟩ ≠ 0 := by
  have hn : 0 < n := by omega
  have hs := sum_jumps hn c hq hq2
  have hm0 : (m : ℂ) ≠ 0 := by exact_mod_cast hm.ne'
  obtain ⟨i, -, hi⟩ := exists_ne_zero_of_sum_ne_zero (by rw [hs]; exact hm0)
  rw [npFft_class _ _ (fun a b ha hb => ?_) i hi, hs]
  · exact mul_ne_zero hm0 (inv_ne_zero (kerZ_ne _ _ _))
  · refine jumps_class c hm hq hq2 ?_ ?_
    · by_contra h; rw [if_neg h] at ha; exact ha rfl
    · by_contra h; rw [if_neg h] at hb; exact hb rfl

/-- The ramp has a fundamental. -/
theorem npFft_ramp (c : ℝ) {m q : ℕ} (hm : 0 < m) (hq : n = m * q) (hq2 : 2 ≤ q) (hmn : m < n) {a b : ℝ} (hb : b ≠ 0) :
    npFft (fun i : Fin n => ((a + b * gridPhase c q (i : ℕ) : ℝ) : ℂ)) ⟨m, hmn⟩ ≠ 0 := by
  intro h0
  have hn : 0 < n := by omega
  have hbC : (b : ℂ) ≠ 0 := by exact_mod_cast hb
  have hd := npFft_diff (fun i : Fin n => ((a + b * gridPhase c q (i : ℕ) : ℝ) : ℂ)) ⟨m, hmn⟩
  rw [h0, zero_mul] at hd
  have e : (fun i : Fin n => ((a + b * gridPhase c q (i : ℕ) : ℝ) : ℂ) - delayed 1 (fun i : Fin n => ((a + b * gridPhase c q (i : ℕ) : ℝ) : ℂ)) i) =
      fun i : Fin n => (fun _ : Fin n => (b : ℂ) / q) i + (fun i : Fin n => -(b : ℂ) * (if gridPhase c q (i : ℕ) < 1 / q then (1 : ℂ) else 0)) i := by
    funext i
    rw [delayed_grid hn c hq hq2 (fun x => ((a + b * x : ℝ) : ℂ)), ← Complex.ofReal_sub]
    have := gridPhase_step c hq2 (i : ℕ)
    rw [show a + b * gridPhase c q (i : ℕ) - (a + b * gridPhase c q ((i : ℕ) - 1)) = b * (gridPhase c q (i : ℕ) - gridPhase c q ((i : ℕ) - 1)) by ring, this]
    by_cases hlt : gridPhase c q (i : ℕ) < 1 / q
    · simp only [if_pos hlt]; push_cast; ring
    · simp only [if_neg hlt]; push_cast; ring
  rw [e, npFft_add] at hd
  simp only [] at hd
  rw [npFft_const _ (by simpa using hm.ne'), zero_add, npFft_smul] at hd
  exact npFft_jumps c hm hq hq2 hmn ((mul_eq_zero.1 hd).resolve_left (by simpa using hbC))

set_option maxHeartbeats 1000000 in
/-- The square wave has a fundamental. -/
theorem npFft_square (c : ℝ) {m q : ℕ} (hm : 0 < m) (hq : n = m * q) (hq2 : 2 ≤ q) (hmn : m < n) {a : ℝ} (ha : a ≠ 0) :
    npFft (fun i : Fin n => (((if gridPhase c q (i : ℕ) < 1 / 2 then a else 0 : ℝ)) : ℂ)) ⟨m, hmn⟩ ≠ 0 := by
  intro h0
  have hn : 0 < n := by omega
  have haC : (a : ℂ) ≠ 0 := by exact_mod_cast ha
  have hqr : (2 : ℝ) ≤ q := by exact_mod_cast hq2
  have hhalf : (1 : ℝ) / q ≤ 1 / 2 := by rw [div_le_div_iff₀ (by linarith) (by norm_num)]; linarith
  obtain ⟨x, hx⟩ : ∃ x : Signal n, x = fun i : Fin n => (((if gridPhase c q (i : ℕ) < 1 / 2 then a else 0 : ℝ)) : ℂ) := ⟨_, rfl⟩
  rw [← hx] at h0
  have hd := npFft_diff x ⟨m, hmn⟩
  rw [h0, zero_mul] at hd
  obtain ⟨u, hu⟩ : ∃ u : Signal n, u = fun i : Fin n => if gridPhase c q (i : ℕ) < 1 / 2 ∧ ¬ gridPhase c q ((i : ℕ) - 1) < 1 / 2 then (1 : ℂ) else 0 := ⟨_, rfl⟩
  obtain ⟨v, hv⟩ : ∃ v : Signal n, v = fun i : Fin n => if ¬ gridPhase c q (i : ℕ) < 1 / 2 ∧ gridPhase c q ((i : ℕ) - 1) < 1 / 2 then (1 : ℂ) else 0 := ⟨_, rfl⟩
  have e : (fun i : Fin n => x i - delayed 1 x i) = fun i => (fun i => (a : ℂ) * u i) i + (fun i => -(a : ℂ) * v i) i := by
    funext i
    rw [hx, delayed_grid hn c hq hq2 (fun y => (((if y < 1 / 2 then a else 0 : ℝ)) : ℂ))]
    simp only [hu, hv]
    by_cases h1 : gridPhase c q (i : ℕ) < 1 / 2 <;> by_cases h2 : gridPhase c q ((i : ℕ) - 1) < 1 / 2 <;>
      simp only [h1, h2, if_true, if_false, not_true, not_false_iff, and_true, and_false, Complex.ofReal_zero] <;> ring
  -- where it switches on, a new period has begun
  have hon : ∀ i : Fin n, u i ≠ 0 ↔ gridPhase c q (i : ℕ) < 1 / q := fun i => by
    have hs := gridPhase_step c hq2 (i : ℕ)
    have hr := gridPhase_range c q (i : ℕ)
    have hr' := gridPhase_range c q ((i : ℕ) - 1)
    simp only [hu]
    constructor
    · intro h
      by_contra hc
      rw [if_neg hc] at hs
      apply h
      rw [if_neg]
      rintro ⟨h1, h2⟩
      have : (0 : ℝ) < 1 / q := by positivity
      linarith
    · intro h
      rw [if_pos h] at hs
      rw [if_pos ⟨by linarith, by push Not; linarith⟩]
      exact one_ne_zero
  have hoff : ∀ i : Fin n, v i ≠ 0 → 1 / 2 ≤ gridPhase c q (i : ℕ) ∧ gridPhase c q (i : ℕ) < 1 / 2 + 1 / q := fun i h => by
    have hs := gridPhase_step c hq2 (i : ℕ)
    have hh : ¬ gridPhase c q (i : ℕ) < 1 / 2 ∧ gridPhase c q ((i : ℕ) - 1) < 1 / 2 := by
      by_contra hc; apply h; simp only [hv]; rw [if_neg hc]
    push Not at hh
    refine ⟨hh.1, ?_⟩
    split at hs <;> linarith [hh.2]
  have hclu : ∀ i j : Fin n, u i ≠ 0 → u j ≠ 0 → kerZ n (i : ℕ) (m : ℕ) = kerZ n (j : ℕ) (m : ℕ) := fun i j hi hj =>
    jumps_class c hm hq hq2 ((hon i).1 hi) ((hon j).1 hj)
  have hclv : ∀ i j : Fin n, v i ≠ 0 → v j ≠ 0 → kerZ n (i : ℕ) (m : ℕ) = kerZ n (j : ℕ) (m : ℕ) := fun i j hi hj => by
    rw [kerZ_period hm hq hq2]
    refine gridPhase_close c hq2 ?_
    rw [abs_lt]
    constructor <;> linarith [(hoff i hi).1, (hoff i hi).2, (hoff j hj).1, (hoff j hj).2]
  have hm0 : (m : ℂ) ≠ 0 := by exact_mod_cast hm.ne'
  have hsu : ∑ i, u i = m := by
    rw [← sum_jumps hn c hq hq2]
    refine sum_congr rfl (fun i _ => ?_)
    by_cases h : gridPhase c q (i : ℕ) < 1 / q
    · have h1 := (hon i).2 h
      rw [if_pos h]
      simp only [hu] at h1 ⊢
      split
      · rfl
      · rename_i h2; rw [if_neg h2] at h1; exact absurd rfl h1
    · have h1 : u i = 0 := by by_contra hc; exact h ((hon i).1 hc)
      rw [if_neg h, h1]
  have hsv : ∑ i, v i = m := by
    have h1 : ∑ i, (x i - delayed 1 x i) = 0 := by rw [sum_sub_distrib, sum_delayed, sub_self]
    have h2 : ∑ i, (x i - delayed 1 x i) = ∑ i, ((a : ℂ) * u i + -(a : ℂ) * v i) := sum_congr rfl (fun i _ => congrFun e i)
    rw [h2, sum_add_distrib, ← mul_sum, ← mul_sum, hsu] at h1
    have : (a : ℂ) * (m - ∑ i, v i) = 0 := by linear_combination h1
    have := (mul_eq_zero.1 this).resolve_left haC
    linear_combination -this
  obtain ⟨i, -, hi⟩ := exists_ne_zero_of_sum_ne_zero (by rw [hsu]; exact hm0)
  obtain ⟨j, -, hj⟩ := exists_ne_zero_of_sum_ne_zero (by rw [hsv]; exact hm0)
  rw [e, npFft_add] at hd
  simp only [] at hd
  rw [npFft_smul, npFft_smul] at hd
  simp only [] at hd
  rw [npFft_class u _ hclu i hi, npFft_class v _ hclv j hj, hsu, hsv] at hd
  have hk : (kerZ n (i : ℕ) (m : ℕ))⁻¹ = (kerZ n (j : ℕ) (m : ℕ))⁻¹ := by
    have : (a : ℂ) * m * ((kerZ n (i : ℕ) (m : ℕ))⁻¹ - (kerZ n (j : ℕ) (m : ℕ))⁻¹) = 0 := by linear_combination hd
    have := (mul_eq_zero.1 this).resolve_left (mul_ne_zero haC hm0)
    linear_combination this
  obtain ⟨z, hz⟩ := (kerZ_period hm hq hq2 _ _).1 (inv_injective hk)
  have hp := gridPhase_period c hq2 (j : ℕ) z
  rw [← hz] at hp
  have h1 := (hon i).1 hi
  have h2 := (hoff j hj).1
  linarith

/-- Given exactly the target, the evaluator finds no difference. -/
theorem rf_perfect (hn : 2 ≤ n) {P : Prop_ n} (hw : 0 < P.window) {a h : ℝ} (ha : a ≠ 0) {m : ℕ} (hmn : m < n) (hi : harmonicInd P h = m) {x : Fin n → ℝ}
    (h0 : ∀ i, 0 ≤ x i) (hx : npFft (fun i => ((x i : ℝ) : ℂ)) ⟨m, hmn⟩ ≠ 0) : rfScore P x a h (fun i => ((x i : ℝ) : ℂ)) = .ok 0 := by
  have hdt := dt_ne_zero hn hw
  have hT : fft_ (fun i => ((x i : ℝ) : ℂ)) P.dt ⟨m, hmn⟩ ≠ 0 := mul_ne_zero hx (by exact_mod_cast hdt)
  have hsh : rfShift P x h (fun i => ((x i : ℝ) : ℂ)) = .ok x := by
    unfold rfShift
    simp only [hi]
    rw [dif_pos hmn, if_neg hT]
    congr 1
    funext i
    rw [div_self hT, arg_one]
    simp only [zero_mul, ofReal_zero, mul_zero, Complex.exp_zero, one_mul]
    rw [(C54_inverse (fun i => ((x i : ℝ) : ℂ)) hdt).1, Complex.norm_real, Real.norm_of_nonneg (h0 i)]
  unfold rfScore
  rw [hsh]
  simp only
  rw [if_neg (by positivity)]
  unfold simL2mean npMean; simp

/-- **C80.** Ramps and square waves can be reached: with `m` periods on the grid (of a whole number `q ≥ 2` of samples each) the evaluator is made without
error, and it gives the score 0 to an output voltage equal to its target. -/
theorem C80_rf_reachable (hn : 2 ≤ n) {P : Prop_ n} (hw : 0 < P.window) {m q : ℕ} (hm : 0 < m) (hq : n = m * q) (hq2 : 2 ≤ q) {a : ℝ} (ha : 0 < a)
    {s : String} (hs : s ∈ ["saw", "other-saw", "square"]) (sink : NodeId) :
    ∃ (x : Fin n → ℝ) (E : Evaluator n), rfTarget P (m / (n * P.dt)) a (.name s) = .ok x ∧ rfNew P (m / (n * P.dt)) a (.name s) sink = .ok E ∧
      ∀ (g : Graph) (B : Sim n) (inp : Signal n) (w : Session n), w.saves (.node sink) = some (fun i => ((x i : ℝ) : ℂ)) →
        evaluate g B inp E w = (w, .ok 0) := by
  have hmn : m < n := by rw [hq]; nlinarith
  have hidx := (C68_harmonic_index hn hw hm).1 (by rw [hq]; nlinarith)
  obtain ⟨c, hc⟩ := phase_grid hn hw hm hq
  obtain ⟨h1, h2, _, h4, _⟩ := C80_rf_shapes P (m / (n * P.dt)) a
  have main : ∀ x : Fin n → ℝ, rfTarget P (m / (n * P.dt)) a (.name s) = .ok x → npFft (fun i => ((x i : ℝ) : ℂ)) ⟨m, hmn⟩ ≠ 0 →
      ∃ (x : Fin n → ℝ) (E : Evaluator n), rfTarget P (m / (n * P.dt)) a (.name s) = .ok x ∧ rfNew P (m / (n * P.dt)) a (.name s) sink = .ok E ∧
      ∀ (g : Graph) (B : Sim n) (inp : Signal n) (w : Session n), w.saves (.node sink) = some (fun i => ((x i : ℝ) : ℂ)) →
        evaluate g B inp E w = (w, .ok 0) := fun x hx hne => by
    refine ⟨x, rfWaveform P x a (m / (n * P.dt)) sink, hx, by unfold rfNew; rw [hx], fun g B inp w hsv => ?_⟩
    unfold evaluate rfWaveform Session.measure
    simp only [hsv]
    rw [rf_perfect hn hw ha.ne' hmn hidx (fun i => ((C80_rf_range_period P ha.le hx).1 i).1) hne]
  simp only [List.mem_cons, List.not_mem_nil, or_false] at hs
  rcases hs with rfl | rfl | rfl
  · refine main _ h1 ?_
    have : (fun i : Fin n => ((a * (1 - phaseOf (m / (n * P.dt)) (P.t i)) : ℝ) : ℂ)) = fun i : Fin n => ((a + -a * gridPhase c q (i : ℕ) : ℝ) : ℂ) := by
      funext i; rw [hc]; congr 1; ring
    rw [this]
    exact npFft_ramp c hm hq hq2 hmn (neg_ne_zero.2 ha.ne')
  · refine main _ h2 ?_
    have : (fun i : Fin n => ((a * phaseOf (m / (n * P.dt)) (P.t i) : ℝ) : ℂ)) = fun i : Fin n => ((0 + a * gridPhase c q (i : ℕ) : ℝ) : ℂ) := by
      funext i; rw [hc]; congr 1; ring
    rw [this]
    exact npFft_ramp c hm hq hq2 hmn ha.ne'
  · refine main _ h4 ?_
    have : (fun i : Fin n => (((if phaseOf (m / (n * P.dt)) (P.t i) < 1 / 2 then a else 0 : ℝ)) : ℂ)) =
        fun i : Fin n => (((if gridPhase c q (i : ℕ) < 1 / 2 then a else 0 : ℝ)) : ℂ) := by
      funext i; rw [hc]
    rw [this]
    exact npFft_square c hm hq hq2 hmn ha.ne'

/-! ## Filters -/

theorem fract_lt_iff {y d : ℝ} (hd : d ≤ 1) : Int.fract y < d ↔ ∃ k : ℤ, (k : ℝ) ≤ y ∧ y < k + d := by
  constructor
  · intro h
    exact ⟨⌊y⌋, Int.floor_le y, by have := Int.self_sub_floor y; linarith⟩
  · rintro ⟨k, h1, h2⟩
    have : ⌊y⌋ = k := Int.floor_eq_iff.2 ⟨h1, by linarith⟩
    rw [Int.fract, this]; linarith

/-- **C80.** The filter asked for: bands of width `2π·width`, at the multiples of `2π·fsr`, pass; all else is blocked.  (Finding 74: with the free spectral range and the width
the class declares in Hz, the bands should be `width` wide and `fsr` apart.) -/
theorem C80_filter_bands (f : ℝ) :
    ((∃ k : ℤ, -(Real.pi * designWidth) ≤ f - k * (2 * Real.pi * designFsr) ∧ f - k * (2 * Real.pi * designFsr) < Real.pi * designWidth) → designTransfer f = 1) ∧
    ((¬ ∃ k : ℤ, -(Real.pi * designWidth) ≤ f - k * (2 * Real.pi * designFsr) ∧ f - k * (2 * Real.pi * designFsr) < Real.pi * designWidth) → designTransfer f = 0) := by
  have hp := Real.pi_pos
  have hF : (0 : ℝ) < designFsr := by unfold designFsr; norm_num
  have hW : designWidth = 1 / 10 * designFsr := by unfold designWidth designFsr; norm_num
  have key : npMod (f / designFsr + designWidth / designFsr * Real.pi) (2 * Real.pi) < designWidth / designFsr * 2 * Real.pi ↔
      ∃ k : ℤ, -(Real.pi * designWidth) ≤ f - k * (2 * Real.pi * designFsr) ∧ f - k * (2 * Real.pi * designFsr) < Real.pi * designWidth := by
    rw [npMod_fract (by positivity), hW]
    have e1 : (f / designFsr + 1 / 10 * designFsr / designFsr * Real.pi) / (2 * Real.pi) = (f + Real.pi * (1 / 10 * designFsr)) / (2 * Real.pi * designFsr) := by
      field_simp
    have e2 : 1 / 10 * designFsr / designFsr * 2 * Real.pi = 2 * Real.pi * (1 / 10) := by field_simp
    rw [e1, e2, mul_lt_mul_iff_right₀ (by positivity), fract_lt_iff (by norm_num)]
    refine exists_congr (fun k => and_congr ?_ ?_)
    · rw [le_div_iff₀ (by positivity)]
      constructor <;> intro h <;> linarith
    · rw [div_lt_iff₀ (by positivity)]
      constructor <;> intro h <;> nlinarith
  unfold designTransfer squareWave
  constructor
  · intro h; rw [if_pos (key.2 h)]; norm_num
  · intro h; rw [if_neg (fun hc => h (key.1 hc))]; norm_num

/-- A frequency in one of the pass bands of the filter asked for. -/
def inBand (f : ℝ) : Prop :=
  ∃ k : ℤ, -(Real.pi * designWidth) ≤ f - k * (2 * Real.pi * designFsr) ∧ f - k * (2 * Real.pi * designFsr) < Real.pi * designWidth

theorem designTransfer_range (f : ℝ) : 0 ≤ designTransfer f ∧ designTransfer f ≤ 1 := by
  by_cases h : inBand f
  · rw [(C80_filter_bands f).1 h]; norm_num
  · rw [(C80_filter_bands f).2 h]; norm_num

/-- **C80.** The score of a filter: between -1 and 0 if any light comes out, -1 exactly if none of it is outside the bands; a division by zero if none comes out. -/
theorem C80_filter_goal (hn : 2 ≤ n) {P : Prop_ n} (hw : 0 < P.window) {g : Graph} {B : Sim n} {inp : Signal n} {sink : NodeId} {w w1 : Session n} {s : Signal n}
    (hr : w.run g B inp (.node sink) = (w1, .ok s)) :
    ((∃ i, s i ≠ 0) → ∃ r, evaluate g B inp (filterNew P sink) w = (w1, .ok r) ∧ -1 ≤ r ∧ r ≤ 0 ∧
      (r = -1 ↔ ∀ i, ¬ inBand (P.f i) → fftShift (npFft s) i = 0)) ∧
    ((∀ i, s i = 0) → evaluate g B inp (filterNew P sink) w = (w1, .error .zeroDivision)) := by
  have he : evaluate g B inp (filterNew P sink) w = (w1, filterDesignScore P (fun i => designTransfer (P.f i)) s) := by
    unfold evaluate filterNew filterDesign
    simp only [hr]
  obtain ⟨h1, h2⟩ := C67_filter_design hn hw (target := fun i => designTransfer (P.f i)) (fun i => designTransfer_range _)
  constructor
  · intro hs
    obtain ⟨r, hr1, hlo, hhi, hiff, _⟩ := h1 s hs
    refine ⟨r, by rw [he, hr1], hlo, hhi, hiff.trans (forall_congr' fun i => ?_)⟩
    have : designTransfer (P.f i) < 1 ↔ ¬ inBand (P.f i) := by
      constructor
      · intro h hb; rw [(C80_filter_bands _).1 hb] at h; exact lt_irrefl _ h
      · intro h; rw [(C80_filter_bands _).2 h]; norm_num
    rw [this]
  · intro hs
    rw [he, show s = fun _ => 0 from funext hs, h2]

/-- **C80** (finding 74). On a grid narrower than the first band (below about 63 GHz to either side) every design that lets any light through is perfect. -/
theorem C80_filter_blind (hn : 2 ≤ n) {P : Prop_ n} (hw : 0 < P.window) (hf : n / P.window / 2 < Real.pi * designWidth) {g : Graph} {B : Sim n} {inp : Signal n}
    {sink : NodeId} {w w1 : Session n} {s : Signal n} (hr : w.run g B inp (.node sink) = (w1, .ok s)) (hs : ∃ i, s i ≠ 0) :
    evaluate g B inp (filterNew P sink) w = (w1, .ok (-1)) := by
  obtain ⟨r, h1, _, _, h4⟩ := (C80_filter_goal hn hw hr).1 hs
  rw [h1, h4.2 (fun i hi => absurd ?_ hi)]
  have hn1 : (0 : ℝ) < (n : ℝ) - 1 := by
    have : (2 : ℝ) ≤ n := by exact_mod_cast hn
    linarith
  have hi1 : ((i : ℕ) : ℝ) ≤ (n : ℝ) - 1 := by
    have : ((i : ℕ) : ℝ) + 1 ≤ n := by exact_mod_cast i.2
    linarith
  have hF : 0 ≤ (n : ℝ) / P.window / 2 := by positivity
  have hq0 : 0 ≤ ((i : ℕ) : ℝ) / ((n : ℝ) - 1) := by positivity
  have hq1 : ((i : ℕ) : ℝ) / ((n : ℝ) - 1) ≤ 1 := (div_le_one hn1).2 hi1
  have hfi : P.f i = -(n / P.window / 2) + 2 * (n / P.window / 2) * (((i : ℕ) : ℝ) / ((n : ℝ) - 1)) := by
    unfold Prop_.f Prop_.linspace
    field_simp; ring
  refine ⟨0, ?_, ?_⟩ <;> rw [hfi] <;> push_cast <;> nlinarith

/-! ## Time lens -/

/-- **C80.** The fringes asked for lie between 0 and 2 and repeat every `π·fsr`; the bright ones are exactly at `(kπ - 1.9)·fsr`.  (Finding 75: a free spectral range away from a
bright fringe is no bright fringe.) -/
theorem C80_lens_fringes (f : ℝ) :
    (0 ≤ lensFringes f ∧ lensFringes f ≤ 2) ∧ (∀ k : ℤ, lensFringes (f + k * (Real.pi * 12350000000)) = lensFringes f) ∧
    (lensFringes f = 2 ↔ ∃ k : ℤ, f = (k * Real.pi - 19 / 10) * 12350000000) ∧ (lensFringes f = 2 → lensFringes (f + 12350000000) < 2) := by
  rw [show (12350000000 : ℝ) = lensFsr by unfold lensFsr; norm_num]
  have hF : (0 : ℝ) < lensFsr := by unfold lensFsr; norm_num
  have hsq : ∀ x : ℝ, Real.cos x ^ 2 = 1 - Real.sin x ^ 2 := fun x => by linarith [Real.sin_sq_add_cos_sq x]
  have bright : ∀ f : ℝ, lensFringes f = 2 ↔ ∃ k : ℤ, f = (k * Real.pi - 19 / 10) * lensFsr := fun f => by
    unfold lensFringes
    rw [hsq]
    have : (2 * (1 - Real.sin (f / lensFsr + 19 / 10) ^ 2) = 2) ↔ Real.sin (f / lensFsr + 19 / 10) = 0 := by
      constructor
      · intro h; exact pow_eq_zero_iff (two_ne_zero) |>.1 (by linarith)
      · intro h; rw [h]; norm_num
    rw [this, Real.sin_eq_zero_iff]
    refine exists_congr (fun k => ?_)
    constructor
    · intro h; field_simp at h ⊢; linarith
    · intro h; rw [h]; field_simp; ring
  have hle : ∀ f, lensFringes f ≤ 2 := fun f => by unfold lensFringes; nlinarith [Real.cos_sq_le_one (f / lensFsr + 19 / 10)]
  refine ⟨⟨by unfold lensFringes; positivity, hle f⟩, fun k => ?_, bright f, fun h => lt_of_le_of_ne (hle _) (fun h2 => ?_)⟩
  · unfold lensFringes
    rw [show (f + k * (Real.pi * lensFsr)) / lensFsr + 19 / 10 = f / lensFsr + 19 / 10 + k * Real.pi by field_simp; ring, Real.cos_add_int_mul_pi, mul_pow]
    rw [show ((-1 : ℝ) ^ k) ^ 2 = 1 by rw [← zpow_natCast, ← zpow_mul, mul_comm, zpow_mul]; norm_num, one_mul]
  · obtain ⟨k, hk⟩ := (bright _).1 h
    obtain ⟨j, hj⟩ := (bright _).1 h2
    have e : (((j - k : ℤ) : ℝ)) * Real.pi = 1 := by
      have : ((j * Real.pi - k * Real.pi) - 1) * lensFsr = 0 := by linarith
      have := (mul_eq_zero.1 this).resolve_right hF.ne'
      push_cast; linarith
    have hp := Real.two_le_pi
    rcases le_or_gt (j - k) 0 with hc | hc
    · have : (((j - k : ℤ) : ℝ)) ≤ 0 := by exact_mod_cast hc
      nlinarith
    · have : (1 : ℝ) ≤ (((j - k : ℤ) : ℝ)) := by exact_mod_cast hc
      nlinarith

/-! ## Pulse trains and noise -/

/-- **C80.** A pulse-train evaluator depends on the magnitudes of its target and its repetition time alone: not on the pulse width, the peak power, or the phases of the target. -/
theorem C80_pulse_new (P : Prop_ n) {x y : Signal n} (h : ∀ i, ‖x i‖ = ‖y i‖) (w w' p p' r : ℝ) (sink : NodeId) :
    pulseNew P x w r p sink = pulseNew P y w' r p' sink ∧ ((∃ E, pulseNew P x w r p sink = .ok E) ↔ r ≠ 0) ∧
    (r = 0 → pulseNew P x w r p sink = .error .zeroDivision) := by
  refine ⟨?_, ?_, fun hr => if_pos hr⟩
  · unfold pulseNew; simp only [h]
  · unfold pulseNew
    split
    · rename_i hr; simp [hr]
    · rename_i hr; simp [hr]

/-- **C80.** The noise evaluator needs a signal; given one, an output of the same power at every instant scores 0, and every other output more. -/
theorem C80_noise_new (sink : NodeId) :
    noiseNew (n := n) none sink = .error .runtimeError ∧
    ∀ x : Signal n, ∃ E, noiseNew (some x) sink = .ok E ∧ ∀ (g : Graph) (B : Sim n) (inp : Signal n) (w w1 : Session n) (s : Signal n),
      w.run g B inp (.node sink) = (w1, .ok s) → ∃ r, evaluate g B inp E w = (w1, .ok r) ∧ 0 ≤ r ∧ (r = 0 ↔ ∀ i, ‖s i‖ = ‖x i‖) := by
  refine ⟨rfl, fun x => ⟨_, rfl, fun g B inp w w1 s hr => ?_⟩⟩
  refine ⟨noiseSuppressionScore x s, by unfold evaluate noiseSuppression; simp only [hr], ?_⟩
  refine ⟨(C67_noise_suppression x s).1, (C67_noise_suppression x s).2.trans (forall_congr' fun i => ?_)⟩
  exact sq_eq_sq₀ (norm_nonneg _) (norm_nonneg _)

/-- **C80.** The score of a pulse train whose line at the repetition rate is not dark: never negative, and 0 exactly if the aligned output has the magnitudes of the target. -/
theorem C80_pulse_goal {P : Prop_ n} {x : Signal n} {r : ℝ} (hr0 : r ≠ 0) (w' p' : ℝ) {sink : NodeId} {g : Graph} {B : Sim n} {inp : Signal n} {w w1 : Session n} {s : Signal n}
    (hr : w.run g B inp (.node sink) = (w1, .ok s)) (hi : harmonicInd P (1 / r) < n) (hs : npFft s ⟨_, hi⟩ ≠ 0)
    (hx : npFft (fun i => ((‖x i‖ : ℝ) : ℂ)) ⟨_, hi⟩ ≠ 0) :
    ∃ (E : Evaluator n) (y : Fin n → ℝ), pulseNew P x w' r p' sink = .ok E ∧ pulseShift P (fun i => ‖x i‖) (1 / r) s = .ok (fun i => ((y i : ℝ) : ℂ)) ∧
      ∃ v, evaluate g B inp E w = (w1, .ok v) ∧ 0 ≤ v ∧ (v = 0 ↔ ∀ i, y i = ‖x i‖) := by
  have hsh : ∃ y : Fin n → ℝ, pulseShift P (fun i => ‖x i‖) (1 / r) s = .ok (fun i => ((y i : ℝ) : ℂ)) := by
    unfold pulseShift
    rw [dif_pos hi]
    dsimp only
    rw [if_neg hs, if_neg hx]
    exact ⟨_, rfl⟩
  obtain ⟨y, hy⟩ := hsh
  refine ⟨_, y, by unfold pulseNew; rw [if_neg hr0], hy, ∑ i, (y i - ‖x i‖) ^ 2, ?_, sum_nonneg (fun i _ => sq_nonneg _), ?_⟩
  · unfold evaluate pulseRepetition pulseScore
    simp only [hr, hy]
    congr 2
    rw [← Complex.ofReal_re (∑ i, (y i - ‖x i‖) ^ 2)]
    push_cast
    rfl
  · have := (C67_distances y (fun i => ‖x i‖)).2.2.2
    rw [funext_iff] at this
    exact this

/-- **C80.** The not gate is measured at the (first) node without outgoing edges: with light there and in the target the score is between 0 and 1, and 0 exactly if the output is dark wherever
the target is not (see the finding of C67). -/
theorem C80_not_gate {target : Signal n} (ht : ∃ i, target i ≠ 0) {g : Graph} {v : NodeId} (hv : outputNode g = .ok v) {B : Sim n} {inp : Signal n}
    {w w1 : Session n} {s : Signal n} (hr : w.run g B inp (.node v) = (w1, .ok s)) (hs : ∃ i, s i ≠ 0) :
    ∃ r, evaluate g B inp (notGate target) w = (w1, .ok r) ∧ 0 ≤ r ∧ r ≤ 1 ∧ (r = 0 ↔ ∀ i, target i = 0 ∨ s i = 0) := by
  have pp : ∀ z : Signal n, (∃ i, z i ≠ 0) → 0 < ∑ i, power_ z i := fun z ⟨i, h⟩ => energy_pos_of_ne h
  have hnn : ∀ z : Signal n, ∀ i, 0 ≤ power_ z i := fun z i => by unfold power_; positivity
  have h1 := pp _ ht
  have h2 := pp _ hs
  have hsc : notGateScore target s = .ok ((∑ i, power_ s i * power_ target i) / ((∑ i, power_ s i) * ∑ i, power_ target i)) := by
    unfold notGateScore simCosine
    simp only [sum_sqrt_sq (hnn _)]
    rw [if_neg (by positivity)]
  refine ⟨(∑ i, power_ s i * power_ target i) / ((∑ i, power_ s i) * ∑ i, power_ target i), by unfold evaluate notGate; simp only [hv, hr, hsc], div_nonneg (sum_nonneg fun i _ => mul_nonneg (hnn _ _) (hnn _ _)) (by positivity), ?_, ?_⟩
  · rw [div_le_one (by positivity), sum_mul]
    refine sum_le_sum (fun i _ => mul_le_mul_of_nonneg_left ?_ (hnn _ _))
    exact single_le_sum (fun j _ => hnn target j) (mem_univ i)
  · rw [div_eq_zero_iff, or_iff_left (by positivity), sum_eq_zero_iff_of_nonneg (fun i _ => mul_nonneg (hnn _ _) (hnn _ _))]
    refine ⟨fun h i => ?_, fun h i _ => ?_⟩
    · rcases mul_eq_zero.1 (h i (mem_univ i)) with h | h
      · right; unfold power_ at h; simpa using h
      · left; unfold power_ at h; simpa using h
    · rcases h i with h | h <;> simp [power_, h]

/-- **C80.** The time lens compares the spectrum at the sink with that on the first connection, times the fringes: a score 0 means they agree at every frequency. -/
theorem C80_lens_goal {P : Prop_ n} {g : Graph} {B : Sim n} {inp : Signal n} {sink : NodeId} {w w1 : Session n} {s0 s : Signal n}
    (h0 : w.run g B inp (.edge ⟨0, 1, 0⟩) = (w1, .ok s0)) (h1 : w1.saves (.node sink) = some s) {r : ℝ} (he : evaluate g B inp (lensNew P sink) w = (w1, .ok r)) :
    0 ≤ r ∧ (r = 0 → ∀ i, ‖fftShift (fft_ s P.dt) i‖ = lensFringes (P.f i) * ‖fftShift (fft_ s0 P.dt) i‖) := by
  have : timeLensScore P (fun i => lensFringes (P.f i)) s0 s = .ok r := by
    unfold evaluate lensNew timeLens Session.measure at he
    simp only [h0, h1] at he
    exact congrArg Prod.snd he
  obtain ⟨_, _, _, _, a, b⟩ := C67_time_lens this (fun i => (C80_lens_fringes _).1.1)
  exact ⟨a, b⟩

/-! ## Instances -/

namespace TargetDemo

/-- Source, one component, detector, each passing the light on, on four samples. -/
noncomputable def through : Sim 4 := fun _ _ =>
  { node := fun _ ins _ out => .ok (List.replicate (max 1 out) (ins.headD (fun _ => 0)))
    edge := fun _ s => .ok s
    noise := fun _ => none }

noncomputable def fresh : Session 4 := ⟨fun _ => [], false, Store.empty⟩

theorem arrives (inp : Signal 4) : ∃ w1, fresh.run Toy.g through inp (.node 1) = (w1, .ok inp) := by
  have ho : Toy.g.topoSort = .ok [0, 1] := by decide +kernel
  unfold Session.run Session.propagate Verif.propagate
  simp only [ho]
  exact ⟨_, Prod.ext rfl rfl⟩

/-- 4 samples over 3 s: ramps with two periods on the grid. -/
example : ∃ x E, rfTarget demoProp (2 / (4 * demoProp.dt)) 5 (.name "saw") = .ok x ∧ rfNew demoProp (2 / (4 * demoProp.dt)) 5 (.name "saw") 1 = .ok E ∧
    (∀ i, 0 ≤ x i ∧ x i ≤ 5) ∧ evaluate Toy.g through 0 E ⟨fun _ => [], false, fun _ => some (fun i => ((x i : ℝ) : ℂ))⟩ =
      (⟨fun _ => [], false, fun _ => some (fun i => ((x i : ℝ) : ℂ))⟩, .ok 0) := by
  obtain ⟨x, E, h1, h2, h3⟩ := C80_rf_reachable (n := 4) (by norm_num) (P := demoProp) (by norm_num [demoProp]) (m := 2) (q := 2) (by norm_num) (by norm_num)
    (by norm_num) (a := 5) (by norm_num) (s := "saw") (by simp) 1
  exact ⟨x, E, by exact_mod_cast h1, by exact_mod_cast h2, (C80_rf_range_period _ (by norm_num) h1).1, h3 _ _ _ _ rfl⟩

/-- The falling ramp of period 2 s, a quarter into a period at -1.5 s. -/
example : ∃ x, rfTarget demoProp (1 / 2) 8 (.name "saw") = .ok x ∧ x 0 = 6 := by
  refine ⟨_, (C80_rf_shapes demoProp (1 / 2) 8).1, ?_⟩
  have : Int.fract ((1 : ℝ) / 2 * demoProp.t 0) = 1 / 4 := by
    rw [Int.fract_eq_iff]
    refine ⟨by norm_num, by norm_num, -1, ?_⟩
    simp only [Prop_.t, Prop_.linspace, demoProp]; norm_num
  simp only [phaseOf, this]; norm_num

example : rfTarget demoProp 1 1 (.name "sine") = .error .notImplemented := (C80_rf_shapes demoProp 1 1).2.2.2.2.1 _ (by decide)

/-- 30 GHz from the centre, where a filter 20 GHz wide should block, passes; 100 GHz is blocked. -/
example : designTransfer (30 * 10 ^ 9) = 1 ∧ designTransfer (100 * 10 ^ 9) = 0 := by
  have h1 := Real.two_le_pi
  have h2 := Real.pi_le_four
  constructor
  · refine (C80_filter_bands _).1 ⟨0, ?_, ?_⟩ <;> unfold designWidth <;> norm_num <;> linarith
  · refine (C80_filter_bands _).2 ?_
    rintro ⟨k, hk1, hk2⟩
    unfold designWidth designFsr at hk1 hk2
    rcases le_or_gt k 0 with hc | hc
    · have hk : (k : ℝ) ≤ 0 := by exact_mod_cast hc
      nlinarith
    · have hk : (1 : ℝ) ≤ k := by exact_mod_cast hc
      nlinarith

/-- On this grid (0.67 Hz to either side) the fibre-free design is perfect, as is every other. -/
example : ∃ w1, evaluate Toy.g through (fun _ => 1) (filterNew demoProp 1) fresh = (w1, .ok (-1)) := by
  obtain ⟨w1, h⟩ := arrives (fun _ => 1)
  refine ⟨w1, C80_filter_blind (by norm_num) (by norm_num [demoProp]) ?_ h ⟨0, one_ne_zero⟩⟩
  have := Real.two_le_pi
  unfold designWidth
  norm_num [demoProp]
  linarith

example : ∃ w1, evaluate Toy.g through (fun _ => 0) (filterNew demoProp 1) fresh = (w1, .error .zeroDivision) := by
  obtain ⟨w1, h⟩ := arrives (fun _ => 0)
  exact ⟨w1, (C80_filter_goal (by norm_num) (by norm_num [demoProp]) h).2 (fun _ => rfl)⟩

example : lensFringes (-(19 / 10) * 12350000000) = 2 ∧ lensFringes (-(19 / 10) * 12350000000 + 12350000000) < 2 := by
  have h := (C80_lens_fringes (-(19 / 10) * 12350000000)).2.2
  have h2 := h.1.2 ⟨0, by push_cast; ring⟩
  exact ⟨h2, h.2 h2⟩

example : pulseNew demoProp (fun _ => Complex.I) 1 3 5 1 = pulseNew demoProp (fun _ => 1) 2 3 7 1 := (C80_pulse_new demoProp (fun _ => by simp) 1 2 5 7 3 1).1

/-- One pulse in four samples, as asked for. -/
example : ∃ E w1 v, pulseNew demoProp (fun i => if i = 0 then Complex.I else 0) 1 4 1 1 = .ok E ∧
    evaluate Toy.g through (fun i => if i = 0 then 1 else 0) E fresh = (w1, .ok v) ∧ 0 ≤ v := by
  have hdt : demoProp.dt = 1 := by rw [(dt_df demoProp).1]; norm_num [demoProp]
  have hidx : harmonicInd demoProp (1 / 4) = 1 := by
    have := (C68_harmonic_index (n := 4) (by norm_num) (P := demoProp) (by norm_num [demoProp]) (m := 1) (by norm_num)).1 (by norm_num)
    rw [hdt] at this
    norm_num at this ⊢
    exact this
  have hX : ∀ k : Fin 4, npFft (fun i : Fin 4 => if i = 0 then (1 : ℂ) else 0) k ≠ 0 := fun k => by
    unfold npFft
    rw [sum_eq_single 0 (fun b _ hb => by simp only [if_neg hb, zero_mul]) (fun h => absurd (mem_univ _) h)]
    simp
  obtain ⟨w1, hr⟩ := arrives (fun i => if i = 0 then 1 else 0)
  obtain ⟨E, y, h1, _, v, h2, h3, _⟩ := C80_pulse_goal (P := demoProp) (x := fun i : Fin 4 => if i = 0 then Complex.I else 0) (r := 4) (by norm_num) 1 1 hr
    (by rw [hidx]; norm_num) (hX _) (by
      have e : (fun i : Fin 4 => ((‖(if i = 0 then Complex.I else 0 : ℂ)‖ : ℝ) : ℂ)) = fun i => if i = 0 then 1 else 0 := by
        funext i; split <;> simp
      rw [e]; exact hX _)
  exact ⟨E, w1, v, h1, h2, h3⟩

/-- A steady input has a score. -/
example : ∃ w1 s0 s r, fresh.run Toy.g through (fun _ => 1) (.edge ⟨0, 1, 0⟩) = (w1, .ok s0) ∧ w1.saves (.node 1) = some s ∧
    evaluate Toy.g through (fun _ => 1) (lensNew demoProp 1) fresh = (w1, .ok r) := by
  have hdt : demoProp.dt = 1 := by rw [(dt_df demoProp).1]; norm_num [demoProp]
  have ho : Toy.g.topoSort = .ok [0, 1] := by decide +kernel
  have hrun : ∃ w1, fresh.run Toy.g through (fun _ => 1) (.edge ⟨0, 1, 0⟩) = (w1, .ok (fun _ => 1)) ∧ w1.saves (.node 1) = some (fun _ => 1) := by
    unfold Session.run Session.propagate Verif.propagate
    simp only [ho]
    exact ⟨_, Prod.ext rfl rfl, rfl⟩
  obtain ⟨w1, h1, h2⟩ := hrun
  have hX : npFft (fun _ : Fin 4 => (1 : ℂ)) = fun k => if k = 0 then 4 else 0 := by
    have : npIfft (fun k : Fin 4 => if k = 0 then (4 : ℂ) else 0) = fun _ => 1 := by
      funext j
      unfold npIfft
      rw [sum_eq_single 0 (fun b _ hb => by simp only [if_neg hb, zero_mul]) (fun h => absurd (mem_univ _) h)]
      simp
    rw [← this, npFft_npIfft]
  have hr : ∀ i, ‖fftShift (fft_ (fun _ : Fin 4 => (1 : ℂ)) demoProp.dt) i‖ = if i = 2 then 4 else 0 := fun i => by
    rw [hdt]; unfold fftShift fft_
    rw [hX]
    fin_cases i <;> simp [rotIdx]
  have hfr : 0 < lensFringes (demoProp.f 2) := by
    have hf : demoProp.f 2 = 2 / 9 := by simp only [Prop_.f, Prop_.linspace, demoProp]; norm_num
    have hL : (0 : ℝ) < lensFsr := by unfold lensFsr; norm_num
    have hc : Real.cos (2 / 9 / lensFsr + 19 / 10) < 0 := by
      refine Real.cos_neg_of_pi_div_two_lt_of_lt ?_ ?_
      · have := Real.pi_lt_d2
        have : 0 < 2 / 9 / lensFsr := by positivity
        linarith
      · have := Real.pi_gt_d2
        have : 2 / 9 / lensFsr < 1 := by unfold lensFsr; norm_num
        linarith
    unfold lensFringes
    rw [hf]
    have := pow_pos (neg_pos.2 hc) 2
    rw [neg_sq] at this
    linarith
  suffices hts : ∃ r, timeLensScore demoProp (fun i => lensFringes (demoProp.f i)) (fun _ => 1) (fun _ => 1) = .ok r by
    obtain ⟨r, hr⟩ := hts
    refine ⟨w1, _, _, r, h1, h2, ?_⟩
    unfold evaluate lensNew timeLens Session.measure
    simp only [h1, h2, hr]
  unfold timeLensScore
  simp only [hr]
  have h0 : (univ : Finset (Fin 4)).Nonempty := ⟨0, mem_univ _⟩
  have h1' : (sliceIdx 4 (4 / 4) (3 * 4 / 4)).Nonempty := ⟨1, by simp [sliceIdx]⟩
  have m1 : (1 : Fin 4) ∈ sliceIdx 4 (4 / 4) (3 * 4 / 4) := by simp [sliceIdx]
  have m2 : (2 : Fin 4) ∈ sliceIdx 4 (4 / 4) (3 * 4 / 4) := by simp [sliceIdx]
  rw [dif_pos h0]
  set top := univ.sup' h0 (fun i : Fin 4 => lensFringes (demoProp.f i) * (if i = 2 then (4 : ℝ) else 0)) with htop
  have ht : 0 < top := by
    have := le_sup' (fun i : Fin 4 => lensFringes (demoProp.f i) * (if i = 2 then (4 : ℝ) else 0)) (mem_univ 2)
    rw [if_pos rfl] at this
    rw [← htop] at this
    linarith
  rw [if_neg ht.ne', dif_pos h1']
  have a := le_sup' (fun i : Fin 4 => (if i = 2 then (4 : ℝ) else 0) / top) m2
  have b := inf'_le (fun i : Fin 4 => (if i = 2 then (4 : ℝ) else 0) / top) m1
  have c : 0 ≤ (sliceIdx 4 (4 / 4) (3 * 4 / 4)).inf' h1' (fun i : Fin 4 => (if i = 2 then (4 : ℝ) else 0) / top) :=
    le_inf' _ _ (fun i _ => by split <;> positivity)
  simp only [if_true] at a
  rw [if_neg (by decide : ¬ ((1 : Fin 4) = 2)), zero_div] at b
  have hp : 0 < 4 / top := by positivity
  rw [if_neg (by intro h; linarith), if_neg (by rw [div_eq_zero_iff]; rintro (h | h) <;> linarith)]
  exact ⟨_, rfl⟩

example : outputNode Toy.g = .ok 1 := by decide +kernel

example : ∃ w1 r, evaluate Toy.g through (fun _ => 1) (notGate (fun i => if i = 0 then 1 else 0)) fresh = (w1, .ok r) ∧ 0 < r := by
  obtain ⟨w1, hr⟩ := arrives (fun _ => 1)
  obtain ⟨r, h1, h2, _, h3⟩ := C80_not_gate (target := fun i : Fin 4 => if i = 0 then 1 else 0) ⟨0, by simp⟩ (by decide +kernel : outputNode Toy.g = .ok 1) hr ⟨0, one_ne_zero⟩
  refine ⟨w1, r, h1, lt_of_le_of_ne h2 (fun h0 => ?_)⟩
  have := h3.1 h0.symm 0
  simp at this

/-- A detector that sees half the amplitude scores above zero. -/
example : ∃ E w1 r, noiseNew (some (fun _ => 2 : Signal 4)) 1 = .ok E ∧ evaluate Toy.g through (fun _ => 1) E fresh = (w1, .ok r) ∧ 0 < r := by
  obtain ⟨E, hE, h⟩ := (C80_noise_new (n := 4) 1).2 (fun _ => 2)
  obtain ⟨w1, hr⟩ := arrives (fun _ => 1)
  obtain ⟨r, h1, h2, h3⟩ := h _ _ _ _ _ _ hr
  refine ⟨E, w1, r, hE, h1, lt_of_le_of_ne h2 (fun h0 => ?_)⟩
  have := (h3.1 h0.symm) 0
  norm_num at this

end TargetDemo

end Verif
