import Verif.Props.Filter
import Mathlib.Analysis.SpecialFunctions.Trigonometric.Series
import Mathlib.Analysis.SpecialFunctions.Trigonometric.DerivHyp
/-!
# Sources and power meter (C63)
-/

namespace Verif
open Complex Finset

variable {n : Nat}

/-- **C63.** A continuous-wave laser followed by a power meter reads `peak_power` at every instant. -/
theorem C63_cw {peak : ℝ} (hp : 0 ≤ peak) (x : Signal n) (i : Fin n) : measure (cwLaser peak x) i = peak := by
  unfold measure cwLaser
  rw [mul_one, Complex.norm_real, Real.norm_of_nonneg (Real.sqrt_nonneg _), Real.sq_sqrt hp]

theorem unwrapT_of_abs_le {rep t : ℝ} (hr : 0 < rep) (h : |t| ≤ rep / 2) : unwrapT rep t = t := by
  rw [abs_le] at h
  unfold unwrapT
  have hpi := Real.pi_pos
  rw [Real.arcsin_sin]
  · field_simp
  · rw [le_div_iff₀ hr]; nlinarith
  · rw [div_le_iff₀ hr]; nlinarith

theorem unwrapT_period {rep t : ℝ} (hr : 0 < rep) : unwrapT rep (t + rep) = -unwrapT rep t := by
  unfold unwrapT
  rw [show Real.pi * (t + rep) / rep = Real.pi * t / rep + Real.pi by field_simp, Real.sin_add_pi, Real.arcsin_neg]; ring

theorem unwrapT_neg (rep t : ℝ) : unwrapT rep (-t) = -unwrapT rep t := by
  unfold unwrapT
  rw [show Real.pi * -t / rep = -(Real.pi * t / rep) by ring, Real.sin_neg, Real.arcsin_neg]; ring

theorem gaussPulse_neg (t w : ℝ) : gaussPulse (-t) w = gaussPulse t w := by unfold gaussPulse; rw [neg_div, neg_sq]
theorem sechPulse_neg (t w : ℝ) : sechPulse (-t) w = sechPulse t w := by unfold sechPulse; rw [neg_div, Real.cosh_neg]

theorem gaussPulse_mem (t w : ℝ) : 0 < gaussPulse t w ∧ gaussPulse t w ≤ 1 :=
  ⟨Real.exp_pos _, Real.exp_le_one_iff.2 (by nlinarith [sq_nonneg (t / w)])⟩

theorem sechPulse_mem (t w : ℝ) : 0 < sechPulse t w ∧ sechPulse t w ≤ 1 := by
  unfold sechPulse
  have := Real.one_le_cosh (t / w)
  exact ⟨by positivity, by rw [div_le_one (by linarith)]; exact this⟩

theorem sincPulse_mem (t w : ℝ) : |sincPulse t w| ≤ 1 := by
  unfold sincPulse
  split
  · simp
  · rename_i h
    have : Real.pi * (t / w) ≠ 0 := mul_ne_zero Real.pi_ne_zero h
    rw [abs_div, div_le_one (abs_pos.2 this)]
    exact Real.abs_sin_le_abs

theorem norm_pulse_sq {g peak : ℝ} (hp : 0 ≤ peak) : ‖((g : ℂ) * (Real.sqrt peak : ℂ))‖ ^ 2 = g ^ 2 * peak := by
  rw [norm_mul, Complex.norm_real, Complex.norm_real, mul_pow, Real.norm_eq_abs, sq_abs, Real.norm_of_nonneg (Real.sqrt_nonneg _), Real.sq_sqrt hp]

/-- **C63.** The pulse trains `gaussian` and `sech`: defined at every time, periodic with the repetition time, symmetric, with power `peak_power`
at the pulse centres and never above. -/
theorem C63_pulse_train {width rep peak : ℝ} (hr : 0 < rep) (hp : 0 ≤ peak) (shape : String)
    (hs : shape = "gaussian" ∨ shape = "sech") (t : ℝ) (first : Bool) :
    ∃ z, pulseAt t width rep peak shape first = .ok z ∧ ‖z‖ ^ 2 ≤ peak ∧
      pulseAt (t + rep) width rep peak shape first = .ok z ∧ pulseAt (-t) width rep peak shape first = .ok z ∧
      (t = 0 → ‖z‖ ^ 2 = peak) := by
  have hz : unwrapT rep 0 = 0 := by unfold unwrapT; simp
  rcases hs with rfl | rfl
  · refine ⟨_, by unfold pulseAt; rw [if_pos rfl], ?_, ?_, ?_, ?_⟩
    · rw [norm_pulse_sq hp]
      obtain ⟨a, b⟩ := gaussPulse_mem (unwrapT rep t) (scaledWidth width)
      have : gaussPulse (unwrapT rep t) (scaledWidth width) ^ 2 ≤ 1 := by nlinarith
      nlinarith
    · unfold pulseAt; rw [if_pos rfl, unwrapT_period hr, gaussPulse_neg]
    · unfold pulseAt; rw [if_pos rfl, unwrapT_neg, gaussPulse_neg]
    · rintro rfl
      rw [norm_pulse_sq hp, hz]; simp [gaussPulse]
  · refine ⟨_, by unfold pulseAt; rw [if_neg (by decide), if_pos rfl], ?_, ?_, ?_, ?_⟩
    · rw [norm_pulse_sq hp]
      obtain ⟨a, b⟩ := sechPulse_mem (unwrapT rep t) (scaledWidth width)
      have : sechPulse (unwrapT rep t) (scaledWidth width) ^ 2 ≤ 1 := by nlinarith
      nlinarith
    · unfold pulseAt; rw [if_neg (by decide), if_pos rfl, unwrapT_period hr, sechPulse_neg]
    · unfold pulseAt; rw [if_neg (by decide), if_pos rfl, unwrapT_neg, sechPulse_neg]
    · rintro rfl
      rw [norm_pulse_sq hp, hz]; simp [sechPulse]

theorem scaledWidth_pos {w : ℝ} (hw : 0 < w) : 0 < scaledWidth w := by
  unfold scaledWidth
  have : 0 < Real.log 2 := Real.log_pos (by norm_num)
  positivity

theorem scaled_half {w : ℝ} (hw : 0 < w) (t : ℝ) : (t / scaledWidth w) ^ 2 = (2 * t / w) ^ 2 * Real.log 2 := by
  unfold scaledWidth
  have hl : 0 < Real.log 2 := Real.log_pos (by norm_num)
  have hs : Real.sqrt (Real.log 2) ≠ 0 := (Real.sqrt_pos.2 hl).ne'
  have e : t / (w / (2 * Real.sqrt (Real.log 2))) = 2 * t / w * Real.sqrt (Real.log 2) := by field_simp
  rw [e, mul_pow, Real.sq_sqrt hl.le]

/-- **C63.** `pulse_width` of a Gaussian pulse train is the full width of its power at half maximum: within half a period of a pulse centre, power is at
least `peak_power / 2` exactly for times within `pulse_width / 2` of it.  For `sech` the power is at least half within that time, so the pulse is at least as wide. -/
theorem C63_pulse_width {width rep peak : ℝ} (hw : 0 < width) (hr : 0 < rep) (hp : 0 < peak) {t : ℝ} (ht : |t| ≤ rep / 2) (first : Bool) :
    (∃ z, pulseAt t width rep peak "gaussian" first = .ok z ∧ (peak / 2 ≤ ‖z‖ ^ 2 ↔ |t| ≤ width / 2)) ∧
    (∃ z, pulseAt t width rep peak "sech" first = .ok z ∧ (|t| ≤ width / 2 → peak / 2 ≤ ‖z‖ ^ 2)) := by
  have hl : 0 < Real.log 2 := Real.log_pos (by norm_num)
  have hiff : (2 * t / width) ^ 2 ≤ 1 ↔ |t| ≤ width / 2 := by
    rw [sq_le_one_iff_abs_le_one, abs_div, abs_mul, abs_of_pos hw, abs_two, div_le_one hw]
    constructor <;> intro h <;> linarith
  constructor
  · refine ⟨_, by unfold pulseAt; rw [if_pos rfl], ?_⟩
    rw [norm_pulse_sq hp.le, unwrapT_of_abs_le hr ht, ← hiff]
    have e : gaussPulse t (scaledWidth width) ^ 2 = Real.exp (-((2 * t / width) ^ 2 * Real.log 2)) := by
      unfold gaussPulse
      rw [scaled_half hw, ← Real.exp_nat_mul]; congr 1; push_cast; ring
    rw [e]
    have e2 : peak / 2 = Real.exp (-Real.log 2) * peak := by rw [Real.exp_neg, Real.exp_log (by norm_num)]; ring
    rw [e2, mul_le_mul_iff_left₀ hp, Real.exp_le_exp, neg_le_neg_iff]
    constructor
    · intro h; exact le_of_mul_le_mul_right (by linarith) hl
    · intro h; nlinarith
  · refine ⟨_, by unfold pulseAt; rw [if_neg (by decide), if_pos rfl], fun h => ?_⟩
    rw [norm_pulse_sq hp.le, unwrapT_of_abs_le hr ht]
    unfold sechPulse
    have h1 := Real.cosh_le_exp_half_sq (t / scaledWidth width)
    have h0 := Real.one_le_cosh (t / scaledWidth width)
    have h2 : Real.cosh (t / scaledWidth width) ^ 2 ≤ 2 := by
      calc _ ≤ Real.exp ((t / scaledWidth width) ^ 2 / 2) ^ 2 := pow_le_pow_left₀ (by linarith) h1 2
        _ = Real.exp ((t / scaledWidth width) ^ 2) := by rw [← Real.exp_nat_mul]; congr 1; push_cast; ring
        _ ≤ Real.exp (Real.log 2) := Real.exp_le_exp.2 (by rw [scaled_half hw]; have := hiff.2 h; nlinarith)
        _ = 2 := Real.exp_log (by norm_num)
    rw [div_pow, one_pow, div_mul_eq_mul_div, one_mul]
    exact div_le_div_of_nonneg_left hp.le (by positivity) h2

/-- **C63.** `PulsedLaser.propagate`: unknown shapes raise `RuntimeError`; the two periodic shapes never exceed `peak_power` on any grid; the shape `delta` puts all its
power in the first sample of the window and nothing anywhere else (it is not a train). -/
theorem C63_pulsed_laser (P : Prop_ n) {width rep peak : ℝ} (hr : 0 < rep) (hp : 0 ≤ peak) (x : Signal n) :
    (∀ shape, shape = "gaussian" ∨ shape = "sech" → ∃ y, pulsedLaser P width rep peak shape x = .ok y ∧
      ∀ i, pulseAt (P.t i) width rep peak shape false = .ok (y i) ∧ measure y i ≤ peak) ∧
    (∃ y, pulsedLaser P width rep peak "delta" x = .ok y ∧ ∀ i, measure y i = if i.val = 0 then peak else 0) ∧
    (∀ shape, shape ∉ ["gaussian", "sech", "delta"] → pulsedLaser P width rep peak shape x = .error .runtimeError) := by
  refine ⟨fun shape hs => ?_, ?_, fun shape hs => ?_⟩
  · obtain ⟨z0, hz0, _⟩ := C63_pulse_train (width := width) hr hp shape hs 0 false
    refine ⟨_, by unfold pulsedLaser; rw [hz0], fun i => ?_⟩
    have hf : ∀ b, pulseAt (P.t i) width rep peak shape b = pulseAt (P.t i) width rep peak shape false := fun b => by
      unfold pulseAt
      rcases hs with rfl | rfl
      · rw [if_pos rfl, if_pos rfl]
      · rw [if_neg (by decide), if_pos rfl, if_neg (by decide), if_pos rfl]
    obtain ⟨z, hz, h1, _⟩ := C63_pulse_train (width := width) hr hp shape hs (P.t i) false
    have : pulseAt (P.t i) width rep peak shape (decide (i.val = 0)) = .ok z := by rw [hf, hz]
    unfold measure
    simp only [this, hz]
    exact ⟨trivial, h1⟩
  · refine ⟨_, by unfold pulsedLaser pulseAt; rw [if_neg (by decide), if_neg (by decide), if_pos rfl], fun i => ?_⟩
    unfold measure
    simp only [show ("delta" = "gaussian") = False from eq_false (by decide), show ("delta" = "sech") = False from eq_false (by decide), if_false, if_true]
    by_cases h : i.val = 0
    · rw [if_pos h]
      simp only [h, decide_true, if_true, one_mul]
      rw [Complex.norm_real, Real.norm_of_nonneg (Real.sqrt_nonneg _), Real.sq_sqrt hp]
    · simp [h]
  · simp only [List.mem_cons, List.not_mem_nil, or_false, not_or] at hs
    unfold pulsedLaser pulseAt
    rw [if_neg hs.1, if_neg hs.2.1, if_neg hs.2.2]

/-- **C63.** The pulses of `NoisySignal`: never above `peak_power`, `peak_power` at time zero, `RuntimeError` for unknown shapes. -/
theorem C63_noisy_signal {width peak : ℝ} (hp : 0 ≤ peak) (shape : String) (t : ℝ) :
    (shape ∈ ["gaussian", "sech", "sinc", "sinc-chirped"] →
      ∃ z, noisyAt t width peak shape = .ok z ∧ ‖z‖ ^ 2 ≤ peak ∧ (t = 0 → ‖z‖ ^ 2 = peak)) ∧
    (shape ∉ ["gaussian", "sech", "sinc", "sinc-chirped"] → noisyAt t width peak shape = .error .runtimeError) := by
  have bd : ∀ g : ℝ, |g| ≤ 1 → g ^ 2 * peak ≤ peak := fun g hg => by
    have : g ^ 2 ≤ 1 := (sq_le_one_iff_abs_le_one g).2 hg
    nlinarith
  have hexp : ∀ a : ℝ, ‖exp (I * 2 * Real.pi * 1 * (a : ℂ))‖ = 1 := fun a => by
    rw [show I * 2 * (Real.pi : ℂ) * 1 * (a : ℂ) = I * ((2 * Real.pi * a : ℝ) : ℂ) by push_cast; ring]; exact norm_expI _
  constructor
  · intro hs
    simp only [List.mem_cons, List.not_mem_nil, or_false] at hs
    rcases hs with rfl | rfl | rfl | rfl
    · refine ⟨_, by unfold noisyAt; rw [if_pos rfl], ?_, ?_⟩
      · rw [norm_pulse_sq hp]
        obtain ⟨a, b⟩ := gaussPulse_mem t (scaledWidth width)
        exact bd _ (by rw [abs_of_pos a]; exact b)
      · rintro rfl; rw [norm_pulse_sq hp]; simp [gaussPulse]
    · refine ⟨_, by unfold noisyAt; rw [if_neg (by decide), if_pos rfl], ?_, ?_⟩
      · rw [norm_pulse_sq hp]
        obtain ⟨a, b⟩ := sechPulse_mem t (scaledWidth width)
        exact bd _ (by rw [abs_of_pos a]; exact b)
      · rintro rfl; rw [norm_pulse_sq hp]; simp [sechPulse]
    · refine ⟨_, by unfold noisyAt; rw [if_neg (by decide), if_neg (by decide), if_pos rfl], ?_, ?_⟩
      · rw [norm_pulse_sq hp]; exact bd _ (sincPulse_mem _ _)
      · rintro rfl; rw [norm_pulse_sq hp]; simp [sincPulse]
    · have key : ∀ t : ℝ, ‖((sincPulse t (scaledWidth width) : ℂ) * exp (I * 2 * Real.pi * 1 * ((t / scaledWidth width) ^ 2 : ℝ)) * (Real.sqrt peak : ℂ))‖ ^ 2 =
          sincPulse t (scaledWidth width) ^ 2 * peak := fun t => by
        rw [norm_mul, norm_mul, hexp, mul_one, ← norm_mul, norm_pulse_sq hp]
      refine ⟨_, by unfold noisyAt; rw [if_neg (by decide), if_neg (by decide), if_neg (by decide), if_pos rfl], ?_, ?_⟩
      · rw [key]; exact bd _ (sincPulse_mem _ _)
      · rintro rfl; rw [key]; simp [sincPulse]
  · intro hs
    simp only [List.mem_cons, List.not_mem_nil, or_false, not_or] at hs
    unfold noisyAt
    rw [if_neg hs.1, if_neg hs.2.1, if_neg hs.2.2.1, if_neg hs.2.2.2]

/-- **C63.** The impulse source is `1 / dt` in the sample number `⌈n/2⌉` and zero in all others: on odd grids it comes one sample after the middle of the
window (the time axis is zero at number `(n-1)/2`), on even grids half a step after. -/
theorem C63_impulse (hn : 2 ≤ n) {P : Prop_ n} (x : Signal n) (i : Fin n) :
    impulse P x i = (if i.val = (n + 1) / 2 then 1 / (P.dt : ℂ) else 0) ∧
    (i.val = (n + 1) / 2 → P.t i = if n % 2 = 0 then P.dt / 2 else P.dt) := by
  have hn0 : 0 < n := by omega
  have hn' : (n : ℂ) ≠ 0 := by exact_mod_cast hn0.ne'
  have hi := i.isLt
  have hd0 : npIfft (fun _ : Fin n => (1 : ℂ)) = fun j => if j = ⟨0, hn0⟩ then 1 else 0 := by
    have h0 : (fun _ : Fin n => (1 : ℂ)) = npFft (fun j => if j = ⟨0, hn0⟩ then 1 else 0) := by
      funext k
      rw [npFft_ker, sum_eq_single ⟨0, hn0⟩]
      · rw [if_pos rfl]; simp [ker]
      · intro b _ hb; rw [if_neg hb, zero_mul]
      · intro h; exact absurd (mem_univ _) h
    rw [h0, npIfft_npFft]
  constructor
  · unfold impulse ifftShift ifft_
    rw [hd0]
    have hidx : rotIdx (n / 2) i = ⟨0, hn0⟩ ↔ i.val = (n + 1) / 2 := by
      rw [Fin.ext_iff]
      show (i.val + n / 2) % n = 0 ↔ _
      rcases Nat.lt_or_ge (i.val + n / 2) n with h | h
      · rw [Nat.mod_eq_of_lt h]; omega
      · rw [Nat.mod_eq_sub_mod h, Nat.mod_eq_of_lt (by omega)]; omega
    simp only
    by_cases h : i.val = (n + 1) / 2
    · rw [if_pos (hidx.2 h), if_pos h]
    · rw [if_neg (fun hc => h (hidx.1 hc)), if_neg h, zero_div]
  · intro h
    have h1 := two_le_cast hn
    have ht : P.t i = P.dt * ((i.val : ℝ) - ((n : ℝ) - 1) / 2) := by
      rw [(dt_df P).1]; unfold Prop_.t Prop_.linspace; field_simp; ring
    rw [ht, h]
    split
    · rename_i he
      have : (((n + 1) / 2 : ℕ) : ℝ) = (n : ℝ) / 2 := by
        have : (n : ℝ) = 2 * (((n + 1) / 2 : ℕ) : ℝ) := by exact_mod_cast (by omega : n = 2 * ((n + 1) / 2))
        linarith
      rw [this]; ring
    · have : (((n + 1) / 2 : ℕ) : ℝ) = ((n : ℝ) + 1) / 2 := by
        have : (n : ℝ) + 1 = 2 * (((n + 1) / 2 : ℕ) : ℝ) := by exact_mod_cast (by omega : n + 1 = 2 * ((n + 1) / 2))
        linarith
      rw [this]; ring

/-- The default parameters of the pulsed laser meet the hypotheses. -/
example : (0 : ℝ) < 100 / 10 ^ 12 ∧ (0 : ℝ) < 10 / 10 ^ 9 ∧ (0 : ℝ) < 1 ∧ |(1 / 10 ^ 12 : ℝ)| ≤ 10 / 10 ^ 9 / 2 := by
  refine ⟨by norm_num, by norm_num, by norm_num, ?_⟩
  rw [abs_of_pos (by norm_num)]; norm_num

/-! Cases of the theorems above. -/

example := C63_cw (peak := 1 / 2) (by norm_num) (fun _ : Fin 4 => 0) 2
example := C63_pulse_train (width := 3 / 10 ^ 12) (rep := 1 / 10 ^ 10) (peak := 1) (by norm_num) (by norm_num) "sech" (.inr rfl) (1 / 10 ^ 12) false
example := C63_pulse_width (width := 3 / 10 ^ 12) (rep := 1 / 10 ^ 10) (peak := 1) (by norm_num) (by norm_num) (by norm_num) (t := 1 / 10 ^ 12)
  (by rw [abs_of_pos (by norm_num)]; norm_num) true
example := C63_pulsed_laser demoProp (width := 3 / 10) (rep := 1) (peak := 2) (by norm_num) (by norm_num) (fun _ => 0)
example := C63_noisy_signal (width := 3 / 10) (peak := 2) (by norm_num) "sinc-chirped" (1 / 2)
example := C63_impulse (n := 4) (by norm_num) (P := demoProp) (fun _ => 0) 2

end Verif
