import Verif.Spec.Signal
import Verif.Lemmas.Fourier
import Mathlib.Tactic.Linarith
import Mathlib.Tactic.FieldSimp
/-!
# Properties of the grid and of the Fourier helpers (C53, C54)
-/

namespace Verif
open Complex Finset

theorem two_le_cast {n : Nat} (hn : 2 ≤ n) : (n : ℝ) - 1 ≠ 0 := by
  have : (2 : ℝ) ≤ n := by exact_mod_cast hn
  intro h; linarith

theorem linspace_last {n : Nat} (hn : 2 ≤ n) (lo hi : ℝ) (h : n - 1 < n) : Prop_.linspace lo hi n ⟨n - 1, h⟩ = hi := by
  have := two_le_cast hn
  unfold Prop_.linspace
  rw [show (((⟨n - 1, h⟩ : Fin n) : ℕ) : ℝ) = (n : ℝ) - 1 by push_cast [Nat.cast_sub (by omega : 1 ≤ n)]; ring]
  field_simp; ring

/-- **C53.** Both axes have `n_samples` points with constant spacing (`dt`, `df`), run from minus to plus half the window
(half the bandwidth `n / window_t`) with both ends included, and are antisymmetric; this is so again after `n_samples` is set. -/
theorem C53_axes {m n : Nat} (hn : 2 ≤ n) (P0 : Prop_ m) :
    let P : Prop_ n := P0.setSamples n
    (∀ h : 0 < n, P.t ⟨0, h⟩ = -(P0.window / 2) ∧ P.f ⟨0, h⟩ = -(n / P0.window / 2)) ∧
    (∀ h : n - 1 < n, P.t ⟨n - 1, h⟩ = P0.window / 2 ∧ P.f ⟨n - 1, h⟩ = n / P0.window / 2) ∧
    (∀ (i : Nat) (h : i + 1 < n), P.t ⟨i + 1, h⟩ - P.t ⟨i, by omega⟩ = P.dt ∧
      P.f ⟨i + 1, h⟩ - P.f ⟨i, by omega⟩ = P.df) ∧
    (∀ i : Fin n, P.t i.rev = -P.t i ∧ P.f i.rev = -P.f i) := by
  have h1 := two_le_cast hn
  refine ⟨fun h => ?_, fun h => ⟨linspace_last hn _ _ h, linspace_last hn _ _ h⟩, fun i h => ?_, fun i => ?_⟩
  · constructor <;> simp [Prop_.t, Prop_.f, Prop_.linspace, Prop_.setSamples] <;> ring
  · constructor <;> simp [Prop_.t, Prop_.f, Prop_.dt, Prop_.df, Prop_.linspace, Prop_.linstep, Prop_.setSamples] <;> ring
  · have hr : ((i.rev : ℕ) : ℝ) = (n : ℝ) - 1 - i := by
      rw [Fin.val_rev]; push_cast [Nat.cast_sub (by omega : (i : ℕ) + 1 ≤ n)]; ring
    constructor <;> simp only [Prop_.t, Prop_.f, Prop_.linspace, Prop_.setSamples] <;> rw [hr] <;> field_simp <;> ring

theorem dt_df {n : Nat} (P : Prop_ n) : P.dt = P.window / ((n : ℝ) - 1) ∧ P.df = n / P.window / ((n : ℝ) - 1) := by
  constructor <;> simp only [Prop_.dt, Prop_.df, Prop_.linstep] <;> ring

/-- **C53.** The central frequency is the one of the central wavelength: their product is the speed of light, in metres per second. -/
theorem C53_central {n : Nat} (P : Prop_ n) (h : P.centralWl ≠ 0) : P.central * P.centralWl = 299792458 := by
  unfold Prop_.central lightSpeed
  exact div_mul_cancel₀ _ h

example : (⟨1e-9, 1550e-9⟩ : Prop_ 8).central * 1550e-9 = 299792458 := C53_central ⟨1e-9, 1550e-9⟩ (by norm_num)

/-- **C53, finding.** The frequency axis is not the axis of the FFT: its spacing is never `1 / (n_samples * dt)`. -/
theorem C53_not_fft_axis {n : Nat} (hn : 2 ≤ n) (P : Prop_ n) (hw : P.window ≠ 0) :
    P.df ≠ 1 / (n * P.dt) ∧ P.df * (n * P.dt) = ((n : ℝ) / (n - 1)) ^ 2 := by
  have h1 := two_le_cast hn
  have h2 : (2 : ℝ) ≤ n := by exact_mod_cast hn
  have h3 : (n : ℝ) ≠ 0 := by linarith
  obtain ⟨a, b⟩ := dt_df P
  have key : P.df * (n * P.dt) = ((n : ℝ) / (n - 1)) ^ 2 := by rw [a, b]; field_simp
  refine ⟨fun hc => ?_, key⟩
  have hne : (n * P.dt) ≠ 0 := by rw [a]; exact mul_ne_zero h3 (div_ne_zero hw h1)
  rw [hc, one_div, inv_mul_cancel₀ hne, div_pow, eq_comm, div_eq_one_iff_eq (pow_ne_zero 2 h1)] at key
  nlinarith

/-- **C53.** After `ifft_shift_`, bin `k` of the FFT is paired with frequency `df * (signed bin)` for an odd number of samples;
for an even number every bin is off by half a step, so no bin is paired with frequency zero. -/
theorem C53_shifted_axis {n : Nat} (hn : 2 ≤ n) (P : Prop_ n) (k : Fin n) :
    ifftShift P.f k = P.df * (signedBin n k + (if n % 2 = 0 then 1 / 2 else 0)) := by
  have h1 := two_le_cast hn
  have hk := k.isLt
  have hidx : (((rotIdx (n / 2) k : Fin n) : ℕ) : ℝ) = (signedBin n k : ℝ) + ((n / 2 : ℕ) : ℝ) := by
    have : ((rotIdx (n / 2) k : Fin n) : ℕ) = (k + n / 2) % n := rfl
    rw [this]
    unfold signedBin
    split
    · rw [Nat.mod_eq_of_lt (by omega)]; push_cast; ring
    · rw [Nat.mod_eq_sub_mod (by omega), Nat.mod_eq_of_lt (by omega), Nat.cast_sub (by omega)]; push_cast; ring
  have hf : ifftShift P.f k = P.df * ((((rotIdx (n / 2) k : Fin n) : ℕ) : ℝ) - ((n : ℝ) - 1) / 2) := by
    rw [(dt_df P).2]; unfold ifftShift Prop_.f Prop_.linspace; field_simp; ring
  rw [hf, hidx]
  split
  · rename_i he
    have : (n : ℝ) = 2 * ((n / 2 : ℕ) : ℝ) := by exact_mod_cast (by omega : n = 2 * (n / 2))
    congr 1; linarith
  · rename_i he
    have : (n : ℝ) = 2 * ((n / 2 : ℕ) : ℝ) + 1 := by exact_mod_cast (by omega : n = 2 * (n / 2) + 1)
    congr 1; linarith

/-- **C53, finding.** Setting `window_t` always raises. -/
theorem C53_window_setter {n : Nat} (P : Prop_ n) (ty : Prop_.PyType) (w : ℝ) :
    P.setWindow ty w = .error .valueError := by
  unfold Prop_.setWindow; rw [if_pos (by simp)]

/-- **C54.** `ifft_` and `fft_` are inverse to each other for every number of samples and every non-zero step. -/
theorem C54_inverse {n : Nat} (x : Signal n) {dt : ℝ} (h : dt ≠ 0) :
    ifft_ (fft_ x dt) dt = x ∧ fft_ (ifft_ x dt) dt = x := by
  have h' : (dt : ℂ) ≠ 0 := by exact_mod_cast h
  constructor
  · have : fft_ x dt = fun k => (dt : ℂ) * npFft x k := by funext k; simp [fft_, mul_comm]
    funext j
    rw [this, ifft_, npIfft_smul, npIfft_npFft, mul_div_cancel_left₀ _ h']
  · have : ifft_ x dt = fun k => (dt : ℂ)⁻¹ * npIfft x k := by funext k; simp [ifft_, div_eq_inv_mul]
    funext j
    rw [this, fft_, npFft_smul, npFft_npIfft, mul_comm, mul_inv_cancel_left₀ h']

/-- **C54.** Both are linear. -/
theorem C54_linear {n : Nat} (c : ℂ) (x y : Signal n) (dt : ℝ) :
    (fft_ (fun i => c * x i + y i) dt = fun k => c * fft_ x dt k + fft_ y dt k) ∧
    (ifft_ (fun i => c * x i + y i) dt = fun k => c * ifft_ x dt k + ifft_ y dt k) := by
  constructor
  · funext k; unfold fft_; rw [npFft_add, npFft_smul]; ring
  · funext k; unfold ifft_; rw [npIfft_add, npIfft_smul]; ring

/-- **C54.** Parseval: the spectrum's energy is `n * dt²` times the signal's. -/
theorem C54_parseval {n : Nat} (x : Signal n) (dt : ℝ) : energy (fft_ x dt) = n * dt ^ 2 * energy x := by
  unfold energy fft_
  simp_rw [norm_mul, mul_pow, Complex.norm_real, Real.norm_eq_abs, sq_abs]
  rw [← sum_mul, npFft_parseval]; ring

/-- **C54.** The shifts undo each other and lose nothing; for an even number of samples they are the same map. -/
theorem C54_shifts {n : Nat} {α : Type} (x : Fin n → α) :
    ifftShift (fftShift x) = x ∧ fftShift (ifftShift x) = x ∧ (n % 2 = 0 → fftShift x = ifftShift x) := by
  refine ⟨ifftShift_fftShift x, fftShift_ifftShift x, fun h => ?_⟩
  funext i; unfold fftShift ifftShift; rw [show n - n / 2 = n / 2 by omega]

/-- **C54.** The power spectral density integrates to the energy: `Σ psd * df = n * dt² * energy`. -/
theorem C54_psd {n : Nat} (x : Signal n) (dt : ℝ) {df : ℝ} (h : df ≠ 0) :
    (∑ i, psd_ x dt df i * df) = n * dt ^ 2 * energy x ∧ (0 < df → ∀ i, 0 ≤ psd_ x dt df i) := by
  constructor
  · unfold psd_ energy
    simp_rw [div_mul_cancel₀ _ h, norm_mul, mul_pow, Complex.norm_real, Real.norm_eq_abs, sq_abs]
    have h1 : ∑ i, ‖fftShift (npFft (fftShift x)) i‖ ^ 2 = ∑ i, ‖npFft (fftShift x) i‖ ^ 2 :=
      sum_fftShift (fun i => ‖npFft (fftShift x) i‖ ^ 2)
    have h2 : ∑ i, ‖fftShift x i‖ ^ 2 = ∑ i, ‖x i‖ ^ 2 := sum_fftShift (fun i => ‖x i‖ ^ 2)
    rw [← sum_mul, h1, npFft_parseval, h2]
    ring
  · intro hp i; unfold psd_; positivity

/-- A propagator with the default wavelength. -/
noncomputable def demoProp : Prop_ 4 := ⟨3, 155 / 100000000⟩

example : demoProp.window ≠ 0 ∧ demoProp.dt = 1 ∧ demoProp.df = 4 / 9 := by
  refine ⟨by norm_num [demoProp], ?_, ?_⟩
  · rw [(dt_df demoProp).1]; norm_num [demoProp]
  · rw [(dt_df demoProp).2]; norm_num [demoProp]

/-! Cases of the theorems above. -/

example := C53_axes (n := 8) (by norm_num) demoProp
example := C53_not_fft_axis (by norm_num) demoProp (by norm_num [demoProp])
example := C53_shifted_axis (by norm_num) demoProp 3
example := C53_window_setter demoProp .float 5
example := C54_inverse (![1, 2, 3] : Signal 3) (dt := 1 / 10) (by norm_num)
example := C54_linear I (![1, 2, 3] : Signal 3) ![3, 2, 5] (1 / 10)
example := C54_parseval (![1, 2, 3] : Signal 3) (1 / 10)
example := C54_shifts (![1, 2, 3] : Signal 3)
example := C54_psd (![1, 2, 3] : Signal 3) (1 / 10) (df := 10) (by norm_num)

end Verif
